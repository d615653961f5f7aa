import Verif.Common.Res
import Verif.Common.Order
import Mathlib.Tactic.SplitIfs
import Mathlib.Tactic.Tauto

/-!
# Doubly linked nodes

A heap of nodes with a `next` and a `previous` pointer, shared by the models of `etl::list` (`/repo/include/etl/list.h`) and
`etl::intrusive_list` (`/repo/include/etl/intrusive_list.h`, `intrusive_links.h`).  Nodes are numbered `1..lim`; `0` is the null pointer.
Following or writing a pointer of anything else is the error `nullDeref`.
-/
namespace Etl

structure Links where
  lim : Nat
  nx : Nat → Nat
  pv : Nat → Nat

namespace Links

def valid (h : Links) (p : Nat) : Prop := 0 < p ∧ p ≤ h.lim
instance (h : Links) (p : Nat) : Decidable (h.valid p) := inferInstanceAs (Decidable (_ ∧ _))

/-- `p->next` -/
def next (h : Links) (p : Nat) : Res Nat := if h.valid p then .ok (h.nx p) else .error .nullDeref
/-- `p->previous` -/
def prev (h : Links) (p : Nat) : Res Nat := if h.valid p then .ok (h.pv p) else .error .nullDeref

/-- `left.next = &right; right.previous = &left;` -/
def joined (h : Links) (a b : Nat) : Links := { h with nx := upd h.nx a b, pv := upd h.pv b a }
/-- `join(left, right)`, list.h l.343-347; `etl::link(lhs, rhs)`, intrusive_links.h l.552-556. -/
def join (h : Links) (a b : Nat) : Res Links := if h.valid a ∧ h.valid b then .ok (h.joined a b) else .error .nullDeref

@[simp] theorem joined_lim (h : Links) (a b : Nat) : (h.joined a b).lim = h.lim := rfl
@[simp] theorem joined_valid (h : Links) (a b p : Nat) : (h.joined a b).valid p ↔ h.valid p := Iff.rfl
theorem next_ok {h : Links} {p : Nat} (hp : h.valid p) : h.next p = .ok (h.nx p) := if_pos hp
theorem prev_ok {h : Links} {p : Nat} (hp : h.valid p) : h.prev p = .ok (h.pv p) := if_pos hp
theorem join_ok {h : Links} {a b : Nat} (ha : h.valid a) (hb : h.valid b) : h.join a b = .ok (h.joined a b) := if_pos ⟨ha, hb⟩

/-! ## Chains -/

/-- consecutive nodes are linked both ways -/
def Ch (h : Links) : List Nat → Prop
  | [] => True
  | [_] => True
  | a :: b :: l => h.nx a = b ∧ h.pv b = a ∧ Ch h (b :: l)

/-- consecutive nodes are linked forwards -/
def Fw (h : Links) : List Nat → Prop
  | [] => True
  | [_] => True
  | a :: b :: l => h.nx a = b ∧ Fw h (b :: l)

theorem Ch.fw {h : Links} : ∀ {l : List Nat}, Ch h l → Fw h l
  | [], _ => trivial
  | [_], _ => trivial
  | _ :: _ :: _, hc => ⟨hc.1, Ch.fw hc.2.2⟩

theorem Ch.tail {h : Links} {a : Nat} {l : List Nat} (hc : Ch h (a :: l)) : Ch h l := by
  cases l with
  | nil => trivial
  | cons b l => exact hc.2.2
theorem Fw.tail {h : Links} {a : Nat} {l : List Nat} (hc : Fw h (a :: l)) : Fw h l := by
  cases l with
  | nil => trivial
  | cons b l => exact hc.2

theorem ch_append {h : Links} : ∀ {l : List Nat} {a b : Nat} {r : List Nat},
    Ch h (l ++ a :: b :: r) ↔ Ch h (l ++ [a]) ∧ (h.nx a = b ∧ h.pv b = a) ∧ Ch h (b :: r)
  | [], a, b, r => by simp [Ch, and_assoc]
  | [x], a, b, r => by simp [Ch, and_assoc]
  | x :: y :: l, a, b, r => by
    have := ch_append (l := y :: l) (a := a) (b := b) (r := r) (h := h)
    simp only [List.cons_append] at this
    simp only [List.cons_append, Ch, this, and_assoc]

theorem fw_append {h : Links} : ∀ {l : List Nat} {a b : Nat} {r : List Nat},
    Fw h (l ++ a :: b :: r) ↔ Fw h (l ++ [a]) ∧ h.nx a = b ∧ Fw h (b :: r)
  | [], a, b, r => by simp [Fw]
  | [x], a, b, r => by simp [Fw]
  | x :: y :: l, a, b, r => by
    have := fw_append (l := y :: l) (a := a) (b := b) (r := r) (h := h)
    simp only [List.cons_append] at this
    simp only [List.cons_append, Fw, this, and_assoc]

theorem Fw.left {h : Links} : ∀ {l r : List Nat}, Fw h (l ++ r) → Fw h l
  | [], _, _ => trivial
  | [_], _, _ => trivial
  | _ :: b :: l, r, hc => ⟨hc.1, Fw.left (l := b :: l) (r := r) hc.2⟩

theorem Fw.right {h : Links} : ∀ {l r : List Nat}, Fw h (l ++ r) → Fw h r
  | [], _, hc => hc
  | _ :: l, r, hc => Fw.right (l := l) (r := r) hc.tail

theorem Ch.left {h : Links} : ∀ {l r : List Nat}, Ch h (l ++ r) → Ch h l
  | [], _, _ => trivial
  | [_], _, _ => trivial
  | _ :: b :: l, r, hc => ⟨hc.1, hc.2.1, Ch.left (l := b :: l) (r := r) hc.2.2⟩

theorem Ch.right {h : Links} : ∀ {l r : List Nat}, Ch h (l ++ r) → Ch h r
  | [], _, hc => hc
  | _ :: l, r, hc => Ch.right (l := l) (r := r) hc.tail

theorem Ch.frame {h h' : Links} : ∀ {l : List Nat}, Ch h l → (∀ x ∈ l.dropLast, h'.nx x = h.nx x) → (∀ x ∈ l.tail, h'.pv x = h.pv x) → Ch h' l
  | [], _, _, _ => trivial
  | [_], _, _, _ => trivial
  | a :: b :: l, hc, h1, h2 => by
    refine ⟨by rw [h1 a (by simp)]; exact hc.1, by rw [h2 b (by simp)]; exact hc.2.1, ?_⟩
    refine Ch.frame (l := b :: l) hc.2.2 (fun x hx => h1 x ?_) (fun x hx => h2 x ?_)
    · rw [List.dropLast_cons_cons]; exact List.mem_cons_of_mem _ hx
    · simp only [List.tail_cons] at hx ⊢; exact List.mem_cons_of_mem _ hx

theorem Fw.frame {h h' : Links} : ∀ {l : List Nat}, Fw h l → (∀ x ∈ l.dropLast, h'.nx x = h.nx x) → Fw h' l
  | [], _, _ => trivial
  | [_], _, _ => trivial
  | a :: b :: l, hc, h1 => by
    refine ⟨by rw [h1 a (by simp)]; exact hc.1, ?_⟩
    refine Fw.frame (l := b :: l) hc.2 (fun x hx => h1 x ?_)
    rw [List.dropLast_cons_cons]; exact List.mem_cons_of_mem _ hx

theorem Ch.join_frame {h : Links} {l : List Nat} {p q : Nat} (hc : Ch h l) (hp : p ∉ l.dropLast) (hq : q ∉ l.tail) : Ch (h.joined p q) l :=
  hc.frame (fun x hx => upd_other _ _ (fun e => hp (e ▸ hx))) (fun x hx => upd_other _ _ (fun e => hq (e ▸ hx)))

theorem Fw.join_frame {h : Links} {l : List Nat} {p q : Nat} (hc : Fw h l) (hp : p ∉ l.dropLast) : Fw (h.joined p q) l :=
  hc.frame (fun x hx => upd_other _ _ (fun e => hp (e ▸ hx)))

/-- Joining the end of one chain to the start of another. -/
theorem Ch.join_mid {h : Links} {A B : List Nat} {p q : Nat} (hA : Ch h (A ++ [p])) (hB : Ch h (q :: B)) (h1 : p ∉ A) (h2 : q ∉ B)
    (h3 : p ∉ (q :: B).dropLast) (h4 : q ∉ (A ++ [p]).tail) : Ch (h.joined p q) (A ++ p :: q :: B) := by
  rw [ch_append]
  refine ⟨hA.join_frame (by simpa using h1) h4, ⟨by simp [joined], by simp [joined]⟩, hB.join_frame h3 (by simpa using h2)⟩

/-- The circle of a list: terminal node `t`, nodes `l` in order. -/
structure Circle (h : Links) (t : Nat) (l : List Nat) : Prop where
  ch : Ch h (t :: l ++ [t])
  nd : (t :: l).Nodup
  ok : ∀ x ∈ t :: l, h.valid x

theorem Circle.tv {h : Links} {t : Nat} {l : List Nat} (c : Circle h t l) : h.valid t := c.ok t (by simp)

/-- Node `i` of the circle, the terminal for `i = length`. -/
def nodeAt (t : Nat) (l : List Nat) (i : Nat) : Nat := (l[i]?).getD t

theorem nodeAt_lt {t : Nat} {l : List Nat} {i : Nat} (hi : i < l.length) : nodeAt t l i = l[i] := by simp [nodeAt, hi]
theorem nodeAt_len {t : Nat} {l : List Nat} {i : Nat} (hi : l.length ≤ i) : nodeAt t l i = t := by simp [nodeAt, hi]

/-- A circle is a circle for its wrapped form `P ++ p :: q :: S`. -/
theorem Circle.split {h : Links} {t : Nat} {A B : List Nat} (c : Circle h t (A ++ B)) :
    ∃ P p q S, t :: A = P ++ [p] ∧ B ++ [t] = q :: S ∧ Ch h (P ++ [p]) ∧ Ch h (q :: S) ∧ h.nx p = q ∧ h.pv q = p := by
  obtain ⟨P, p, e1⟩ : ∃ P p, t :: A = P ++ [p] := ⟨(t :: A).dropLast, (t :: A).getLast (by simp), (List.dropLast_concat_getLast (by simp)).symm⟩
  obtain ⟨q, S, e2⟩ : ∃ q S, B ++ [t] = q :: S := by
    cases B with
    | nil => exact ⟨t, [], rfl⟩
    | cons b B => exact ⟨b, B ++ [t], rfl⟩
  have hc := c.ch
  have : t :: (A ++ B) ++ [t] = P ++ p :: q :: S := by
    rw [List.cons_append, List.append_assoc, ← List.cons_append, e1, e2]; simp
  rw [this, ch_append] at hc
  exact ⟨P, p, q, S, e1, e2, hc.1, hc.2.2, hc.2.1.1, hc.2.1.2⟩

theorem Circle.next {h : Links} {t : Nat} {A B : List Nat} {x : Nat} (c : Circle h t (A ++ x :: B)) : h.nx x = (B ++ [t]).head (by simp) := by
  have hc := c.ch
  obtain ⟨q, S, e⟩ : ∃ q S, B ++ [t] = q :: S := by
    cases B with
    | nil => exact ⟨t, [], rfl⟩
    | cons b B => exact ⟨b, B ++ [t], rfl⟩
  have : t :: (A ++ x :: B) ++ [t] = (t :: A) ++ x :: q :: S := by rw [← e]; simp
  rw [this, ch_append] at hc
  simp only [e, List.head_cons]; exact hc.2.1.1

theorem Circle.first {h : Links} {t : Nat} {l : List Nat} (c : Circle h t l) : h.nx t = nodeAt t l 0 := by
  have hc := c.ch
  cases l with
  | nil => exact hc.1
  | cons a l => exact hc.1

theorem Circle.last {h : Links} {t : Nat} {l : List Nat} (c : Circle h t l) : h.pv t = (t :: l).getLast (by simp) := by
  obtain ⟨P, p, q, S, e1, e2, _, _, _, h4⟩ := Circle.split (A := l) (B := []) (by simpa using c)
  simp only [List.nil_append, List.cons.injEq] at e2
  obtain ⟨rfl, rfl⟩ := e2
  rw [h4]; simp [e1]

theorem Circle.nx_at {h : Links} {t : Nat} {l : List Nat} (c : Circle h t l) {i : Nat} (hi : i < l.length) : h.nx l[i] = nodeAt t l (i + 1) := by
  have e : l = l.take i ++ l[i] :: l.drop (i + 1) := by rw [← List.drop_eq_getElem_cons hi, List.take_append_drop]
  have c' := c; rw [e] at c'
  rw [c'.next]
  by_cases h1 : i + 1 < l.length
  · rw [nodeAt_lt h1]; rw [List.head_append_of_ne_nil (by simp; omega), List.head_drop]
  · rw [nodeAt_len (by omega)]
    have : l.drop (i + 1) = [] := List.drop_of_length_le (by omega)
    simp [this]

theorem Circle.pv_at {h : Links} {t : Nat} {l : List Nat} (c : Circle h t l) {i : Nat} (hi : i ≤ l.length) :
    h.pv (nodeAt t l i) = if i = 0 then t else nodeAt t l (i - 1) := by
  have e := (List.take_append_drop i l).symm
  have c' := c; rw [e] at c'
  obtain ⟨P, p, q, S, e1, e2, _, _, _, h4⟩ := c'.split
  have hq : nodeAt t l i = q := by
    by_cases h1 : i < l.length
    · rw [nodeAt_lt h1]
      rw [List.drop_eq_getElem_cons h1] at e2; simp only [List.cons_append, List.cons.injEq] at e2; exact e2.1
    · rw [nodeAt_len (by omega)]
      rw [List.drop_of_length_le (by omega)] at e2; simp only [List.nil_append, List.cons.injEq] at e2; exact e2.1
  rw [hq, h4]
  have hp : p = (t :: l.take i).getLast (by simp) := by simp [e1]
  rw [hp]
  split_ifs with h0
  · subst h0; simp
  · have hne : l.take i ≠ [] := by
      intro x; have := congrArg List.length x; rw [List.length_take, List.length_nil] at this; omega
    rw [List.getLast_cons hne, nodeAt_lt (by omega), List.getLast_eq_getElem]
    simp only [List.length_take, List.getElem_take]; congr 1; omega

/-- Linking a chain `N` in before the node at position `A.length`: two joins. -/
theorem Circle.insertSeg {h : Links} {t : Nat} {A B : List Nat} (c : Circle h t (A ++ B)) {N : List Nat} {f e : Nat} (hne : N ≠ [])
    (hf : N.head hne = f) (he : N.getLast hne = e) (hN : Ch h N) (hnd : (t :: (A ++ B) ++ N).Nodup) (hv : ∀ x ∈ N, h.valid x) :
    let q := nodeAt t (A ++ B) A.length
    let p := h.pv q
    h.valid p ∧ h.valid q ∧ h.valid f ∧ h.valid e ∧ Circle ((h.joined p f).joined e q) t (A ++ N ++ B) := by
  obtain ⟨P, p, q, S, e1, e2, hA, hB, h3, h4⟩ := c.split
  obtain ⟨N1, rfl⟩ : ∃ N1, N = f :: N1 := by
    cases N with
    | nil => exact absurd rfl hne
    | cons a N => exact ⟨N, by simp at hf; rw [hf]⟩
  obtain ⟨N2, e3⟩ : ∃ N2, f :: N1 = N2 ++ [e] := ⟨(f :: N1).dropLast, by rw [← he]; exact (List.dropLast_concat_getLast _).symm⟩
  have hq : nodeAt t (A ++ B) A.length = q := by
    cases B with
    | nil => simp at e2; simp [nodeAt, e2.1]
    | cons b B => simp at e2; simp [nodeAt, e2.1]
  have hnd0 := c.nd
  have hdis : ∀ x, x ∈ f :: N1 → x ∉ t :: (A ++ B) := fun x hx hy => (List.nodup_append.1 hnd).2.2 x hy x hx rfl
  have hndN := (List.nodup_append.1 hnd).2.1
  have hnd1 : (P ++ [p]).Nodup := by rw [← e1]; exact hnd0.sublist (by simp)
  have hnd2 : (q :: S).Nodup := by
    rw [← e2]
    have h5 := (List.nodup_cons.1 hnd0)
    refine List.nodup_append.2 ⟨(List.nodup_append.1 h5.2).2.1, by simp, ?_⟩
    intro x hx y hy; simp at hy; rintro rfl; rw [hy] at hx; exact h5.1 (by simp [hx])
  have hpm : p ∈ t :: A := by rw [e1]; simp
  have hqm : q ∈ B ++ [t] := by rw [e2]; simp
  have hpv : h.valid p := c.ok p (by simp only [List.mem_cons, List.mem_append] at hpm ⊢; tauto)
  have hqv : h.valid q := c.ok q (by simp only [List.mem_cons, List.mem_append, List.not_mem_nil] at hqm ⊢; tauto)
  have hNA : ∀ x, x ∈ f :: N1 → x ∉ P ++ [p] := by
    intro x hx; rw [← e1]; have := hdis x hx; simp at this ⊢; tauto
  have hNB : ∀ x, x ∈ f :: N1 → x ∉ q :: S := by
    intro x hx; rw [← e2]; have := hdis x hx; simp at this ⊢; tauto
  have hsep : ∀ x, x ∈ P ++ [p] → x ∈ q :: S → x = t := by
    intro x hx hy
    rw [← e1] at hx; rw [← e2] at hy
    simp only [List.mem_cons, List.mem_append, List.not_mem_nil, or_false] at hx hy
    rcases hx with hx | hx
    · exact hx
    · rcases hy with hy | hy
      · have h5 := List.nodup_append.1 (List.nodup_cons.1 hnd0).2
        exact absurd rfl (h5.2.2 x hx x hy)
      · exact hy
  have e2' : (q :: S).dropLast = B := by rw [← e2]; simp
  have e1' : (P ++ [p]).tail = A := by rw [← e1]; simp
  have hpB : p ∉ (q :: S).dropLast := by
    rw [e2']; intro hx
    have := hsep p (by simp) (by rw [← e2]; simp [hx])
    exact (List.nodup_cons.1 hnd0).1 (by rw [← this]; simp [hx])
  have hqA : q ∉ (P ++ [p]).tail := by
    rw [e1']; intro hx
    have := hsep q (by rw [← e1]; simp [hx]) (by simp)
    exact (List.nodup_cons.1 hnd0).1 (by rw [← this]; simp [hx])
  have hpN : p ∉ f :: N1 := fun x => hNA p x (by simp)
  have heN : e ∈ f :: N1 := by rw [e3]; simp
  simp only [hq, h4]
  refine ⟨hpv, hqv, hv f (by simp), hv e heN, ?_, ?_, ?_⟩
  · have s1 : Ch (h.joined p f) (P ++ p :: f :: N1) :=
      Ch.join_mid hA hN (fun x => (List.nodup_append.1 hnd1).2.2 p x p (by simp) rfl) (List.nodup_cons.1 hndN).1
        (fun x => hpN (List.dropLast_subset _ x)) (fun x => hNA f (by simp) (List.mem_of_mem_tail x))
    have s2 : Ch (h.joined p f) (q :: S) := hB.join_frame hpB (fun x => hNB f (by simp) (List.mem_cons_of_mem _ x))
    have e4 : P ++ p :: f :: N1 = ((P ++ [p]) ++ N2) ++ [e] := by rw [e3]; simp
    rw [e4] at s1
    have s3 := Ch.join_mid s1 s2 (by
        intro x
        rcases List.mem_append.1 x with x | x
        · exact hNA e heN x
        · rw [e3] at hndN; exact (List.nodup_append.1 hndN).2.2 e x e (by simp) rfl)
      (List.nodup_cons.1 hnd2).1 (fun x => hNB e heN (List.dropLast_subset _ x)) (by
      intro x
      rw [List.append_assoc, List.tail_append_of_ne_nil (by simp), ← e3] at x
      rcases List.mem_append.1 x with x | x
      · exact hqA x
      · exact hNB q x (by simp))
    have : t :: (A ++ f :: N1 ++ B) ++ [t] = P ++ [p] ++ N2 ++ e :: q :: S := by
      rw [← e1, ← e2, e3]; simp
    rw [this]; exact s3
  · have h5 : (t :: (A ++ (f :: N1) ++ B)).Perm (t :: (A ++ B) ++ f :: N1) := by
      refine List.Perm.cons t ?_
      show (A ++ (f :: N1) ++ B).Perm (A ++ B ++ (f :: N1))
      rw [List.append_assoc, List.append_assoc]
      exact List.Perm.append_left A List.perm_append_comm
    rw [h5.nodup_iff]; exact hnd
  · intro x hx
    simp only [joined_valid]
    by_cases hN' : x ∈ f :: N1
    · exact hv x hN'
    · refine c.ok x ?_
      simp only [List.mem_cons, List.mem_append] at hx hN' ⊢; tauto

/-- Inserting `n` before the node at position `A.length`, `insert_node` list.h l.333-338: two joins. -/
theorem Circle.insert {h : Links} {t : Nat} {A B : List Nat} (c : Circle h t (A ++ B)) {n : Nat} (hn : n ∉ t :: (A ++ B)) (hv : h.valid n) :
    let q := nodeAt t (A ++ B) A.length
    let p := h.pv q
    h.valid p ∧ h.valid q ∧ Circle ((h.joined p n).joined n q) t (A ++ n :: B) := by
  have := c.insertSeg (N := [n]) (f := n) (e := n) (by simp) rfl rfl trivial
    (List.nodup_append.2 ⟨c.nd, by simp, by intro x hx y hy; simp at hy; rintro rfl; rw [hy] at hx; exact hn hx⟩) (by simpa using hv)
  obtain ⟨h1, h2, _, _, h5⟩ := this
  exact ⟨h1, h2, by simpa using h5⟩

/-- Cutting out the nodes `M` between `A` and `B`: one join. -/
theorem Circle.cut {h : Links} {t : Nat} {A M B : List Nat} (c : Circle h t (A ++ M ++ B)) :
    let p := (t :: A).getLast (by simp)
    let q := (B ++ [t]).head (by simp)
    h.valid p ∧ h.valid q ∧ Circle (h.joined p q) t (A ++ B) := by
  obtain ⟨P, p, e1⟩ : ∃ P p, t :: A = P ++ [p] := ⟨(t :: A).dropLast, (t :: A).getLast (by simp), (List.dropLast_concat_getLast (by simp)).symm⟩
  obtain ⟨q, S, e2⟩ : ∃ q S, B ++ [t] = q :: S := by
    cases B with
    | nil => exact ⟨t, [], rfl⟩
    | cons b B => exact ⟨b, B ++ [t], rfl⟩
  have hp : (t :: A).getLast (by simp) = p := by simp [e1]
  have hq : (B ++ [t]).head (by simp) = q := by simp [e2]
  simp only [hp, hq]
  have hnd := c.nd
  have hndAB : (t :: (A ++ B)).Nodup := hnd.sublist (by simp)
  have hpm : p ∈ t :: A := by rw [e1]; simp
  have hqm : q ∈ B ++ [t] := by rw [e2]; simp
  have hpv : h.valid p := c.ok p (by simp only [List.mem_cons, List.mem_append] at hpm ⊢; tauto)
  have hqv : h.valid q := c.ok q (by simp only [List.mem_cons, List.mem_append, List.not_mem_nil] at hqm ⊢; tauto)
  have hnd1 : (P ++ [p]).Nodup := by rw [← e1]; exact hndAB.sublist (by simp)
  have hnd2 : (q :: S).Nodup := by
    rw [← e2]
    have h5 := (List.nodup_cons.1 hndAB)
    refine List.nodup_append.2 ⟨(List.nodup_append.1 h5.2).2.1, by simp, ?_⟩
    intro x hx y hy; simp at hy; rintro rfl; rw [hy] at hx; exact h5.1 (by simp [hx])
  have hsep : ∀ x, x ∈ P ++ [p] → x ∈ q :: S → x = t := by
    intro x hx hy
    rw [← e1] at hx; rw [← e2] at hy
    simp only [List.mem_cons, List.mem_append, List.not_mem_nil, or_false] at hx hy
    rcases hx with hx | hx
    · exact hx
    · rcases hy with hy | hy
      · have h5 := List.nodup_append.1 (List.nodup_cons.1 hndAB).2
        exact absurd rfl (h5.2.2 x hx x hy)
      · exact hy
  have e2' : (q :: S).dropLast = B := by rw [← e2]; simp
  have e1' : (P ++ [p]).tail = A := by rw [← e1]; simp
  have hpB : p ∉ (q :: S).dropLast := by
    rw [e2']; intro hx
    have := hsep p (by simp) (by rw [← e2]; simp [hx])
    exact (List.nodup_cons.1 hndAB).1 (by rw [← this]; simp [hx])
  have hqA : q ∉ (P ++ [p]).tail := by
    rw [e1']; intro hx
    have := hsep q (by rw [← e1]; simp [hx]) (by simp)
    exact (List.nodup_cons.1 hndAB).1 (by rw [← this]; simp [hx])
  have hch := c.ch
  have hw : t :: (A ++ M ++ B) ++ [t] = (P ++ [p]) ++ (M ++ (q :: S)) := by rw [← e1, ← e2]; simp
  rw [hw] at hch
  refine ⟨hpv, hqv, ?_, hndAB, ?_⟩
  · have s := Ch.join_mid hch.left hch.right.right (fun x => (List.nodup_append.1 hnd1).2.2 p x p (by simp) rfl) (List.nodup_cons.1 hnd2).1 hpB hqA
    have : t :: (A ++ B) ++ [t] = P ++ p :: q :: S := by
      rw [List.cons_append, List.append_assoc, ← List.cons_append, e1, e2]; simp
    rw [this]; exact s
  · intro x hx
    simp only [joined_valid]
    exact c.ok x (by simp only [List.mem_cons, List.mem_append] at hx ⊢; tauto)

/-- Forward traversal: `begin(), ++, ...` until `end()`. -/
def walk (h : Links) (t : Nat) (p : Nat) : Nat → Res (List Nat)
  | 0 => .error .diverge
  | k + 1 => if p = t then .ok [] else do
    let q ← h.next p
    let l ← walk h t q k
    .ok (p :: l)

/-- Backward traversal: from `p` by `--` until the terminal node. -/
def walkBack (h : Links) (t : Nat) (p : Nat) : Nat → Res (List Nat)
  | 0 => .error .diverge
  | k + 1 => if p = t then .ok [] else do
    let q ← h.prev p
    let l ← walkBack h t q k
    .ok (p :: l)

theorem Circle.walk {h : Links} {t : Nat} {l : List Nat} (c : Circle h t l) : ∀ (k i : Nat), i ≤ l.length → l.length - i < k →
    h.walk t (nodeAt t l i) k = .ok (l.drop i)
  | 0, _, _, hk => by omega
  | k + 1, i, hi, hk => by
    unfold Links.walk
    by_cases h1 : i < l.length
    · have hne : nodeAt t l i ≠ t := by
        rw [nodeAt_lt h1]; intro e
        exact (List.nodup_cons.1 c.nd).1 (e ▸ List.getElem_mem h1)
      have hv : h.valid (nodeAt t l i) := by rw [nodeAt_lt h1]; exact c.ok _ (by simp)
      rw [if_neg hne, next_ok hv]
      have := c.walk k (i + 1) (by omega) (by omega)
      simp only [nodeAt_lt h1, c.nx_at h1, this, bind, Except.bind]
      rw [← List.drop_eq_getElem_cons h1]
    · rw [nodeAt_len (by omega), if_pos rfl, List.drop_of_length_le (by omega)]

theorem Circle.walkBack {h : Links} {t : Nat} {l : List Nat} (c : Circle h t l) : ∀ (k i : Nat), i ≤ l.length → i < k →
    h.walkBack t (if i = 0 then t else nodeAt t l (i - 1)) k = .ok (l.take i).reverse
  | 0, _, _, hk => by omega
  | k + 1, i, hi, hk => by
    unfold Links.walkBack
    by_cases h0 : i = 0
    · simp [h0]
    · have h1 : i - 1 < l.length := by omega
      have hne : nodeAt t l (i - 1) ≠ t := by
        rw [nodeAt_lt h1]; intro e
        exact (List.nodup_cons.1 c.nd).1 (e ▸ List.getElem_mem h1)
      have hv : h.valid (nodeAt t l (i - 1)) := by rw [nodeAt_lt h1]; exact c.ok _ (by simp)
      rw [if_neg h0, if_neg hne, prev_ok hv]
      have := c.walkBack k (i - 1) (by omega) (by omega)
      simp only [c.pv_at (show i - 1 ≤ l.length by omega), this, bind, Except.bind]
      rw [nodeAt_lt h1]
      have : l.take i = l.take (i - 1) ++ [l[i - 1]] := by
        rw [List.take_append_getElem]; congr 1; omega
      rw [this, List.reverse_append]; simp

/-! ### Reversing -/

theorem Ch.reversed {h h' : Links} : ∀ {l : List Nat}, Ch h l → (∀ x ∈ l, h'.nx x = h.pv x ∧ h'.pv x = h.nx x) → Ch h' l.reverse
  | [], _, _ => trivial
  | [_], _, _ => trivial
  | a :: b :: l, hc, hs => by
    have := Ch.reversed (h' := h') hc.2.2 (fun x hx => hs x (List.mem_cons_of_mem _ hx))
    rw [List.reverse_cons] at this
    rw [List.reverse_cons, List.reverse_cons, List.append_assoc]
    show Ch h' (l.reverse ++ b :: a :: [])
    rw [ch_append]
    exact ⟨this, ⟨by rw [(hs b (by simp)).1]; exact hc.2.1, by rw [(hs a (by simp)).2]; exact hc.1⟩, trivial⟩

theorem Circle.reversed {h h' : Links} {t : Nat} {l : List Nat} (c : Circle h t l) (hl : h'.lim = h.lim)
    (hs : ∀ x ∈ t :: l, h'.nx x = h.pv x ∧ h'.pv x = h.nx x) : Circle h' t l.reverse := by
  refine ⟨?_, ?_, ?_⟩
  · have := c.ch.reversed (h' := h') (fun x hx => hs x (by simp at hx ⊢; tauto))
    simpa using this
  · have := List.nodup_cons.1 c.nd
    exact List.nodup_cons.2 ⟨by simpa using this.1, (List.reverse_perm l).nodup_iff.2 this.2⟩
  · intro x hx
    have := c.ok x (by simpa using hx)
    unfold Links.valid at this ⊢; rw [hl]; exact this

end Links
end Etl
