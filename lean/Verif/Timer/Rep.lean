import Verif.Timer.Model
import Mathlib.Tactic.ByContra
import Mathlib.Data.List.Nodup
import Batteries.Data.List.Perm

/-!
# The list of active timers as a list of deadlines
-/
namespace Etl.Timer

/-- Active timers with their deadlines. -/
abbrev DL := List (Nat × Nat)

def ids (D : DL) : List Nat := D.map Prod.fst

def hd (q : Nat) : DL → Nat
  | [] => q
  | (x, _) :: _ => x

def last (p : Nat) : DL → Nat
  | [] => p
  | (x, _) :: l => last x l

def lastd (b : Nat) : DL → Nat
  | [] => b
  | (_, d) :: l => lastd d l

/-- The records `t` link up `D`, from `p` and time `b` to `q`; deltas are the differences of the deadlines. -/
def Rep (t : Nat → Timer) : Nat → Nat → Nat → DL → Prop
  | _, _, _, [] => True
  | p, b, q, (x, d) :: l => (t x).prev = p ∧ (t x).next = hd q l ∧ b ≤ d ∧ (t x).delta = d - b ∧ Rep t x d q l

theorem last_append (p : Nat) : ∀ (A B : DL), last p (A ++ B) = last (last p A) B
  | [], B => rfl
  | (x, _) :: A, B => last_append x A B

theorem lastd_append (p : Nat) : ∀ (A B : DL), lastd p (A ++ B) = lastd (lastd p A) B
  | [], B => rfl
  | (_, d) :: A, B => lastd_append d A B

theorem hd_append (q : Nat) (A B : DL) : hd q (A ++ B) = hd (hd q B) A := by cases A <;> rfl

theorem rep_append (t : Nat → Timer) : ∀ (A B : DL) (p b q : Nat), Rep t p b q (A ++ B) ↔ Rep t p b (hd q B) A ∧ Rep t (last p A) (lastd b A) q B
  | [], B, p, b, q => by simp [Rep, last, lastd]
  | (x, d) :: A, B, p, b, q => by simp [Rep, last, lastd, rep_append t A B, hd_append, and_assoc]

theorem rep_frame {t t' : Nat → Timer} : ∀ {D : DL} {p b q : Nat}, Rep t p b q D → (∀ x ∈ ids D, t' x = t x) → Rep t' p b q D
  | [], _, _, _, _, _ => trivial
  | (x, d) :: l, p, b, q, h, hf => by
    have hx : t' x = t x := hf x (by simp [ids])
    simp only [Rep] at h ⊢
    rw [hx]
    exact ⟨h.1, h.2.1, h.2.2.1, h.2.2.2.1, rep_frame h.2.2.2.2 (fun y hy => hf y (by simp only [ids, List.map_cons, List.mem_cons]; exact .inr hy))⟩

/-- the first record changed: another predecessor and base -/
theorem rep_first {t t' : Nat → Timer} {x d : Nat} {l : DL} {p b q p' b' : Nat} (h : Rep t p b q ((x, d) :: l)) (hx : x ∉ ids l) (hb : b' ≤ d)
    (h1 : (t' x).prev = p') (h2 : (t' x).next = (t x).next) (h3 : (t' x).delta = d - b') (hf : ∀ y ∈ ids l, t' y = t y) : Rep t' p' b' q ((x, d) :: l) := by
  simp only [Rep] at h ⊢
  exact ⟨h1, h2.trans h.2.1, hb, h3, rep_frame h.2.2.2.2 hf⟩

/-- the last record changed: another successor -/
theorem rep_last {t t' : Nat → Timer} : ∀ {A : DL} {a d : Nat} {p b q q' : Nat}, Rep t p b q (A ++ [(a, d)]) → a ∉ ids A → (t' a).prev = (t a).prev → (t' a).delta = (t a).delta →
    (t' a).next = q' → (∀ y ∈ ids A, t' y = t y) → Rep t' p b q' (A ++ [(a, d)])
  | [], a, d, p, b, q, q', h, ha, h1, h2, h3, hf => by
    simp only [List.nil_append, Rep, hd] at h ⊢
    exact ⟨h1.trans h.1, h3, h.2.2.1, h2.trans h.2.2.2.1, trivial⟩
  | (x, e) :: A, a, d, p, b, q, q', h, ha, h1, h2, h3, hf => by
    have hx : t' x = t x := hf x (by simp [ids])
    simp only [List.cons_append, Rep] at h ⊢
    have hh : ∀ r, hd r (A ++ [(a, d)]) = hd a A := fun r => by rw [hd_append]; rfl
    rw [hx]
    refine ⟨h.1, ?_, h.2.2.1, h.2.2.2.1, rep_last h.2.2.2.2 (fun hm => ha (by simp only [ids, List.map_cons, List.mem_cons]; exact .inr hm)) h1 h2 h3
      (fun y hy => hf y (by simp only [ids, List.map_cons, List.mem_cons]; exact .inr hy))⟩
    rw [h.2.1, hh, hh]

theorem rep_base_le {t : Nat → Timer} : ∀ {D : DL} {p b q : Nat}, Rep t p b q D → ∀ x ∈ D, b ≤ x.2
  | [], _, _, _, _, x, hx => by simp at hx
  | (y, d) :: l, p, b, q, h, x, hx => by
    simp only [Rep] at h
    rcases List.mem_cons.1 hx with rfl | hx
    · exact h.2.2.1
    · exact Nat.le_trans h.2.2.1 (rep_base_le h.2.2.2.2 x hx)

/-- deadlines are in order -/
theorem rep_sorted {t : Nat → Timer} : ∀ {D : DL} {p b q : Nat}, Rep t p b q D → D.Pairwise (fun x y => x.2 ≤ y.2)
  | [], _, _, _, _ => .nil
  | (y, d) :: l, p, b, q, h => by
    simp only [Rep] at h
    exact .cons (fun x hx => rep_base_le h.2.2.2.2 x hx) (rep_sorted h.2.2.2.2)

theorem rep_delta {t : Nat → Timer} : ∀ {D : DL} {p b q : Nat}, Rep t p b q D → ∀ x ∈ D, (t x.1).delta ≤ x.2 - b
  | [], _, _, _, _, x, hx => by simp at hx
  | (y, d) :: l, p, b, q, h, x, hx => by
    simp only [Rep] at h
    rcases List.mem_cons.1 hx with rfl | hx
    · exact Nat.le_of_eq h.2.2.2.1
    · exact Nat.le_trans (rep_delta h.2.2.2.2 x hx) (by have := h.2.2.1; omega)

structure Lst (s : St) (now : Nat) (D : DL) : Prop where
  head : s.head = hd NO D
  tail : s.tail = last NO D
  rep : Rep s.timers NO now NO D
  nodup : (ids D).Nodup
  lt : ∀ x ∈ ids D, x < s.max ∧ (s.timers x).id = x
  max : s.max ≤ 254

/-- What the list functions leave alone. -/
structure Same (s s' : St) : Prop where
  enabled : s'.enabled = s.enabled
  registered : s'.registered = s.registered
  max : s'.max = s.max
  log : s'.log = s.log
  id : ∀ x, (s'.timers x).id = (s.timers x).id
  period : ∀ x, (s'.timers x).period = (s.timers x).period
  repeating : ∀ x, (s'.timers x).repeating = (s.timers x).repeating

theorem Same.refl (s : St) : Same s s := ⟨rfl, rfl, rfl, rfl, fun _ => rfl, fun _ => rfl, fun _ => rfl⟩

theorem Same.trans {a b c : St} (h : Same a b) (h' : Same b c) : Same a c :=
  ⟨h'.enabled.trans h.enabled, h'.registered.trans h.registered, h'.max.trans h.max, h'.log.trans h.log, fun x => (h'.id x).trans (h.id x), fun x => (h'.period x).trans (h.period x),
    fun x => (h'.repeating x).trans (h.repeating x)⟩

/-- Insertion before the first deadline that is not earlier. -/
def insD (n d : Nat) : DL → DL
  | [] => [(n, d)]
  | (x, e) :: l => if d ≤ e then (n, d) :: (x, e) :: l else (x, e) :: insD n d l

theorem mem_insD (n d : Nat) (x : Nat × Nat) : ∀ D, x ∈ insD n d D ↔ x = (n, d) ∨ x ∈ D
  | [] => by simp [insD]
  | (y, e) :: l => by
    rw [insD]
    by_cases h : d ≤ e
    · rw [if_pos h]; simp
    · rw [if_neg h, List.mem_cons, mem_insD n d x l, List.mem_cons]; constructor <;> (rintro (h | h | h) <;> simp [h])

theorem put_ok {s : St} {i : Nat} (f : Timer → Timer) (h : i < s.max) : put s i f = .ok { s with timers := upd s.timers i (f (s.timers i)) } := if_pos h

theorem mem_ids_iff {D : DL} {x : Nat} : x ∈ ids D ↔ ∃ d, (x, d) ∈ D := by simp [ids]

theorem ids_append (A B : DL) : ids (A ++ B) = ids A ++ ids B := by simp [ids]

theorem last_mem (p : Nat) : ∀ (D : DL), D ≠ [] → last p D ∈ ids D
  | [], h => absurd rfl h
  | [(x, d)], _ => by simp [last, ids]
  | (x, d) :: y :: l, _ => by
    have := last_mem x (y :: l) (by simp)
    simp only [last]
    simp only [ids, List.map_cons, List.mem_cons] at this ⊢
    exact .inr this

/-- `insertBefore` in the middle or at the front. -/
theorem insertBefore_ok {s : St} {now : Nat} {A B : DL} {x e n d : Nat} (h : Lst s now (A ++ (x, e) :: B)) (hn : n < s.max) (hnm : n ∉ ids (A ++ (x, e) :: B)) (hid : (s.timers n).id = n)
    (hd1 : lastd now A ≤ d) (hd2 : (s.timers n).delta = d - lastd now A) (hle : d ≤ e) :
    ∃ s', insertBefore s n x = .ok s' ∧ Lst s' now (A ++ (n, d) :: (x, e) :: B) ∧ Same s s' ∧ ∀ y, y ∉ n :: ids (A ++ (x, e) :: B) → s'.timers y = s.timers y := by
  have hx := h.lt x (by simp [ids])
  have hrep := (rep_append _ _ _ _ _ _).1 h.rep
  have hxr : (s.timers x).prev = last NO A ∧ (s.timers x).delta = e - lastd now A ∧ lastd now A ≤ e := by
    have := hrep.2; simp only [Rep] at this; exact ⟨this.1, this.2.2.2.1, this.2.2.1⟩
  have hnd := h.nodup
  rw [ids_append] at hnd hnm
  simp only [ids, List.map_cons] at hnd hnm
  change (ids A ++ x :: ids B).Nodup at hnd
  change n ∉ ids A ++ x :: ids B at hnm
  have hne : n ≠ x := by rintro rfl; simp at hnm
  have hxA : x ∉ ids A := by intro hm; exact (List.nodup_append.1 hnd).2.2 x hm x (by simp) rfl
  have hxB : x ∉ ids B := (List.nodup_cons.1 (List.nodup_append.1 hnd).2.1).1
  have hnB : n ∉ ids B := by intro hm; simp [hm] at hnm
  have hnA : n ∉ ids A := by intro hm; simp [hm] at hnm
  have hdisj : ∀ y ∈ ids A, y ∉ ids B := fun y h1 h2 => (List.nodup_append.1 hnd).2.2 y h1 y (by simp [h2]) rfl
  have hnd' : (ids (A ++ (n, d) :: (x, e) :: B)).Nodup := by
    rw [ids_append]
    show (ids A ++ n :: x :: ids B).Nodup
    rw [List.nodup_append] at hnd ⊢
    refine ⟨hnd.1, List.nodup_cons.2 ⟨by simp [hne, hnB], hnd.2.1⟩, ?_⟩
    intro a ha b hb
    rcases List.mem_cons.1 hb with rfl | hb
    · rintro rfl; exact hnA ha
    · exact hnd.2.2 a ha b hb
  have hmem' : ∀ y, y ∈ ids (A ++ (n, d) :: (x, e) :: B) ↔ y ∈ ids A ∨ y = n ∨ y = x ∨ y ∈ ids B := by
    intro y; rw [ids_append]; show y ∈ ids A ++ n :: x :: ids B ↔ _; simp
  have hlt' : ∀ y ∈ ids (A ++ (n, d) :: (x, e) :: B), y < s.max ∧ (s.timers y).id = y := by
    intro y hy
    rcases (hmem' y).1 hy with hy | rfl | rfl | hy
    · exact h.lt y (by rw [ids_append]; simp [hy])
    · exact ⟨hn, hid⟩
    · exact hx
    · exact h.lt y (by rw [ids_append]; simp only [ids, List.map_cons, List.mem_append, List.mem_cons]; exact .inr (.inr hy))
  have hBrep : Rep s.timers x e NO B := by have := hrep.2; simp only [Rep] at this; exact this.2.2.2.2
  have hBnx : (s.timers x).next = hd NO B := by have := hrep.2; simp only [Rep] at this; exact this.2.1
  rcases List.eq_nil_or_concat A with rfl | ⟨A', ⟨a, ea⟩, rfl⟩
  · -- at the front
    have hhead : s.head = x := h.head
    have hpv : (s.timers x).prev = NO := hxr.1
    refine ⟨⟨upd (upd s.timers n { s.timers n with prev := NO, next := x }) x { s.timers x with prev := n, delta := (s.timers x).delta - (s.timers n).delta }, n, s.tail, s.enabled, s.registered, s.max, s.log⟩, ?_, ?_, ?_, ?_⟩
    · simp only [insertBefore, hhead, hx.2, if_true, hid, hpv, put, hn, hx.1, bind, Except.bind]
      simp only [ne_eq, not_true_eq_false, if_false]
      congr 2
      funext y; grind [upd]
    · refine ⟨rfl, ?_, ?_, hnd', ?_, h.max⟩
      · show s.tail = _; rw [h.tail]; rfl
      · show Rep _ NO now NO ((n, d) :: (x, e) :: B)
        simp only [Rep, hd]
        simp only [lastd] at hd1 hd2 hxr
        refine ⟨by simp [upd, hne], by simp [upd, hne], hd1, by simp [upd, hne]; omega, by simp [upd], by simp [upd]; exact hBnx, hle, by simp [upd]; omega, ?_⟩
        exact rep_frame hBrep (fun y hy => by
          have h1 : y ≠ x := by rintro rfl; exact hxB hy
          have h2 : y ≠ n := by rintro rfl; exact hnB hy
          simp [upd, h1, h2])
      · intro y hy
        have := hlt' y hy
        exact ⟨this.1, by grind [upd]⟩
    · exact ⟨rfl, rfl, rfl, rfl, fun y => by grind [upd], fun y => by grind [upd], fun y => by grind [upd]⟩
    · intro y hy
      have h1 : y ≠ n := by rintro rfl; simp at hy
      have h2 : y ≠ x := by rintro rfl; simp [ids] at hy
      grind [upd]
  · rw [List.concat_eq_append] at *
    have hl : last NO (A' ++ [(a, ea)]) = a := by rw [last_append]; rfl
    have hld : lastd now (A' ++ [(a, ea)]) = ea := by rw [lastd_append]; rfl
    rw [hl] at hxr
    rw [hld] at hd1 hd2 hxr
    have haA : a ∈ ids (A' ++ [(a, ea)]) := by simp [ids]
    have ha := h.lt a (by rw [ids_append]; exact List.mem_append_left _ haA)
    have hax : a ≠ x := by rintro rfl; exact hxA haA
    have han : a ≠ n := by rintro rfl; exact hnA haA
    have haB : a ∉ ids B := hdisj a haA
    have haA' : a ∉ ids A' := by
      have := (List.nodup_append.1 hnd).1
      rw [ids_append] at this
      intro hm; exact (List.nodup_append.1 this).2.2 a hm a (by simp [ids]) rfl
    have haNO : a ≠ NO := by have := h.max; have := ha.1; unfold NO; omega
    have hhead : s.head ≠ x := by
      rw [h.head]
      cases A' with
      | nil => simpa [hd] using hax
      | cons y A' =>
        obtain ⟨y, ey⟩ := y
        simp only [hd, List.cons_append]
        rintro rfl; exact hxA (by simp [ids])
    refine ⟨⟨upd (upd (upd s.timers n { s.timers n with prev := a, next := x }) x { s.timers x with prev := n, delta := (s.timers x).delta - (s.timers n).delta }) a { s.timers a with next := n }, s.head, s.tail, s.enabled, s.registered, s.max, s.log⟩, ?_, ?_, ?_, ?_⟩
    · simp only [insertBefore, hx.2, if_neg (Ne.symm hhead), hid, hxr.1, put, hn, hx.1, ha.1, haNO, ne_eq, not_false_eq_true, if_true, bind, Except.bind]
      congr 2
      funext y; grind [upd]
    · refine ⟨?_, ?_, ?_, hnd', ?_, h.max⟩
      · show s.head = _; rw [h.head, hd_append, hd_append]; cases A' <;> rfl
      · show s.tail = _; rw [h.tail, last_append NO (A' ++ [(a, ea)]), last_append NO (A' ++ [(a, ea)])]; rfl
      · rw [rep_append]
        rw [hl, hld]
        refine ⟨?_, ?_⟩
        · refine rep_last hrep.1 haA' (by grind [upd]) (by grind [upd]) (by show _ = n; grind [upd]) ?_
          intro y hy
          have h1 : y ∈ ids (A' ++ [(a, ea)]) := by rw [ids_append]; exact List.mem_append_left _ hy
          have h2 : y ≠ x := by rintro rfl; exact hxA h1
          have h3 : y ≠ n := by rintro rfl; exact hnA h1
          have h4 : y ≠ a := by rintro rfl; exact haA' hy
          grind [upd]
        · show Rep _ a ea NO ((n, d) :: (x, e) :: B)
          simp only [Rep, hd]
          refine ⟨by simp [upd, hne, Ne.symm han], by simp [upd, hne, Ne.symm han], hd1, by simp [upd, hne, Ne.symm han]; omega, by simp [upd, Ne.symm hax], by simp [upd, Ne.symm hax]; exact hBnx, hle, by simp [upd, Ne.symm hax]; omega, ?_⟩
          exact rep_frame hBrep (fun y hy => by
            have h1 : y ≠ x := by rintro rfl; exact hxB hy
            have h2 : y ≠ n := by rintro rfl; exact hnB hy
            have h3 : y ≠ a := by rintro rfl; exact haB hy
            simp [upd, h1, h2, h3])
      · intro y hy
        have := hlt' y hy
        exact ⟨this.1, by grind [upd]⟩
    · exact ⟨rfl, rfl, rfl, rfl, fun y => by grind [upd], fun y => by grind [upd], fun y => by grind [upd]⟩
    · intro y hy
      have h1 : y ≠ n := by rintro rfl; simp at hy
      have h2 : y ≠ x := by rintro rfl; simp [ids] at hy
      have h3 : y ≠ a := by rintro rfl; simp [ids] at hy
      grind [upd]

theorem tagTail_ok {s : St} {now : Nat} {D : DL} {n d : Nat} (h : Lst s now D) (hne : D ≠ []) (hn : n < s.max) (hnm : n ∉ ids D) (hid : (s.timers n).id = n)
    (hd1 : lastd now D ≤ d) (hd2 : (s.timers n).delta = d - lastd now D) :
    ∃ s', tagTail s n = .ok s' ∧ Lst s' now (D ++ [(n, d)]) ∧ Same s s' ∧ ∀ y, y ∉ n :: ids D → s'.timers y = s.timers y := by
  rcases List.eq_nil_or_concat D with rfl | ⟨A, ⟨a, ea⟩, rfl⟩
  · exact absurd rfl hne
  rw [List.concat_eq_append] at *
  have hl : last NO (A ++ [(a, ea)]) = a := by rw [last_append]; rfl
  have hld : lastd now (A ++ [(a, ea)]) = ea := by rw [lastd_append]; rfl
  rw [hld] at hd1 hd2
  have htail : s.tail = a := by rw [h.tail, hl]
  have ha := h.lt a (by simp [ids])
  have han : a ≠ n := by rintro rfl; exact hnm (by simp [ids])
  have haA : a ∉ ids A := by
    have := h.nodup; rw [ids_append] at this
    intro hm; exact (List.nodup_append.1 this).2.2 a hm a (by simp [ids]) rfl
  have hnA : n ∉ ids A := fun hm => hnm (by rw [ids_append]; exact List.mem_append_left _ hm)
  refine ⟨⟨upd (upd s.timers a { s.timers a with next := n }) n { s.timers n with prev := a, next := NO }, s.head, n, s.enabled, s.registered, s.max, s.log⟩, ?_, ?_, ?_, ?_⟩
  · simp only [tagTail, htail, put, ha.1, hn, if_true, hid, bind, Except.bind]
    have e1 : (upd s.timers a { s.timers a with next := n } n) = s.timers n := upd_other _ _ (Ne.symm han)
    rw [e1]
    simp [upd, hid]
  · refine ⟨?_, ?_, ?_, ?_, ?_, h.max⟩
    · show s.head = _; rw [h.head, hd_append, hd_append, hd_append]; cases A <;> rfl
    · show n = _; rw [last_append]; rfl
    · rw [rep_append, hl, hld]
      refine ⟨rep_last h.rep haA (by grind [upd]) (by grind [upd]) (by show _ = n; grind [upd]) ?_, ?_⟩
      · intro y hy
        have h1 : y ≠ n := by rintro rfl; exact hnA hy
        have h2 : y ≠ a := by rintro rfl; exact haA hy
        grind [upd]
      · simp only [Rep, hd]
        exact ⟨by grind [upd], by grind [upd], hd1, by grind [upd], trivial⟩
    · rw [ids_append, List.nodup_append]
      exact ⟨h.nodup, by simp [ids], fun y hy z hz => by simp [ids] at hz; subst hz; rintro rfl; exact hnm hy⟩
    · intro y hy
      rw [ids_append] at hy
      rcases List.mem_append.1 hy with hy | hy
      · have := h.lt y hy; exact ⟨this.1, by grind [upd]⟩
      · simp [ids] at hy; subst hy; exact ⟨hn, by grind [upd]⟩
  · exact ⟨rfl, rfl, rfl, rfl, fun y => by grind [upd], fun y => by grind [upd], fun y => by grind [upd]⟩
  · intro y hy
    have h1 : y ≠ n := by rintro rfl; simp at hy
    have h3 : y ≠ a := by rintro rfl; simp [ids] at hy
    grind [upd]

theorem insertLoop_ok (now n d : Nat) : ∀ (B A : DL) (fuel : Nat) (s : St), Lst s now (A ++ B) → A ++ B ≠ [] → n < s.max → n ∉ ids (A ++ B) → (s.timers n).id = n →
    lastd now A ≤ d → (s.timers n).delta = d - lastd now A → B.length < fuel →
    ∃ s', insertLoop n fuel (hd NO B) s = .ok s' ∧ Lst s' now (A ++ insD n d B) ∧ Same s s' ∧ ∀ y, y ∉ n :: ids (A ++ B) → s'.timers y = s.timers y := by
  intro B
  induction B with
  | nil =>
    intro A fuel s h hne hn hnm hid h1 h2 hf
    obtain ⟨fuel, rfl⟩ : ∃ f, fuel = f + 1 := ⟨fuel - 1, by omega⟩
    rw [List.append_nil] at *
    simp only [insertLoop, hd, if_true]
    exact tagTail_ok h hne hn hnm hid h1 h2
  | cons x B ih =>
    obtain ⟨x, e⟩ := x
    intro A fuel s h hne hn hnm hid h1 h2 hf
    obtain ⟨fuel, rfl⟩ : ∃ f, fuel = f + 1 := ⟨fuel - 1, by omega⟩
    have hx := h.lt x (by simp [ids])
    have hxNO : x ≠ NO := by have := h.max; have := hx.1; unfold NO; omega
    have hxr : (s.timers x).next = hd NO B ∧ (s.timers x).delta = e - lastd now A ∧ lastd now A ≤ e := by
      have := ((rep_append _ _ _ _ _ _).1 h.rep).2; simp only [Rep] at this; exact ⟨this.2.1, this.2.2.2.1, this.2.2.1⟩
    simp only [hd]
    rw [insertLoop, if_neg hxNO, if_neg (by simp [hx.1, hn])]
    by_cases hle : d ≤ e
    · rw [if_pos (by rw [h2, hxr.2.1]; omega)]
      obtain ⟨s', e1, e2, e3, e4⟩ := insertBefore_ok h hn hnm hid h1 h2 hle
      exact ⟨s', e1, by rw [insD, if_pos hle]; exact e2, e3, e4⟩
    · rw [if_neg (by rw [h2, hxr.2.1]; omega), put_ok _ hn]
      simp only
      have hnx : n ≠ x := by rintro rfl; exact hnm (by simp [ids])
      have e0 : upd s.timers n { s.timers n with delta := (s.timers n).delta - (s.timers x).delta } x = s.timers x := upd_other _ _ (Ne.symm hnx)
      rw [e0, hxr.1]
      have hfr : ∀ y ∈ ids (A ++ (x, e) :: B), upd s.timers n { s.timers n with delta := (s.timers n).delta - (s.timers x).delta } y = s.timers y := fun y hy => upd_other _ _ (by rintro rfl; exact hnm hy)
      have hL : Lst { s with timers := upd s.timers n { s.timers n with delta := (s.timers n).delta - (s.timers x).delta } } now ((A ++ [(x, e)]) ++ B) := by
        rw [List.append_assoc]
        exact ⟨h.head, h.tail, rep_frame h.rep hfr, h.nodup, fun y hy => by have := h.lt y hy; exact ⟨this.1, by rw [show ({ s with timers := upd s.timers n { s.timers n with delta := (s.timers n).delta - (s.timers x).delta } } : St).timers y = s.timers y from hfr y hy]; exact this.2⟩, h.max⟩
      have hld : lastd now (A ++ [(x, e)]) = e := by rw [lastd_append]; rfl
      obtain ⟨s', e1, e2, e3, e4⟩ := ih (A ++ [(x, e)]) fuel _ hL (by simp) hn (by rw [List.append_assoc]; exact hnm) (by simp [upd, hid]) (by rw [hld]; omega)
        (by rw [hld]; simp [upd]; rw [h2, hxr.2.1]; omega) (by simpa using hf)
      refine ⟨s', e1, by rw [insD, if_neg hle]; simpa using e2, ?_, ?_⟩
      · exact Same.trans (b := { s with timers := upd s.timers n { s.timers n with delta := (s.timers n).delta - (s.timers x).delta } }) ⟨rfl, rfl, rfl, rfl, fun y => by grind [upd], fun y => by grind [upd], fun y => by grind [upd]⟩ e3
      · intro y hy
        rw [e4 y (by simpa using hy)]
        exact upd_other _ _ (by rintro rfl; simp at hy)

theorem ids_length_le {s : St} {now : Nat} {D : DL} (h : Lst s now D) : D.length ≤ s.max := by
  have h1 : (ids D).length ≤ (List.range s.max).length := by
    exact (List.subperm_of_subset h.nodup (fun x hx => by simp; exact (h.lt x hx).1)).length_le
  simpa [ids] using h1

/-- **`list::insert`** puts a timer at its deadline, before those with the same one. -/
theorem insert_ok {s : St} {now : Nat} {D : DL} {n d : Nat} (h : Lst s now D) (hn : n < s.max) (hnm : n ∉ ids D) (hid : (s.timers n).id = n) (hd1 : now ≤ d) (hd2 : (s.timers n).delta = d - now) :
    ∃ s', insert s n = .ok s' ∧ Lst s' now (insD n d D) ∧ Same s s' ∧ ∀ y, y ∉ n :: ids D → s'.timers y = s.timers y := by
  rw [insert]
  by_cases he : D = []
  · subst he
    rw [if_pos (show s.head = NO from h.head), put_ok _ hn]
    refine ⟨_, rfl, ⟨rfl, rfl, ?_, by simp [ids, insD], ?_, h.max⟩, ⟨rfl, rfl, rfl, rfl, fun y => by grind [upd], fun y => by grind [upd], fun y => by grind [upd]⟩, fun y hy => ?_⟩
    · simp only [insD, Rep, hd]
      exact ⟨by grind [upd], by grind [upd], hd1, by grind [upd], trivial⟩
    · intro y hy
      simp [ids, insD] at hy; subst hy
      exact ⟨hn, by grind [upd]⟩
    · exact upd_other _ _ (by rintro rfl; simp at hy)
  · have hh : s.head ≠ NO := by
      rw [h.head]
      cases D with
      | nil => exact absurd rfl he
      | cons x D => obtain ⟨x, e⟩ := x; have := h.max; have := (h.lt x (by simp [ids])).1; simp only [hd]; unfold NO; omega
    rw [if_neg hh, h.head]
    exact insertLoop_ok now n d D [] (s.max + 1) s h he hn hnm hid hd1 hd2 (by have := ids_length_le h; omega)

/-- what unlinking does to the records: with `a` the predecessor and `b` the successor -/
theorem unlinkPrev_ok {s : St} {now : Nat} {A B : DL} {x e : Nat} (h : Lst s now (A ++ (x, e) :: B)) :
    ∃ s', unlinkPrev s x = .ok s' ∧ s'.head = hd NO (A ++ B) ∧ s'.tail = s.tail ∧ Same s s' ∧ (∀ y, y ∉ ids A → s'.timers y = s.timers y) ∧ Rep s'.timers NO now (hd NO B) A := by
  have hrep := (rep_append _ _ _ _ _ _).1 h.rep
  have hxr : (s.timers x).prev = last NO A ∧ (s.timers x).next = hd NO B := by
    have := hrep.2; simp only [Rep] at this; exact ⟨this.1, this.2.1⟩
  rw [unlinkPrev]
  rcases List.eq_nil_or_concat A with rfl | ⟨A', ⟨a, ea⟩, rfl⟩
  · rw [if_pos (by rw [h.head]; rfl), hxr.2]
    exact ⟨_, rfl, rfl, rfl, ⟨rfl, rfl, rfl, rfl, fun _ => rfl, fun _ => rfl, fun _ => rfl⟩, fun y _ => rfl, trivial⟩
  · rw [List.concat_eq_append] at *
    have hl : last NO (A' ++ [(a, ea)]) = a := by rw [last_append]; rfl
    have hnd := h.nodup
    rw [ids_append] at hnd
    have haA : a ∈ ids (A' ++ [(a, ea)]) := by simp [ids]
    have hxA : x ∉ ids (A' ++ [(a, ea)]) := fun hm => (List.nodup_append.1 hnd).2.2 x hm x (by simp [ids]) rfl
    have ha := h.lt a (by rw [ids_append]; exact List.mem_append_left _ haA)
    have haA' : a ∉ ids A' := by
      have := (List.nodup_append.1 hnd).1
      rw [ids_append] at this
      intro hm; exact (List.nodup_append.1 this).2.2 a hm a (by simp [ids]) rfl
    have hhead : s.head ≠ x := by
      rw [h.head]
      cases A' with
      | nil => simp only [List.nil_append, List.cons_append, hd]; rintro rfl; exact hxA haA
      | cons y A' =>
        obtain ⟨y, ey⟩ := y
        simp only [hd, List.cons_append]
        rintro rfl; exact hxA (by simp [ids])
    rw [if_neg hhead, hxr.1, hl, put_ok _ ha.1]
    refine ⟨_, rfl, ?_, rfl, ⟨rfl, rfl, rfl, rfl, fun y => by grind [upd], fun y => by grind [upd], fun y => by grind [upd]⟩, ?_, ?_⟩
    · show s.head = _; rw [h.head, hd_append, hd_append]; cases A' <;> rfl
    · intro y hy; exact upd_other _ _ (by rintro rfl; exact hy haA)
    · refine rep_last hrep.1 haA' (by grind [upd]) (by grind [upd]) (by rw [← hxr.2]; grind [upd]) ?_
      intro y hy; exact upd_other _ _ (by rintro rfl; exact haA' hy)

theorem unlinkNext_ok {s : St} {now : Nat} {A B : DL} {x e : Nat} (h1 : (s.timers x).next = hd NO B) (h2 : (s.timers x).prev = last NO A) (htail : s.tail = last NO (A ++ (x, e) :: B))
    (hnd : (ids (A ++ (x, e) :: B)).Nodup) (hlt : ∀ y ∈ ids B, y < s.max) :
    ∃ s', unlinkNext s x = .ok s' ∧ s'.head = s.head ∧ s'.tail = last NO (A ++ B) ∧ Same s s' ∧
      (B = [] → s'.timers = s.timers) ∧ ∀ b eb B', B = (b, eb) :: B' → s'.timers = upd s.timers b { s.timers b with prev := last NO A } := by
  rw [unlinkNext]
  cases B with
  | nil =>
    rw [if_pos (by rw [htail, last_append]; rfl), h2]
    exact ⟨_, rfl, rfl, by rw [List.append_nil], ⟨rfl, rfl, rfl, rfl, fun _ => rfl, fun _ => rfl, fun _ => rfl⟩, fun _ => rfl, by simp⟩
  | cons b B =>
    obtain ⟨b, eb⟩ := b
    have hx : s.tail ≠ x := by
      rw [htail, last_append]
      rw [ids_append] at hnd
      have := (List.nodup_append.1 hnd).2.1
      simp only [ids, List.map_cons] at this
      have hm := last_mem x ((b, eb) :: B) (by simp)
      show last x ((b, eb) :: B) ≠ x
      intro e'; rw [e'] at hm
      exact (List.nodup_cons.1 this).1 (by simpa [ids] using hm)
    rw [if_neg hx, h1, h2]
    simp only [hd]
    rw [put_ok _ (hlt b (by simp [ids]))]
    refine ⟨_, rfl, rfl, ?_, ⟨rfl, rfl, rfl, rfl, fun y => by grind [upd], fun y => by grind [upd], fun y => by grind [upd]⟩, by simp, by rintro b' eb' B' h'; injection h' with h' _; injection h' with h' _; subst h'; rfl⟩
    show s.tail = _
    rw [htail, last_append, last_append]; rfl

/-- **`list::remove`**: unlinking the timer; its waiting time goes to the next one, unless it has expired (then time has moved on to its deadline, and it is the first). -/
theorem remove_ok {s : St} {now : Nat} {A B : DL} {x e : Nat} (expired : Bool) (h : Lst s now (A ++ (x, e) :: B)) (hbound : ∀ y ∈ B, y.2 - now < 4294967296) (hex : expired = true → A = []) :
    ∃ s', remove s x expired = .ok s' ∧ Lst s' (if expired then e else now) (A ++ B) ∧ Same s s' ∧ (s'.timers x).delta = Inactive ∧ ∀ y, y ∉ ids (A ++ (x, e) :: B) → s'.timers y = s.timers y := by
  have hrep := (rep_append _ _ _ _ _ _).1 h.rep
  have hxr : (s.timers x).prev = last NO A ∧ (s.timers x).next = hd NO B ∧ lastd now A ≤ e ∧ (s.timers x).delta = e - lastd now A ∧ Rep s.timers x e NO B := by
    have := hrep.2; simp only [Rep] at this; exact ⟨this.1, this.2.1, this.2.2.1, this.2.2.2.1, this.2.2.2.2⟩
  have hnd := h.nodup
  rw [ids_append] at hnd
  change (ids A ++ x :: ids B).Nodup at hnd
  have hxA : x ∉ ids A := fun hm => (List.nodup_append.1 hnd).2.2 x hm x (by simp) rfl
  have hxB : x ∉ ids B := (List.nodup_cons.1 (List.nodup_append.1 hnd).2.1).1
  have hdisj : ∀ y ∈ ids A, y ∉ ids B := fun y h1 h2 => (List.nodup_append.1 hnd).2.2 y h1 y (by simp [h2]) rfl
  have hx := h.lt x (by simp [ids])
  have hltB : ∀ y ∈ ids B, y < s.max := fun y hy => (h.lt y (by rw [ids_append]; simp only [ids, List.map_cons, List.mem_append, List.mem_cons]; exact .inr (.inr hy))).1
  obtain ⟨s1, e1, hh1, ht1, hs1, hf1, hA1⟩ := unlinkPrev_ok h
  have hx1 : s1.timers x = s.timers x := hf1 x hxA
  have hB1 : ∀ y ∈ ids B, s1.timers y = s.timers y := fun y hy => hf1 y (fun hm => hdisj y hm hy)
  obtain ⟨s2, e2, hh2, ht2, hs2, hm2⟩ := unlinkNext_ok (s := s1) (now := now) (A := A) (B := B) (x := x) (e := e) (by rw [hx1]; exact hxr.2.1) (by rw [hx1]; exact hxr.1) (by rw [ht1]; exact h.tail) h.nodup
    (fun y hy => by rw [hs1.max]; exact hltB y hy)
  have hnd2 : (ids (A ++ B)).Nodup := by
    rw [ids_append]
    exact hnd.sublist (List.Sublist.append (List.Sublist.refl _) (List.sublist_cons_self _ _))
  have hmemAB : ∀ y ∈ ids (A ++ B), y ∈ ids A ∨ y ∈ ids B := by intro y hy; rw [ids_append] at hy; simpa using hy
  have hidlt : ∀ y ∈ ids (A ++ B), y < s.max ∧ (s.timers y).id = y := by
    intro y hy
    rcases hmemAB y hy with hy | hy
    · exact h.lt y (by rw [ids_append]; simp [hy])
    · exact h.lt y (by rw [ids_append]; simp only [ids, List.map_cons, List.mem_append, List.mem_cons]; exact .inr (.inr hy))
  have hnot : ∀ y, y ∉ ids (A ++ (x, e) :: B) → y ∉ ids A ∧ y ≠ x ∧ y ∉ ids B := by
    intro y hy
    rw [ids_append] at hy
    change y ∉ ids A ++ x :: ids B at hy
    simp only [List.mem_append, List.mem_cons, not_or] at hy
    exact ⟨hy.1, hy.2.1, hy.2.2⟩
  rw [remove, if_pos hx.1, e1]
  simp only [bind, Except.bind, e2]
  cases B with
  | nil =>
    have hm2 := hm2.1 rfl
    have hx2 : s2.timers x = s.timers x := by rw [hm2]; exact hx1
    have hng : giveDelta s2 x expired = .ok s2 := by rw [giveDelta, if_neg (by rw [hx2, hxr.2.1]; simp [hd])]
    rw [hng]
    simp only
    rw [put_ok _ (by rw [hs2.max, hs1.max]; exact hx.1)]
    refine ⟨_, rfl, ⟨by rw [← hh1]; exact hh2, ht2, ?_, hnd2, ?_, by show s2.max ≤ 254; rw [hs2.max, hs1.max]; exact h.max⟩, ?_, by simp [upd], ?_⟩
    · rw [List.append_nil]
      have hfr : Rep s2.timers NO now NO A := by rw [hm2]; exact hA1
      have hfr' := rep_frame (t' := upd s2.timers x { s2.timers x with prev := NO, next := NO, delta := Inactive }) hfr (fun y hy => upd_other _ _ (by rintro rfl; exact hxA hy))
      cases expired with
      | false => exact hfr'
      | true => rw [hex rfl]; trivial
    · intro y hy
      have := hidlt y hy
      refine ⟨by show y < s2.max; rw [hs2.max, hs1.max]; exact this.1, ?_⟩
      show (upd s2.timers x { s2.timers x with prev := NO, next := NO, delta := Inactive } y).id = y
      rw [upd_other _ _ (by rintro rfl; rcases hmemAB y hy with hy | hy; exact hxA hy; exact hxB hy), hs2.id, hs1.id]; exact this.2
    · refine (hs1.trans hs2).trans ⟨rfl, rfl, rfl, rfl, fun y => ?_, fun y => ?_, fun y => ?_⟩ <;> (show _ = _; by_cases hy : y = x <;> simp [upd, hy])
    · intro y hy
      have := hnot y hy
      show upd s2.timers x { s2.timers x with prev := NO, next := NO, delta := Inactive } y = s.timers y
      rw [upd_other _ _ this.2.1, hm2, hf1 y this.1]
  | cons b B =>
    obtain ⟨b, eb⟩ := b
    have hm2 := hm2.2 b eb B rfl
    have hbx : b ≠ x := by rintro rfl; exact hxB (by simp [ids])
    have hbB : b ∉ ids B := by
      have := (List.nodup_append.1 hnd).2.1
      have := (List.nodup_cons.1 this).2
      simp only [ids, List.map_cons] at this
      exact (List.nodup_cons.1 this).1
    have hbr : e ≤ eb ∧ (s.timers b).delta = eb - e ∧ (s.timers b).next = hd NO B := by have := hxr.2.2.2.2; simp only [Rep] at this; exact ⟨this.2.2.1, this.2.2.2.1, this.2.1⟩
    have hb1 : s1.timers b = s.timers b := hB1 b (by simp [ids])
    have hx2 : s2.timers x = s.timers x := by rw [hm2, upd_other _ _ (Ne.symm hbx)]; exact hx1
    have hb2 : s2.timers b = { s.timers b with prev := last NO A } := by rw [hm2, upd_same, hb1]
    have hbNO : b ≠ NO := by have := h.max; have := hltB b (by simp [ids]); unfold NO; omega
    have hbmax : b < s2.max := by rw [hs2.max, hs1.max]; exact hltB b (by simp [ids])
    have hA2 : Rep s2.timers NO now b A := by
      have : Rep s1.timers NO now b A := hA1
      refine rep_frame this (fun y hy => ?_)
      rw [hm2]; exact upd_other _ _ (by rintro rfl; exact hdisj y hy (by simp [ids]))
    have hB2 : ∀ y ∈ ids B, s2.timers y = s.timers y := fun y hy => by
      rw [hm2, upd_other _ _ (by rintro rfl; exact hbB hy)]; exact hB1 y (by simp only [ids, List.map_cons, List.mem_cons]; exact .inr hy)
    -- the delta handed on
    obtain ⟨s3, e3, hh3, ht3, hs3, hm3⟩ : ∃ s3, giveDelta s2 x expired = .ok s3 ∧ s3.head = s2.head ∧ s3.tail = s2.tail ∧ Same s2 s3 ∧
        s3.timers = upd s2.timers b { s2.timers b with delta := eb - (if expired then e else lastd now A) } := by
      rw [giveDelta, hx2, show (s.timers x).next = b from hxr.2.1]
      cases expired with
      | true =>
        rw [if_neg (show ¬ (true = false ∧ b ≠ NO) by simp)]
        refine ⟨s2, rfl, rfl, rfl, Same.refl _, ?_⟩
        have : ({ s2.timers b with delta := eb - (if true = true then e else lastd now A) } : Timer) = s2.timers b := by rw [hb2]; simp [hbr.2.1]
        rw [this]; funext y; by_cases hy : y = b <;> simp [upd, hy]
      | false =>
        rw [if_pos (show false = false ∧ b ≠ NO from ⟨rfl, hbNO⟩), put_ok _ hbmax]
        refine ⟨_, rfl, rfl, rfl, ⟨rfl, rfl, rfl, rfl, fun y => by grind [upd], fun y => by grind [upd], fun y => by grind [upd]⟩, ?_⟩
        have h1 : (s2.timers b).delta = eb - e := by rw [hb2]; exact hbr.2.1
        have h2 : lastd now A ≥ now := by
          have hl : ∀ (A : DL) (p q n : Nat), Rep s.timers p n q A → n ≤ lastd n A := by
            intro A; induction A with
            | nil => intro p q n _; exact Nat.le_refl _
            | cons y A ih =>
              obtain ⟨y, d⟩ := y
              intro p q n hr
              simp only [Rep] at hr
              exact Nat.le_trans hr.2.2.1 (ih _ _ _ hr.2.2.2.2)
          exact hl A _ _ _ hrep.1
        have h3 := hbound (b, eb) (by simp)
        have h4 := hxr.2.2.1
        simp only at h3
        have : (eb - e + (e - lastd now A)) % 4294967296 = eb - lastd now A := by
          have := hbr.1
          rw [Nat.mod_eq_of_lt (by omega)]; omega
        simp only [h1, hxr.2.2.2.1, this, Bool.false_eq_true, if_false]
    rw [e3]
    simp only
    rw [put_ok _ (by rw [hs3.max, hs2.max, hs1.max]; exact hx.1)]
    refine ⟨_, rfl, ⟨?_, ?_, ?_, hnd2, ?_, by show s3.max ≤ 254; rw [hs3.max, hs2.max, hs1.max]; exact h.max⟩, ?_, by simp [upd], ?_⟩
    · show s3.head = _; rw [hh3, hh2, hh1]
    · show s3.tail = _; rw [ht3, ht2]
    · have hBr : Rep (upd s3.timers x { s3.timers x with prev := NO, next := NO, delta := Inactive }) (last NO A) (if expired then e else lastd now A) NO ((b, eb) :: B) := by
        refine rep_first hxr.2.2.2.2 hbB (by cases expired <;> simp <;> have := hbr.1 <;> have := hxr.2.2.1 <;> omega) ?_ ?_ ?_ ?_
        · rw [upd_other _ _ hbx, hm3, upd_same, hb2]
        · rw [upd_other _ _ hbx, hm3, upd_same, hb2]
        · rw [upd_other _ _ hbx, hm3, upd_same]
        · intro y hy
          rw [upd_other _ _ (by rintro rfl; exact hxB (by simp only [ids, List.map_cons, List.mem_cons]; exact .inr hy)), hm3, upd_other _ _ (by rintro rfl; exact hbB hy), hB2 y hy]
      rw [rep_append]
      have hAr : Rep (upd s3.timers x { s3.timers x with prev := NO, next := NO, delta := Inactive }) NO now b A := by
        refine rep_frame hA2 (fun y hy => ?_)
        rw [upd_other _ _ (by rintro rfl; exact hxA hy), hm3, upd_other _ _ (by rintro rfl; exact hdisj y hy (by simp [ids]))]
      cases expired with
      | false => exact ⟨hAr, hBr⟩
      | true => have := hex rfl; subst this; exact ⟨trivial, hBr⟩
    · intro y hy
      have := hidlt y hy
      refine ⟨by show y < s3.max; rw [hs3.max, hs2.max, hs1.max]; exact this.1, ?_⟩
      show (upd s3.timers x { s3.timers x with prev := NO, next := NO, delta := Inactive } y).id = y
      rw [upd_other _ _ (by rintro rfl; rcases hmemAB y hy with hy | hy; exact hxA hy; exact hxB hy), hs3.id, hs2.id, hs1.id]; exact this.2
    · refine ((hs1.trans hs2).trans hs3).trans ⟨rfl, rfl, rfl, rfl, fun y => ?_, fun y => ?_, fun y => ?_⟩ <;> (show _ = _; by_cases hy : y = x <;> simp [upd, hy])
    · intro y hy
      have := hnot y hy
      have hyb : y ≠ b := by rintro rfl; exact this.2.2 (by simp [ids])
      show upd s3.timers x { s3.timers x with prev := NO, next := NO, delta := Inactive } y = s.timers y
      rw [upd_other _ _ this.2.1, hm3, upd_other _ _ hyb, hm2, upd_other _ _ hyb, hf1 y this.1]

end Etl.Timer
