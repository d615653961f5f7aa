import Verif.Broker.Spec
import Mathlib.Data.List.Nodup
import Mathlib.Data.List.Perm.Subperm
import Mathlib.Data.List.Induction
import Mathlib.Tactic.ByContra
import Mathlib.Tactic.SplitIfs

/-! # C67: message brokers -/
namespace Etl.Broker

/-! ## Linked lists -/

/-- The subscriptions `l` are linked one after the other from the pointer `p`, up to the pointer `q`. -/
def Seg (nx : Nat → Option Nat) (p : Option Nat) : List Nat → Option Nat → Prop
  | [], q => p = q
  | x :: l, q => p = some x ∧ Seg nx (nx x) l q

theorem seg_append {nx} : ∀ {l m : List Nat} {p q}, Seg nx p (l ++ m) q ↔ ∃ o, Seg nx p l o ∧ Seg nx o m q
  | [], m, p, q => by simp [Seg]
  | x :: l, m, p, q => by simp [Seg, seg_append (l := l), and_assoc]

theorem Seg.upd {nx a b} : ∀ {l p q}, Seg nx p l q → a ∉ l → Seg (upd nx a b) p l q
  | [], _, _, h, _ => h
  | x :: l, _, _, h, hf => ⟨h.1, by rw [upd_other _ _ (by simp at hf; tauto)]; exact h.2.upd (by simp at hf; tauto)⟩

/-- After the update of the last node's pointer the chain ends elsewhere. -/
theorem Seg.last {nx} : ∀ {l p x q} (o), Seg nx p (l ++ [x]) q → x ∉ l → Seg (Etl.upd nx x o) p (l ++ [x]) o
  | [], _, _, _, o, h, _ => ⟨h.1, by simp [Seg]⟩
  | y :: l, _, x, _, o, h, hf =>
    ⟨h.1, by rw [upd_other _ _ (by simp at hf; tauto)]; exact Seg.last o h.2 (by simp at hf; tauto)⟩

theorem Seg.head {nx l p} (h : Seg nx p l none) : p = l.head? := by
  cases l with
  | nil => exact h
  | cons x l => exact h.1

theorem Seg.following {nx s} : ∀ {l p}, Seg nx p l none → s ∈ l → nx s = following s l
  | [], _, _, h => by simp at h
  | x :: l, p, h, hs => by
    by_cases hx : x = s
    · subst hx; simp only [Broker.following, if_true]; exact h.2.head
    · simp only [Broker.following, if_neg hx]
      exact h.2.following (by simp at hs; tauto)

/-- The code and the specification agree. -/
structure Rel (e : Env) (st : St) (sp : Subs) : Prop where
  seg : ∀ b, Seg st.nx (st.hd b) (sp b) none
  routers : ∀ b, ((sp b).map e.rt).Nodup
  lt : ∀ b, ∀ s ∈ sp b, s < e.N
  apart : ∀ b b', b ≠ b' → ∀ s ∈ sp b, s ∉ sp b'
  out : ∀ b, e.B ≤ b → sp b = []

theorem rel_init (e : Env) : Rel e init Subs.init :=
  ⟨fun _ => rfl, fun _ => by simp [Subs.init], by simp [Subs.init], by simp [Subs.init], fun _ _ => rfl⟩

theorem Rel.nodup {e st sp} (h : Rel e st sp) (b : Nat) : (sp b).Nodup := List.Nodup.of_map _ (h.routers b)

theorem Rel.len {e st sp} (h : Rel e st sp) (b : Nat) : (sp b).length ≤ e.N := by
  have := (List.subperm_of_subset (h.nodup b) (l₂ := List.range e.N) (by intro x hx; exact List.mem_range.2 (h.lt b x hx))).length_le
  simpa using this

/-- The last node of a chain that starts with the head of broker `b`. -/
def lastNode (b : Nat) : List Nat → Node
  | [] => .head b
  | x :: l => .sub ((x :: l).getLast (by simp))

theorem lastNode_concat (b : Nat) (l : List Nat) (x : Nat) : lastNode b (l ++ [x]) = .sub x := by
  cases l with
  | nil => rfl
  | cons y l => simp [lastNode]

/-- The pointer out of the last node of the first part is the pointer into the second. -/
theorem getNext_last {st : St} {b : Nat} {l : List Nat} {q} (h : Seg st.nx (st.hd b) l q) : getNext st (lastNode b l) = q := by
  induction l using List.reverseRecOn generalizing q with
  | nil => exact h
  | append_singleton l x _ =>
    rw [lastNode_concat]
    obtain ⟨o, _, h2, h3⟩ := seg_append.1 h
    exact h3

/-- The loop finds the subscription of the router, or the end of the list. -/
theorem loop_spec (e : Env) (st : St) (b : Nat) (t : Target) : ∀ (l2 l1 : List Nat) (fuel : Nat) (p : Option Nat), Seg st.nx (st.hd b) l1 p → Seg st.nx p l2 none →
    l2.length < fuel →
    (∃ m1 s m2, l2 = m1 ++ s :: m2 ∧ e.rt s = t ∧ (∀ x ∈ m1, e.rt x ≠ t) ∧
      insertionLoop e t fuel st p (lastNode b l1) = .ok (terminate (setNext st (lastNode b (l1 ++ m1)) (getNext st (.sub s))) (.sub s), lastNode b (l1 ++ m1))) ∨
    ((∀ x ∈ l2, e.rt x ≠ t) ∧ insertionLoop e t fuel st p (lastNode b l1) = .ok (st, lastNode b (l1 ++ l2))) := by
  intro l2
  induction l2 with
  | nil =>
    intro l1 fuel p h1 h2 hf
    right
    cases fuel with
    | zero => simp at hf
    | succ fuel => cases h2; simp [insertionLoop]
  | cons s l2 ih =>
    intro l1 fuel p h1 h2 hf
    cases fuel with
    | zero => simp at hf
    | succ fuel =>
      obtain ⟨rfl, h2⟩ := h2
      by_cases hs : e.rt s = t
      · left
        exact ⟨[], s, l2, rfl, hs, by simp, by simp [insertionLoop, hs]⟩
      · have hg := getNext_last h1
        have hstep : insertionLoop e t (fuel + 1) st (some s) (lastNode b l1) = insertionLoop e t fuel st (st.nx s) (lastNode b (l1 ++ [s])) := by
          rw [lastNode_concat]
          simp only [insertionLoop, if_neg hs, hg]; rfl
        rw [hstep]
        have h1' : Seg st.nx (st.hd b) (l1 ++ [s]) (st.nx s) := seg_append.2 ⟨some s, h1, rfl, rfl⟩
        rcases ih (l1 ++ [s]) fuel (st.nx s) h1' h2 (by simpa using hf) with ⟨m1, x, m2, rfl, hx, hm, hl⟩ | ⟨hm, hl⟩
        · left
          refine ⟨s :: m1, x, m2, rfl, hx, ?_, ?_⟩
          · intro y hy
            rcases List.mem_cons.1 hy with rfl | hy
            · exact hs
            · exact hm y hy
          · rw [hl]; simp
        · right
          refine ⟨?_, ?_⟩
          · intro y hy
            rcases List.mem_cons.1 hy with rfl | hy
            · exact hs
            · exact hm y hy
          · rw [hl]; simp

/-- Writing the pointer of the last node of the first part. -/
theorem setNext_last {st : St} {b : Nat} {l : List Nat} {q} (o) (h : Seg st.nx (st.hd b) l q) (hn : l.Nodup) :
    Seg (setNext st (lastNode b l) o).nx ((setNext st (lastNode b l) o).hd b) l o := by
  induction l using List.reverseRecOn generalizing q with
  | nil => simp [lastNode, setNext, Seg]
  | append_singleton l x _ =>
    rw [lastNode_concat]
    exact h.last o (by have := List.nodup_append.1 hn; intro hx; exact this.2.2 x hx x (by simp) rfl)

/-- Writing that pointer changes no chain without that node. -/
theorem setNext_frame {st : St} {b : Nat} {l m : List Nat} {p q} (o) (h : Seg st.nx p m q) (hd : ∀ x ∈ l, x ∉ m) :
    Seg (setNext st (lastNode b l) o).nx p m q := by
  induction l using List.reverseRecOn with
  | nil => exact h
  | append_singleton l x _ => rw [lastNode_concat]; exact h.upd (hd x (by simp))

theorem setNext_hd {st : St} {b c : Nat} {l : List Nat} (o) (h : c ≠ b) : (setNext st (lastNode b l) o).hd c = st.hd c := by
  induction l using List.reverseRecOn with
  | nil => exact upd_other _ _ h
  | append_singleton l x _ => rw [lastNode_concat]; rfl

/-- Jumping over a subscription and terminating it. -/
theorem unlink_spec {st : St} {b : Nat} {m1 m2 : List Nat} {s : Nat} (h : Seg st.nx (st.hd b) (m1 ++ s :: m2) none) (hn : (m1 ++ s :: m2).Nodup) :
    let st1 := terminate (setNext st (lastNode b m1) (getNext st (.sub s))) (.sub s)
    Seg st1.nx (st1.hd b) m1 (st.nx s) ∧ Seg st1.nx (st.nx s) m2 none ∧
    (∀ c, c ≠ b → ∀ l, Seg st.nx (st.hd c) l none → (∀ x ∈ m1 ++ s :: m2, x ∉ l) → Seg st1.nx (st1.hd c) l none) := by
  obtain ⟨o, h1, rfl, h2⟩ := seg_append.1 h
  have hnd := List.nodup_append.1 hn
  have hs1 : s ∉ m1 := fun hx => hnd.2.2 s hx s (by simp) rfl
  have hs2 : s ∉ m2 := (List.nodup_cons.1 hnd.2.1).1
  refine ⟨?_, ?_, ?_⟩
  · exact (setNext_last (st.nx s) h1 hnd.1).upd hs1
  · refine (setNext_frame (st.nx s) h2 ?_).upd hs2
    intro x hx hx2; exact hnd.2.2 x hx x (by simp [hx2]) rfl
  · intro c hc l hl hd
    show Seg (upd _ s none) ((setNext st (lastNode b m1) _).hd c) l none
    rw [setNext_hd _ hc]
    exact (setNext_frame _ hl (fun x hx => hd x (by simp [hx]))).upd (hd s (by simp))

/-- Linking in a subscription after the last node of the first part. -/
theorem append_spec {st : St} {b : Nat} {m1 m2 : List Nat} {n : Nat} {o} (h1 : Seg st.nx (st.hd b) m1 o) (h2 : Seg st.nx o m2 none) (hn : (m1 ++ n :: m2).Nodup) :
    let st1 := append st (lastNode b m1) (some n)
    Seg st1.nx (st1.hd b) (m1 ++ n :: m2) none ∧
    (∀ c, c ≠ b → ∀ l, Seg st.nx (st.hd c) l none → (∀ x ∈ m1 ++ [n], x ∉ l) → Seg st1.nx (st1.hd c) l none) := by
  have hnd := List.nodup_append.1 hn
  have hs1 : n ∉ m1 := fun hx => hnd.2.2 n hx n (by simp) rfl
  have hs2 : n ∉ m2 := (List.nodup_cons.1 hnd.2.1).1
  have hg := getNext_last h1
  have h1' : Seg (setNext st (.sub n) o).nx ((setNext st (.sub n) o).hd b) m1 o := h1.upd hs1
  have h2' : Seg (setNext st (.sub n) o).nx o m2 none := h2.upd hs2
  simp only [append, hg]
  refine ⟨?_, ?_⟩
  · refine seg_append.2 ⟨some n, setNext_last (some n) h1' hnd.1, rfl, ?_⟩
    have hx : (setNext (setNext st (.sub n) o) (lastNode b m1) (some n)).nx n = o := by
      have : Seg (setNext st (.sub n) o).nx (some n) [n] o := ⟨rfl, by simp [setNext, Seg]⟩
      have := setNext_frame (b := b) (l := m1) (some n) this (by intro x hx hx2; simp at hx2; subst hx2; exact hs1 hx)
      exact this.2
    rw [hx]
    exact setNext_frame (some n) h2' (by intro x hx hx2; exact hnd.2.2 x hx x (by simp [hx2]) rfl)
  · intro c hc l hl hd
    rw [setNext_hd _ hc]
    exact setNext_frame _ (hl.upd (hd n (by simp))) (fun x hx => hd x (by simp [hx]))

/-! ## The operations -/

theorem map_unique {e : Env} {m1 m2 : List Nat} {s n : Nat} (hs : e.rt s = e.rt n) (h1 : ∀ x ∈ m1, e.rt x ≠ e.rt n) (h2 : ∀ x ∈ m2, e.rt x ≠ e.rt n) :
    specSubscribe e (m1 ++ s :: m2) n = m1 ++ n :: m2 := by
  have f : ∀ l : List Nat, (∀ x ∈ l, e.rt x ≠ e.rt n) → l.map (fun x => if e.rt x = e.rt n then n else x) = l := by
    intro l hl
    conv_rhs => rw [← List.map_id l]
    exact List.map_congr_left (fun x hx => by simp [hl x hx])
  rw [specSubscribe, if_pos ⟨s, by simp, hs⟩, List.map_append, List.map_cons, f _ h1, f _ h2, if_pos hs]

theorem filter_unique {e : Env} {m1 m2 : List Nat} {s : Nat} {t : Target} (hs : e.rt s = t) (h1 : ∀ x ∈ m1, e.rt x ≠ t) (h2 : ∀ x ∈ m2, e.rt x ≠ t) :
    specUnsubscribe e (m1 ++ s :: m2) t = m1 ++ m2 := by
  have f : ∀ l : List Nat, (∀ x ∈ l, e.rt x ≠ t) → l.filter (fun x => decide (e.rt x ≠ t)) = l := by
    intro l hl; exact List.filter_eq_self.2 (fun x hx => by simp [hl x hx])
  rw [specUnsubscribe, List.filter_append, List.filter_cons_of_neg (by simp [hs]), f _ h1, f _ h2]

theorem others_ne {e : Env} {m1 m2 : List Nat} {s : Nat} (h : ((m1 ++ s :: m2).map e.rt).Nodup) : ∀ x ∈ m2, e.rt x ≠ e.rt s := by
  rw [List.map_append, List.map_cons] at h
  have := (List.nodup_cons.1 (List.nodup_append.1 h).2.1).1
  intro x hx hy
  exact this (hy ▸ List.mem_map_of_mem hx)

theorem unsubscribe_spec {e : Env} {st : St} {sp : Subs} (h : Rel e st sp) (b : Nat) (hb : b < e.B) (t : Target) :
    ∃ st', unsubscribe e st b t = .ok st' ∧ Rel e st' (upd sp b (specUnsubscribe e (sp b) t)) := by
  have hsub : ∀ x ∈ specUnsubscribe e (sp b) t, x ∈ sp b := fun x hx => (List.mem_filter.1 hx).1
  have gen : ∀ st', (∀ c, Seg st'.nx (st'.hd c) (upd sp b (specUnsubscribe e (sp b) t) c) none) → Rel e st' (upd sp b (specUnsubscribe e (sp b) t)) := by
    intro st' hseg
    refine ⟨hseg, ?_, ?_, ?_, ?_⟩
    · intro c
      by_cases hc : c = b
      · subst hc; rw [upd_same]; exact (h.routers c).sublist (List.Sublist.map _ List.filter_sublist)
      · rw [upd_other _ _ hc]; exact h.routers c
    · intro c x hx
      by_cases hc : c = b
      · subst hc; rw [upd_same] at hx; exact h.lt c x (hsub x hx)
      · rw [upd_other _ _ hc] at hx; exact h.lt c x hx
    · intro c c' hcc x hx hx'
      by_cases hc : c = b
      · subst hc; rw [upd_same] at hx; rw [upd_other _ _ hcc.symm] at hx'; exact h.apart c c' hcc x (hsub x hx) hx'
      · rw [upd_other _ _ hc] at hx
        by_cases hc' : c' = b
        · subst hc'; rw [upd_same] at hx'; exact h.apart c c' hcc x hx (hsub x hx')
        · rw [upd_other _ _ hc'] at hx'; exact h.apart c c' hcc x hx hx'
    · intro c hc
      rw [upd_other _ _ (by omega)]; exact h.out c hc
  have hlen := h.len b
  rcases loop_spec e st b t (sp b) [] (e.N + 1) (st.hd b) rfl (h.seg b) (by omega) with ⟨m1, s, m2, hl, hs, h1, hr⟩ | ⟨hno, hr⟩
  · have hsegb := h.seg b
    have hnd := h.nodup b
    have hro := h.routers b
    rw [hl] at hsegb hnd hro
    have hu := unlink_spec hsegb hnd
    refine ⟨terminate (setNext st (lastNode b m1) (getNext st (.sub s))) (.sub s), ?_, gen _ ?_⟩
    · show insertionPoint e st b t none = _
      unfold insertionPoint
      rw [show insertionLoop e t (e.N + 1) st (getNext st (.head b)) (.head b) = _ from hr]
      rfl
    · intro c
      by_cases hc : c = b
      · subst hc
        rw [upd_same, hl, filter_unique hs h1 (by have := others_ne hro; rw [hs] at this; exact this)]
        exact seg_append.2 ⟨_, hu.1, hu.2.1⟩
      · rw [upd_other _ _ hc]
        exact hu.2.2 c hc _ (h.seg c) (fun x hx => h.apart b c (Ne.symm hc) x (hl ▸ hx))
  · refine ⟨st, ?_, gen _ ?_⟩
    · show insertionPoint e st b t none = _
      unfold insertionPoint
      rw [show insertionLoop e t (e.N + 1) st (getNext st (.head b)) (.head b) = _ from hr]
    · intro c
      by_cases hc : c = b
      · subst hc
        have : specUnsubscribe e (sp c) t = sp c := List.filter_eq_self.2 (fun x hx => by simp [hno x hx])
        rw [upd_same, this]; exact h.seg c
      · rw [upd_other _ _ hc]; exact h.seg c

theorem subscribe_spec {e : Env} {st : St} {sp : Subs} (h : Rel e st sp) (b n : Nat) (hb : b < e.B) (hn : n < e.N) (hfree : ∀ b' < e.B, b' ≠ b → n ∉ sp b') :
    ∃ st', subscribe e st b n = .ok st' ∧ Rel e st' (upd sp b (specSubscribe e (sp b) n)) := by
  have hfree' : ∀ c, c ≠ b → n ∉ sp c := by
    intro c hc
    by_cases hcB : c < e.B
    · exact hfree c hcB hc
    · rw [h.out c (by omega)]; simp
  -- `L` is the new list
  have gen : ∀ (L : List Nat) st', (∀ x ∈ L, x = n ∨ x ∈ sp b) → (L.map e.rt).Nodup → (∀ c, Seg st'.nx (st'.hd c) (upd sp b L c) none) → Rel e st' (upd sp b L) := by
    intro L st' hL hro hseg
    refine ⟨hseg, ?_, ?_, ?_, ?_⟩
    · intro c
      by_cases hc : c = b
      · subst hc; rw [upd_same]; exact hro
      · rw [upd_other _ _ hc]; exact h.routers c
    · intro c x hx
      by_cases hc : c = b
      · subst hc; rw [upd_same] at hx
        rcases hL x hx with rfl | hx
        · exact hn
        · exact h.lt c x hx
      · rw [upd_other _ _ hc] at hx; exact h.lt c x hx
    · intro c c' hcc x hx hx'
      by_cases hc : c = b
      · subst hc; rw [upd_same] at hx; rw [upd_other _ _ hcc.symm] at hx'
        rcases hL x hx with rfl | hx
        · exact hfree' c' hcc.symm hx'
        · exact h.apart c c' hcc x hx hx'
      · rw [upd_other _ _ hc] at hx
        by_cases hc' : c' = b
        · subst hc'; rw [upd_same] at hx'
          rcases hL x hx' with rfl | hx'
          · exact hfree' c hc hx
          · exact h.apart c c' hcc x hx hx'
        · rw [upd_other _ _ hc'] at hx'; exact h.apart c c' hcc x hx hx'
    · intro c hc
      rw [upd_other _ _ (by omega)]; exact h.out c hc
  have hlen := h.len b
  rcases loop_spec e st b (e.rt n) (sp b) [] (e.N + 1) (st.hd b) rfl (h.seg b) (by omega) with ⟨m1, s, m2, hl, hs, h1, hr⟩ | ⟨hno, hr⟩
  · have hsegb := h.seg b
    have hnd := h.nodup b
    have hro := h.routers b
    rw [hl] at hsegb hnd hro
    have h2 : ∀ x ∈ m2, e.rt x ≠ e.rt n := by have := others_ne hro; rw [hs] at this; exact this
    have hu := unlink_spec hsegb hnd
    have hro' : ((m1 ++ n :: m2).map e.rt).Nodup := by
      rw [List.map_append, List.map_cons, ← hs, ← List.map_cons, ← List.map_append]; exact hro
    have ha := append_spec (n := n) hu.1 hu.2.1 (List.Nodup.of_map _ hro')
    rw [hl, map_unique hs h1 h2]
    refine ⟨append (terminate (setNext st (lastNode b m1) (getNext st (.sub s))) (.sub s)) (lastNode b m1) (some n), ?_, gen _ _ ?_ hro' ?_⟩
    · show insertionPoint e st b (e.rt n) (some n) = _
      unfold insertionPoint
      rw [show insertionLoop e (e.rt n) (e.N + 1) st (getNext st (.head b)) (.head b) = _ from hr]
      rfl
    · intro x hx; rw [hl]; simp at hx ⊢; tauto
    · intro c
      by_cases hc : c = b
      · subst hc; rw [upd_same]; exact ha.1
      · rw [upd_other _ _ hc]
        refine ha.2 c hc _ (hu.2.2 c hc _ (h.seg c) (fun x hx => h.apart b c (Ne.symm hc) x (hl ▸ hx))) ?_
        intro x hx
        rcases List.mem_append.1 hx with hx | hx
        · exact h.apart b c (Ne.symm hc) x (hl ▸ by simp [hx])
        · simp at hx; subst hx; exact hfree' c hc
  · have hL : specSubscribe e (sp b) n = sp b ++ [n] := by
      rw [specSubscribe, if_neg]; rintro ⟨x, hx, hy⟩; exact hno x hx hy
    have hro' : ((sp b ++ [n]).map e.rt).Nodup := by
      rw [List.map_append, List.nodup_append]
      refine ⟨h.routers b, by simp, ?_⟩
      intro x hx y hy
      simp at hy hx
      obtain ⟨z, hz, rfl⟩ := hx
      subst hy; exact hno z hz
    have ha := append_spec (m2 := []) (n := n) (h.seg b) rfl (List.Nodup.of_map _ hro')
    rw [hL]
    refine ⟨append st (lastNode b (sp b)) (some n), ?_, gen _ _ ?_ hro' ?_⟩
    · show insertionPoint e st b (e.rt n) (some n) = _
      unfold insertionPoint
      rw [show insertionLoop e (e.rt n) (e.N + 1) st (getNext st (.head b)) (.head b) = _ from hr]
      rfl
    · intro x hx; simp at hx; tauto
    · intro c
      by_cases hc : c = b
      · subst hc; rw [upd_same]; exact ha.1
      · rw [upd_other _ _ hc]
        refine ha.2 c hc _ (h.seg c) ?_
        intro x hx
        rcases List.mem_append.1 hx with hx | hx
        · exact h.apart b c (Ne.symm hc) x hx
        · simp at hx; subst hx; exact hfree' c hc

theorem clear_spec {e : Env} {st : St} {sp : Subs} (h : Rel e st sp) (b : Nat) (hb : b < e.B) : Rel e (clear st b) (upd sp b []) := by
  refine ⟨?_, ?_, ?_, ?_, ?_⟩
  · intro c
    by_cases hc : c = b
    · subst hc; rw [upd_same]; simp [clear, terminate, setNext, Seg]
    · rw [upd_other _ _ hc]; show Seg st.nx (upd st.hd b none c) _ _
      rw [upd_other _ _ hc]; exact h.seg c
  · intro c
    by_cases hc : c = b
    · subst hc; simp
    · rw [upd_other _ _ hc]; exact h.routers c
  · intro c x hx
    by_cases hc : c = b
    · subst hc; simp at hx
    · rw [upd_other _ _ hc] at hx; exact h.lt c x hx
  · intro c c' hcc x hx hx'
    by_cases hc : c = b
    · subst hc; simp at hx
    · rw [upd_other _ _ hc] at hx
      by_cases hc' : c' = b
      · subst hc'; simp at hx'
      · rw [upd_other _ _ hc'] at hx'; exact h.apart c c' hcc x hx hx'
  · intro c hc; rw [upd_other _ _ (by omega)]; exact h.out c hc

theorem empty_spec {e : Env} {st : St} {sp : Subs} (h : Rel e st sp) (b : Nat) : empty st b = (sp b).isEmpty := by
  have := (h.seg b).head
  show (st.hd b).isNone = _
  rw [this]; cases sp b <;> rfl

theorem step_spec {e : Env} {st : St} {sp sp' : Subs} {t : Task} {ts es} (h : Rel e st sp) (hs : specStep e sp t = some (sp', ts, es)) :
    ∃ st', step e st t = .ok (st', ts, es) ∧ Rel e st' sp' := by
  cases t with
  | op o =>
    cases o with
    | subscribe b s =>
      simp only [specStep] at hs
      split_ifs at hs with hc
      cases hs
      obtain ⟨st', h1, h2⟩ := subscribe_spec h b s hc.1 hc.2.1 hc.2.2
      exact ⟨st', by simp [step, h1], h2⟩
    | unsubscribe b t =>
      simp only [specStep] at hs
      split_ifs at hs with hc
      cases hs
      obtain ⟨st', h1, h2⟩ := unsubscribe_spec h b hc t
      exact ⟨st', by simp [step, h1], h2⟩
    | clear b =>
      simp only [specStep] at hs
      split_ifs at hs with hc
      cases hs
      exact ⟨_, rfl, clear_spec h b hc⟩
    | send t od m => cases hs; exact ⟨_, rfl, h⟩
  | recv t od m =>
    cases t with
    | user r => cases hs; exact ⟨_, rfl, h⟩
    | broker b =>
      cases od with
      | none => cases hs; exact ⟨_, rfl, h⟩
      | some d =>
        have he := empty_spec h b
        have hh := (h.seg b).head
        simp only [specStep] at hs
        refine ⟨st, ?_, ?_⟩
        · simp only [step, he, List.isEmpty_iff]
          split_ifs at hs ⊢ with hc
          · cases hs; rfl
          · cases hs; simp only [getNext, hh]
        · split_ifs at hs <;> (cases hs; exact h)
  | loop b cur d m =>
    cases cur with
    | none => cases hs; exact ⟨_, rfl, h⟩
    | some s =>
      simp only [specStep] at hs
      cases hs
      refine ⟨st, ?_, h⟩
      simp only [step, wants]
      by_cases h1 : m ∈ e.ids s <;> by_cases h2 : d = ALL <;> by_cases h3 : d = e.rid (e.rt s) <;> simp [h1, h2, h3]
  | next b s d m =>
    simp only [specStep] at hs
    split_ifs at hs with hc
    cases hs
    refine ⟨st, ?_, h⟩
    simp only [step, getNext, (h.seg b).following hc]
  | succ b d m =>
    simp only [specStep] at hs
    cases hs
    refine ⟨st, ?_, h⟩
    simp only [step]
    cases e.succ b <;> rfl

theorem run_spec {e : Env} : ∀ (n : Nat) {st : St} {k : List Task} {es : List Ev} {sp : Subs} {r : SpecRun}, Rel e st sp →
    specRun e n ⟨sp, k, es⟩ = some r → ∃ st', run e n ⟨st, k, es⟩ = .ok ⟨st', r.todo, r.evs⟩ ∧ Rel e st' r.sp
  | 0, st, k, es, sp, r, h, hr => by cases hr; exact ⟨st, rfl, h⟩
  | n + 1, st, k, es, sp, r, h, hr => by
    cases k with
    | nil => cases hr; exact ⟨st, rfl, h⟩
    | cons t k =>
      simp only [specRun] at hr
      cases hq : specStep e sp t with
      | none => rw [hq] at hr; cases hr
      | some q =>
        obtain ⟨sp', ts, es'⟩ := q
        rw [hq] at hr
        obtain ⟨st', h1, h2⟩ := step_spec h hq
        obtain ⟨st'', h3, h4⟩ := run_spec n h2 hr
        exact ⟨st'', by simp only [run, h1]; exact h3, h4⟩

/-- `accepts` as the specification has it: some subscriber subscribed to the message accepts it, or the successor does. -/
def specAccepts (e : Env) (sp : Subs) (b m : Nat) : Bool :=
  (sp b).any (fun s => decide (m ∈ e.ids s) && e.acc (e.rt s) m) || (match e.succ b with | some t => e.acc t m | none => false)

theorem acceptsLoop_spec (e : Env) (m : Nat) (st : St) : ∀ (l : List Nat) (fuel : Nat) (p : Option Nat), Seg st.nx p l none → l.length < fuel →
    acceptsLoop e m st fuel p = .ok (l.any (fun s => decide (m ∈ e.ids s) && e.acc (e.rt s) m))
  | _, 0, _, _, h => by omega
  | [], fuel + 1, p, h, _ => by cases h; rfl
  | s :: l, fuel + 1, p, h, hf => by
    obtain ⟨rfl, h⟩ := h
    simp only [acceptsLoop]
    split_ifs with hc
    · simp [hc]
    · rw [show getNext st (.sub s) = st.nx s from rfl, acceptsLoop_spec e m st l fuel _ h (by simpa using hf)]
      have : (decide (m ∈ e.ids s) && e.acc (e.rt s) m) = false := by
        cases hb : (decide (m ∈ e.ids s) && e.acc (e.rt s) m) with
        | false => rfl
        | true => simp at hb; exact absurd hb hc
      simp [List.any_cons, this]

theorem accepts_spec {e : Env} {st : St} {sp : Subs} (h : Rel e st sp) (b m : Nat) : accepts e st b m = .ok (specAccepts e sp b m) := by
  have hlen := h.len b
  have hl := acceptsLoop_spec e m st (sp b) (e.N + 1) (st.hd b) (h.seg b) (by omega)
  have : (if empty st b then Except.ok false else acceptsLoop e m st (e.N + 1) (getNext st (.head b))) =
      (Except.ok ((sp b).any (fun s => decide (m ∈ e.ids s) && e.acc (e.rt s) m)) : Res Bool) := by
    rw [empty_spec h b]
    split_ifs with hc
    · rw [List.isEmpty_iff.1 hc]; rfl
    · exact hl
  unfold accepts specAccepts
  rw [this]
  cases (sp b).any (fun s => decide (m ∈ e.ids s) && e.acc (e.rt s) m)
  · cases e.succ b <;> rfl
  · rfl

/-! ## C67 -/

/-- **C67**: for every set of brokers, subscriptions and routers, every program of subscribe, unsubscribe, clear and send operations, every re-entrant behaviour
of the handlers, and every number of steps: as long as the program keeps to the contract, the brokers have made exactly the calls of the specification, in that
order, and `empty()` and `accepts()` answer what the lists of subscriptions say; no broker ever has two subscriptions for one router. -/
theorem C67_broker_does (e : Env) (prog : List Op) (n : Nat) (r : SpecRun) (h : specRun e n (specStart prog) = some r) :
    ∃ st, run e n (start prog) = .ok ⟨st, r.todo, r.evs⟩ ∧
      (∀ b, empty st b = (r.sp b).isEmpty) ∧ (∀ b m, accepts e st b m = .ok (specAccepts e r.sp b m)) ∧ (∀ b, ((r.sp b).map e.rt).Nodup) := by
  obtain ⟨st, h1, h2⟩ := run_spec n (rel_init e) h
  exact ⟨st, h1, empty_spec h2, accepts_spec h2, h2.routers⟩

theorem run_add {e : Env} : ∀ (n m : Nat) {r r1 r2 : Run}, run e n r = .ok r1 → run e m r1 = .ok r2 → run e (n + m) r = .ok r2
  | 0, m, r, r1, r2, h1, h2 => by cases h1; simpa using h2
  | n + 1, m, r, r1, r2, h1, h2 => by
    obtain ⟨st, k, es⟩ := r
    rw [show n + 1 + m = (n + m) + 1 from by omega]
    cases k with
    | nil =>
      cases h1
      cases m with
      | zero => cases h2; rfl
      | succ m => cases h2; rfl
    | cons t k =>
      simp only [run] at h1 ⊢
      cases hs : step e st t with
      | error u => rw [hs] at h1; cases h1
      | ok q => obtain ⟨st', ts, es'⟩ := q; rw [hs] at h1; exact run_add n m h1 h2

/-- The router is a user router whose handler does nothing to the brokers. -/
def Quiet (e : Env) (od : Option Nat) (m : Nat) : Target → Prop
  | .user r => e.script r od m = []
  | .broker _ => False

/-- The call of a user router. -/
def call (od : Option Nat) (m : Nat) : Target → List Ev
  | .user r => [.got r od m]
  | .broker _ => []

theorem quiet_recv {e : Env} {st : St} {t : Target} {od m k es} (h : Quiet e od m t) :
    run e 1 ⟨st, .recv t od m :: k, es⟩ = .ok ⟨st, k, es ++ call od m t⟩ := by
  cases t with
  | broker b => cases h
  | user r => simp only [Quiet] at h; simp [run, step, h, call]

theorem quiet_loop {e : Env} {st : St} {b d m : Nat} {k : List Task} : ∀ (l : List Nat) (p : Option Nat) (es : List Ev), Seg st.nx p l none →
    (∀ s ∈ l, Quiet e none m (e.rt s)) →
    ∃ n, run e n ⟨st, .loop b p d m :: k, es⟩ = .ok ⟨st, k, es ++ ((l.filter (wants e d m)).map e.rt).flatMap (call none m)⟩
  | [], p, es, h, _ => ⟨1, by cases h; simp [run, step]⟩
  | s :: l, p, es, h, hq => by
    obtain ⟨rfl, h⟩ := h
    by_cases hw : wants e d m s = true
    · obtain ⟨n, hn⟩ := quiet_loop (b := b) (d := d) (k := k) l (st.nx s) (es ++ call none m (e.rt s)) h (fun x hx => hq x (by simp [hx]))
      refine ⟨1 + (1 + (1 + n)), run_add 1 _ (r1 := ⟨st, .recv (e.rt s) none m :: .next b s d m :: k, es⟩) ?_
        (run_add 1 _ (r1 := ⟨st, .next b s d m :: k, es ++ call none m (e.rt s)⟩) (quiet_recv (hq s (by simp)))
          (run_add 1 _ (r1 := ⟨st, .loop b (st.nx s) d m :: k, es ++ call none m (e.rt s)⟩) (by simp [run, step, getNext]) ?_))⟩
      · simp only [wants, Bool.and_eq_true, Bool.or_eq_true, decide_eq_true_eq] at hw
        simp [run, step, hw.1, hw.2]
      · rw [hn, List.filter_cons_of_pos hw]; simp
    · obtain ⟨n, hn⟩ := quiet_loop (b := b) (d := d) (k := k) l (st.nx s) es h (fun x hx => hq x (by simp [hx]))
      refine ⟨1 + (1 + n), run_add 1 _ (r1 := ⟨st, .next b s d m :: k, es⟩) ?_
          (run_add 1 _ (r1 := ⟨st, .loop b (st.nx s) d m :: k, es⟩) (by simp [run, step, getNext]) ?_)⟩
      · simp only [wants, Bool.and_eq_true, Bool.or_eq_true, decide_eq_true_eq] at hw
        by_cases h1 : m ∈ e.ids s
        · have h2 : ¬ (d = ALL ∨ d = e.rid (e.rt s)) := fun h2 => hw ⟨h1, h2⟩
          simp [run, step, h1, h2]
        · simp [run, step, h1]
      · rw [hn, List.filter_cons_of_neg hw]

/-- **C67**: after any such program, with handlers that leave the brokers alone, a message given to a broker reaches exactly the routers whose subscription
lists the message's id and whose id is the destination (or all of them for `receive(msg)` and for destination 253), each once and in the order of the
subscriptions, and then the successor; nothing else changes. -/
theorem C67_each_subscriber_once (e : Env) (prog : List Op) (n : Nat) (r : SpecRun) (h : specRun e n (specStart prog) = some r) (b : Nat) (od : Option Nat) (m : Nat)
    (hq : ∀ s ∈ r.sp b, Quiet e none m (e.rt s)) (hsucc : ∀ t, e.succ b = some t → Quiet e (some (od.getD ALL)) m t) :
    ∃ st, run e n (start prog) = .ok ⟨st, r.todo, r.evs⟩ ∧
      ∃ n', run e n' ⟨st, [.op (.send (.broker b) od m)], []⟩ =
        .ok ⟨st, [], (((r.sp b).filter (fun s => decide (m ∈ e.ids s) && (decide (od.getD ALL = ALL) || decide (od.getD ALL = e.rid (e.rt s))))).map e.rt).flatMap (call none m) ++
          (match e.succ b with | some t => call (some (od.getD ALL)) m t | none => [])⟩ := by
  obtain ⟨st, h1, h2⟩ := run_spec n (rel_init e) h
  refine ⟨st, h1, ?_⟩
  generalize hd : od.getD ALL = d at *
  have hsuc : ∀ es, ∃ n', run e n' ⟨st, [.succ b d m], es⟩ = .ok ⟨st, [], es ++ (match e.succ b with | some t => call (some d) m t | none => [])⟩ := by
    intro es
    cases hs : e.succ b with
    | none => exact ⟨1, by simp [run, step, hs]⟩
    | some t => exact ⟨1 + 1, run_add 1 1 (r1 := ⟨st, [.recv t (some d) m], es⟩) (by simp [run, step, hs]) (quiet_recv (hsucc t hs))⟩
  have hrecv : ∃ n', run e n' ⟨st, [.recv (.broker b) (some d) m], []⟩ = .ok ⟨st, [], (((r.sp b).filter (wants e d m)).map e.rt).flatMap (call none m) ++
          (match e.succ b with | some t => call (some d) m t | none => [])⟩ := by
    have he := empty_spec h2 b
    by_cases hc : r.sp b = []
    · obtain ⟨n', hn'⟩ := hsuc []
      refine ⟨1 + n', run_add 1 n' (r1 := ⟨st, [.succ b d m], []⟩) (by simp [run, step, he, hc]) ?_⟩
      rw [hn', hc]; rfl
    · obtain ⟨n1, hn1⟩ := quiet_loop (b := b) (d := d) (k := [.succ b d m]) (r.sp b) (st.hd b) [] (h2.seg b) hq
      obtain ⟨n2, hn2⟩ := hsuc ([] ++ (((r.sp b).filter (wants e d m)).map e.rt).flatMap (call none m))
      refine ⟨1 + (n1 + n2), run_add 1 _ (r1 := ⟨st, [.loop b (st.hd b) d m, .succ b d m], []⟩) (by simp [run, step, he, hc, getNext]) (run_add n1 n2 hn1 ?_)⟩
      rw [hn2]; simp
  obtain ⟨n', hn'⟩ := hrecv
  cases od with
  | some d' =>
    simp only [Option.getD_some] at hd; subst hd
    exact ⟨1 + n', run_add 1 n' (r1 := ⟨st, [.recv (.broker b) (some d') m], []⟩) (by simp [run, step]) hn'⟩
  | none =>
    simp only [Option.getD_none] at hd; subst hd
    exact ⟨1 + (1 + n'), run_add 1 _ (r1 := ⟨st, [.recv (.broker b) none m], []⟩) (by simp [run, step])
      (run_add 1 n' (r1 := ⟨st, [.recv (.broker b) (some ALL) m], []⟩) (by simp [run, step]) hn')⟩

/-! ## A case that meets the hypotheses -/

/-- Three subscriptions of routers 0, 1, 2 and a second one (3) of router 1; two brokers, the second the successor of the first.  Router 1 unsubscribes router 2
and subscribes it at the second broker when it gets message 7. -/
def exEnv : Env where
  N := 4
  B := 2
  rt := fun s => if s = 3 then .user 1 else .user s
  ids := fun s => if s = 3 then [8] else [7, 9]
  rid := fun t => match t with | .user r => r | .broker b => 100 + b
  succ := fun b => if b = 0 then some (.broker 1) else none
  script := fun r _ m => if r = 1 ∧ m = 7 then [.unsubscribe 0 (.user 2), .subscribe 1 2] else []
  acc := fun _ _ => true

def exProg : List Op :=
  [.subscribe 0 0, .subscribe 0 1, .subscribe 0 2, .send (.broker 0) (some 2) 9, .send (.broker 0) none 7, .subscribe 0 3, .send (.broker 0) none 8]

def exShow (r : Option SpecRun) : Option (List Nat × List Nat × List Task × List Ev) := r.map (fun r => (r.sp 0, r.sp 1, r.todo, r.evs))

/-- Router 2 gets the message 9 addressed to it; message 7 goes to 0 and 1, and, since router 1 moved it, to 2 through the second broker; message 8 only to 1. -/
example : exShow (specRun exEnv 60 (specStart exProg)) =
    some ([0, 3], [2], [], [.got 2 none 9, .got 0 none 7, .got 1 none 7, .got 2 none 7, .got 1 none 8]) := by decide +kernel

/-! ## Findings -/

/-- Finding: a handler that unsubscribes its own router while it handles a message cuts the delivery short: the subscribers after it do not get the message,
because `unsubscribe` sets the next pointer the loop is about to follow to null. -/
def selfEnv : Env := { exEnv with script := fun r _ m => if r = 0 ∧ m = 7 then [.unsubscribe 0 (.user 0)] else [], succ := fun _ => none }
def codeEvs (r : Res Run) : List Ev := match r with | .ok r => r.evs | .error _ => []

theorem self_unsubscribe_cuts_delivery :
    codeEvs (run selfEnv 60 (start [.subscribe 0 0, .subscribe 0 1, .subscribe 0 2, .send (.broker 0) none 7])) = [.got 0 none 7] ∧
    codeEvs (run selfEnv 60 (start [.subscribe 0 0, .subscribe 0 1, .subscribe 0 2, .send (.broker 0) none 9])) = [.got 0 none 9, .got 1 none 9, .got 2 none 9] := by
  decide +kernel

/-- Finding: replacing one's own subscription from the handler has the same effect. -/
def replEnv : Env := { exEnv with rt := fun s => if s = 3 then .user 0 else .user s, script := fun r _ m => if r = 0 ∧ m = 7 then [.subscribe 0 3] else [], succ := fun _ => none }
theorem self_replace_cuts_delivery :
    codeEvs (run replEnv 60 (start [.subscribe 0 0, .subscribe 0 1, .subscribe 0 2, .send (.broker 0) none 7])) = [.got 0 none 7] := by
  decide +kernel

/-- Finding: `clear()` from a handler does not stop the delivery under way, since only the head is reset. -/
def clrEnv : Env := { exEnv with script := fun r _ m => if r = 0 ∧ m = 7 then [.clear 0] else [], succ := fun _ => none }
theorem clear_does_not_stop_delivery :
    codeEvs (run clrEnv 60 (start [.subscribe 0 0, .subscribe 0 1, .subscribe 0 2, .send (.broker 0) none 7])) = [.got 0 none 7, .got 1 none 7, .got 2 none 7] := by
  decide +kernel

end Etl.Broker
