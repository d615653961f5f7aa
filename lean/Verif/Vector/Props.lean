import Verif.Vector.Model
import Mathlib.Tactic.SplitIfs

/-!
# Properties of the vector (C09, C10)
-/
namespace Etl.Vector

variable {α : Type}

/-! ## Specification: a list of at most `cap` elements -/

/-- Effect of an operation on the contents, and the error it reports (contents unchanged then). -/
def specStep (cap : Nat) (l : List α) : Op α → List α × Option Err
  | .resize k v => if k ≤ cap then (l.take k ++ List.replicate (k - l.length) v, none) else (l, some .full)
  | .assignRange vs => if vs.length ≤ cap then (vs, none) else (l, some .full)
  | .assignN k v => if k ≤ cap then (List.replicate k v, none) else (l, some .full)
  | .clear => ([], none)
  | .fill v => (List.replicate l.length v, none)
  | .pushBack v => if l.length < cap then (l ++ [v], none) else (l, some .full)
  | .popBack => if l = [] then (l, some .empty) else (l.dropLast, none)
  | .insert p v => if l.length < cap then (l.take p ++ v :: l.drop p, none) else (l, some .full)
  | .insertMove p v => if l.length < cap then (l.take p ++ v :: l.drop p, none) else (l, some .full)
  | .emplace p v => if l.length < cap then (l.take p ++ v :: l.drop p, none) else (l, some .full)
  | .insertN p k v => if l.length + k ≤ cap then (l.take p ++ List.replicate k v ++ l.drop p, none) else (l, some .full)
  | .insertRange p vs => if l.length + vs.length ≤ cap then (l.take p ++ vs ++ l.drop p, none) else (l, some .full)
  | .erase p => (l.eraseIdx p, none)
  | .eraseRange a b => (l.take a ++ l.drop b, none)

/-- Documented preconditions of the calls: iterators are valid; where a check is compiled out the caller must respect the capacity;
inserting or erasing an *empty* range moves the tail onto itself, so `T` must tolerate self-move. -/
def Legal (cap : Nat) (sms check debug : Bool) (l : List α) : Op α → Prop
  | .resize _ _ | .assignN _ _ | .clear | .fill _ => True
  | .assignRange vs => debug = true ∨ vs.length ≤ cap
  | .pushBack _ => check = true ∨ l.length < cap
  | .popBack => check = true ∨ l ≠ []
  | .insert p _ | .insertMove p _ | .emplace p _ => p ≤ l.length
  | .insertN p k _ => p ≤ l.length ∧ (k ≠ 0 ∨ sms = true ∨ p = l.length)
  | .insertRange p vs => p ≤ l.length ∧ (vs ≠ [] ∨ sms = true ∨ p = l.length)
  | .erase p => p < l.length
  | .eraseRange a b => a ≤ b ∧ b ≤ l.length ∧ (a ≠ b ∨ sms = true ∨ b = l.length)

def specRun (cap : Nat) (l : List α) : List (Op α) → List α × List (Option Err)
  | [] => (l, [])
  | o :: os =>
    let (l', e) := specStep cap l o
    let (l'', es) := specRun cap l' os
    (l'', e :: es)

/-- All calls of the history respect their preconditions. -/
def LegalRun (cap : Nat) (sms check debug : Bool) (l : List α) : List (Op α) → Prop
  | [] => True
  | o :: os => Legal cap sms check debug l o ∧ LegalRun cap sms check debug (specStep cap l o).1 os

/-! ## Refinement -/

structure Good (cap : Nat) (sms check debug : Bool) (s : St α) (l : List α) : Prop where
  cap : s.mem.cap = cap
  sms : s.mem.sms = sms
  chk : s.check = check
  dbg : s.debug = debug
  n : s.n = l.length
  mem : s.mem.Holds l

open Mem

section Steps
variable {cap : Nat} {sms check debug : Bool} {s : St α} {l : List α}

theorem good_init (cap : Nat) (sms check debug : Bool) : Good cap sms check debug (init (α := α) cap sms check debug) [] :=
  ⟨rfl, rfl, rfl, rfl, rfl, by simp, fun j => by simp [init, fresh, cellOf]⟩

theorem initialise_ok (h : Good cap sms check debug s l) : ∃ s', initialise s = .ok s' ∧ Good cap sms check debug s' [] := by
  obtain ⟨m, e, hs, hm⟩ := destroyN_ok s.n s.mem 0 (by have := h.mem.1; have := h.n; omega)
    (fun j _ h2 => h.mem.notraw (by have := h.n; omega))
  refine ⟨{ s with mem := m, n := 0 }, by simp [initialise, e, bind, Except.bind], ⟨hs.1.trans h.cap, hs.2.trans h.sms, h.chk, h.dbg, rfl, by simp, fun j => ?_⟩⟩
  rw [hm, h.mem.2]
  have := h.n
  split_ifs with h1
  · simp [cellOf]
  · rw [cellOf_ge (by omega)]; simp [cellOf]

theorem createBack_ok (h : Good cap sms check debug s l) (hc : l.length < cap) (v : α) :
    ∃ s', createBack s v = .ok s' ∧ Good cap sms check debug s' (l ++ [v]) := by
  have hn := h.n; have hcap := h.cap
  refine ⟨{ s with mem := s.mem.set s.n (.live v), n := s.n + 1 }, by simp only [createBack, bind, Except.bind, construct_ok v (show s.n < s.mem.cap by omega) (h.mem.israw (by omega))], h.cap, h.sms, h.chk, h.dbg, by simp [hn], ?_, fun j => ?_⟩
  · simp; omega
  · rw [set_cell, h.mem.2, cellOf_snoc, hn]

theorem destroyBack_ok (h : Good cap sms check debug s l) (hc : l ≠ []) :
    ∃ s', destroyBack s = .ok s' ∧ Good cap sms check debug s' l.dropLast := by
  have hn := h.n; have hcap := h.mem.1
  have hpos : 0 < l.length := List.length_pos_iff.2 hc
  refine ⟨{ s with mem := s.mem.set (s.n - 1) .raw, n := s.n - 1 }, by simp only [destroyBack, bind, Except.bind, if_neg (show ¬ s.n = 0 by omega), destroy_ok (show s.n - 1 < s.mem.cap by omega) (h.mem.notraw (by omega))], h.cap, h.sms, h.chk, h.dbg, by simp [hn], ?_, fun j => ?_⟩
  · simp; omega
  · rw [set_cell, h.mem.2, cellOf_dropLast, hn]

/-- After opening a gap at `p` the cells are those of the list with a hole (a live object of some value or moved-from) at `p`. -/
theorem openGap_ok (h : Good cap sms check debug s l) (hc : l.length < cap) (p : Nat) (hp : p < l.length) :
    ∃ s', openGap s p = .ok s' ∧ s'.mem.cap = cap ∧ s'.mem.sms = sms ∧ s'.check = check ∧ s'.debug = debug ∧ s'.n = l.length + 1 ∧ s'.mem.cell p ≠ .raw ∧
      ∀ j, j ≠ p → s'.mem.cell j = if j < p then cellOf l j else cellOf l (j - 1) := by
  have hn := h.n
  have hr : s.mem.read (s.n - 1) = .ok l[l.length - 1] := read_ok (by rw [h.cap]; omega) (by rw [h.mem.2, hn, cellOf_lt])
  obtain ⟨s1, e1, g1⟩ := createBack_ok h hc (l[l.length - 1])
  have hn1 := g1.n
  simp only [List.length_append, List.length_singleton] at hn1
  have hc1 : ∀ j, s1.mem.cell j = if j = l.length then .live l[l.length - 1] else cellOf l j := fun j => by rw [g1.mem.2, cellOf_snoc]
  obtain ⟨m, e, hs, hm⟩ := moveDown_ok (s1.n - 2 - p) s1.mem (s1.n - 2) (s1.n - 1) (by omega) (by omega) (by rw [g1.cap]; omega)
    (fun j h1 h2 => ⟨l[j]'(by omega), by rw [hc1, if_neg (by omega), cellOf_lt]⟩)
    (fun j h1 h2 => by rw [hc1, if_neg (by omega), cellOf_lt (by omega)]; simp)
  refine ⟨{ s1 with mem := m }, by simp [openGap, hr, e1, e, bind, Except.bind], hs.1.trans g1.cap, hs.2.trans g1.sms, g1.chk, g1.dbg, hn1, ?_, ?_⟩
  · simp only [hm, hc1, hn1]
    split_ifs <;> simp <;> (try omega) <;> (rw [cellOf_lt (by omega)]; simp)
  · intro j hj
    simp only [hm, hc1, hn1]
    split_ifs
    all_goals first
      | rfl
      | (exfalso; omega)
      | (congr 1; omega)
      | (rw [← cellOf_lt]; congr 1; omega)
      | (rw [cellOf_ge (by omega), cellOf_ge (by omega)])

theorem openGapMove_ok (h : Good cap sms check debug s l) (hc : l.length < cap) (p : Nat) (hp : p < l.length) :
    ∃ s', openGapMove s p = .ok s' ∧ s'.mem.cap = cap ∧ s'.mem.sms = sms ∧ s'.check = check ∧ s'.debug = debug ∧ s'.n = l.length + 1 ∧ s'.mem.cell p ≠ .raw ∧
      ∀ j, j ≠ p → s'.mem.cell j = if j < p then cellOf l j else cellOf l (j - 1) := by
  have hn := h.n; have hcap := h.cap
  have hr : s.mem.read (s.n - 1) = .ok l[l.length - 1] := read_ok (by rw [h.cap]; omega) (by rw [h.mem.2, hn, cellOf_lt])
  have hk := construct_ok (m := s.mem.set (s.n - 1) .moved) (i := s.n) (l[l.length - 1]) (by simp; omega)
    (by rw [set_cell, if_neg (by omega)]; exact h.mem.israw (by omega))
  let m1 : Mem α := (s.mem.set (s.n - 1) .moved).set s.n (.live l[l.length - 1])
  have hc1 : ∀ j, m1.cell j = if j = l.length then .live l[l.length - 1] else if j = l.length - 1 then .moved else cellOf l j := by
    intro j; simp only [m1, set_cell, hn, h.mem.2]
  obtain ⟨m, e, hs, hm⟩ := moveDown_ok (s.n + 1 - 2 - p) m1 (s.n + 1 - 2) (s.n + 1 - 1) (by omega) (by omega) (by simp [m1]; omega)
    (fun j h1 h2 => ⟨l[j]'(by omega), by rw [hc1, if_neg (by omega), if_neg (by omega), cellOf_lt]⟩)
    (fun j h1 h2 => by rw [hc1, if_neg (by omega), if_pos (by omega)]; simp)
  refine ⟨{ s with mem := m, n := s.n + 1 }, ?_, hs.1.trans h.cap, hs.2.trans h.sms, h.chk, h.dbg, by simp [hn], ?_, ?_⟩
  · simp [openGapMove, take, hr, createBack, hk, bind, Except.bind]
    simp only [Nat.add_sub_cancel] at e
    have e' : s.n + 1 - 2 = s.n - 1 := by omega
    rw [e'] at e
    simp [m1] at e
    simp [e]
  · simp only [hm, hc1, hn]
    split_ifs <;> simp <;> (try omega) <;> (rw [cellOf_lt (by omega)]; simp)
  · intro j hj
    simp only [hm, hc1, hn]
    split_ifs
    all_goals first
      | rfl
      | (exfalso; omega)
      | (congr 1; omega)
      | (rw [← cellOf_lt]; congr 1; omega)
      | (rw [cellOf_ge (by omega), cellOf_ge (by omega)])

theorem ins_end (l : List α) (v : α) : l.take l.length ++ v :: l.drop l.length = l ++ [v] := by simp

theorem insert_ok (h : Good cap sms check debug s l) (p : Nat) (v : α) (hp : p ≤ l.length) :
    ∃ s', insert s p v = .ok (s', (specStep cap l (.insert p v)).2) ∧ Good cap sms check debug s' (specStep cap l (.insert p v)).1 := by
  have hn := h.n; have hcap := h.cap
  simp only [insert, specStep]
  by_cases hc : l.length < cap
  · simp only [hc, if_true]
    rw [if_neg (by simp; omega)]
    by_cases he : p = l.length
    · obtain ⟨s', e', g'⟩ := createBack_ok h hc v
      exact ⟨s', by rw [if_pos (by omega)]; simp [e', bind, Except.bind], by rw [he, ins_end]; exact g'⟩
    · obtain ⟨s1, e1, c1, c2, c3, c4, c5, c6, c7⟩ := openGap_ok h hc p (by omega)
      have ha := assign_ok v (show p < s1.mem.cap by omega) c6
      refine ⟨{ s1 with mem := s1.mem.set p (.live v) }, ?_, ?_⟩
      · rw [if_neg (by omega)]; simp [e1, ha, bind, Except.bind]
      · refine ⟨c1, c2, c3, c4, by simp [c5]; omega, by simp; omega, fun j => ?_⟩
        rw [set_cell, cellOf_ins1 _ _ _ hp]
        by_cases hj : j = p
        · simp [hj]
        · rw [if_neg hj, c7 j hj, if_neg hj]
  · have hle := h.mem.1
    refine ⟨s, ?_, by simp only [hc, if_false]; exact h⟩
    rw [if_pos (by simp; omega)]; simp [hc]

theorem insertMove_ok (h : Good cap sms check debug s l) (p : Nat) (v : α) (hp : p ≤ l.length) :
    ∃ s', insertMove s p v = .ok (s', (specStep cap l (.insert p v)).2) ∧ Good cap sms check debug s' (specStep cap l (.insert p v)).1 := by
  have hn := h.n; have hcap := h.cap
  simp only [insertMove, specStep]
  by_cases hc : l.length < cap
  · simp only [hc, if_true]
    rw [if_neg (by simp; omega)]
    by_cases he : p = l.length
    · obtain ⟨s', e', g'⟩ := createBack_ok h hc v
      exact ⟨s', by rw [if_pos (by omega)]; simp [e', bind, Except.bind], by rw [he, ins_end]; exact g'⟩
    · obtain ⟨s1, e1, c1, c2, c3, c4, c5, c6, c7⟩ := openGapMove_ok h hc p (by omega)
      have ha := assign_ok v (show p < s1.mem.cap by omega) c6
      refine ⟨{ s1 with mem := s1.mem.set p (.live v) }, ?_, ?_⟩
      · rw [if_neg (by omega)]; simp [e1, ha, bind, Except.bind]
      · refine ⟨c1, c2, c3, c4, by simp [c5]; omega, by simp; omega, fun j => ?_⟩
        rw [set_cell, cellOf_ins1 _ _ _ hp]
        by_cases hj : j = p
        · simp [hj]
        · rw [if_neg hj, c7 j hj, if_neg hj]
  · have hle := h.mem.1
    refine ⟨s, ?_, by simp only [hc, if_false]; exact h⟩
    rw [if_pos (by simp; omega)]; simp [hc]

theorem emplace_ok (h : Good cap sms check debug s l) (p : Nat) (v : α) (hp : p ≤ l.length) :
    ∃ s', emplace s p v = .ok (s', (specStep cap l (.insert p v)).2) ∧ Good cap sms check debug s' (specStep cap l (.insert p v)).1 := by
  have hn := h.n; have hcap := h.cap
  simp only [emplace, specStep]
  by_cases hc : l.length < cap
  · simp only [hc, if_true]
    rw [if_neg (show ¬ (full s = true) by simp [full]; omega)]
    by_cases he : p = l.length
    · obtain ⟨s', e', g'⟩ := createBack_ok h hc v
      refine ⟨s', ?_, by rw [he, ins_end]; exact g'⟩
      rw [if_pos (by omega)]
      simp only [createBack, bind, Except.bind] at e' ⊢
      cases hk : s.mem.construct s.n v with
      | ok m => rw [hk] at e'; simp at e'; simp [e']
      | error u => rw [hk] at e'; simp at e'
    · obtain ⟨s1, e1, c1, c2, c3, c4, c5, c6, c7⟩ := openGap_ok h hc p (by omega)
      have hd := destroy_ok (show p < s1.mem.cap by omega) c6
      have ha := construct_ok (m := s1.mem.set p .raw) (i := p) v (show p < (s1.mem.set p .raw).cap by simp; omega) (by rw [set_cell, if_pos rfl])
      refine ⟨{ s1 with mem := (s1.mem.set p .raw).set p (.live v) }, ?_, ?_⟩
      · rw [if_neg (by omega)]; simp [e1, hd, ha, bind, Except.bind]
      · refine ⟨c1, c2, c3, c4, by simp [c5]; omega, by simp; omega, fun j => ?_⟩
        rw [set_cell, set_cell, cellOf_ins1 _ _ _ hp]
        by_cases hj : j = p
        · simp [hj]
        · rw [if_neg hj, if_neg hj, c7 j hj, if_neg hj]
  · have hle := h.mem.1
    refine ⟨s, ?_, by simp only [hc, if_false]; exact h⟩
    rw [if_pos (show full s = true by simp [full]; omega)]; simp [hc]

/-- Making room for `k` elements at `p`: the first two steps of the range inserts. -/
theorem room_ok (h : Good cap sms check debug s l) (p k : Nat) (hp : p ≤ l.length) (hk : l.length + k ≤ cap)
    (hs : k ≠ 0 ∨ sms = true ∨ p = l.length) (co : Nat) (hco : co = if p + k > s.n then 0 else s.n - p - k)
    (kn : Nat) (hkn : kn = if p + k > s.n then s.n - p else k) (po : Nat) (hpo : po = if p + k > s.n then p + k else s.n) :
    ∃ m1 m2, s.mem.moveNew (s.n - kn) kn po = .ok m1 ∧ m1.moveDown co (p + co) (p + k + co) = .ok m2 ∧ m2.cap = cap ∧ m2.sms = sms ∧
      kn ≤ k ∧ p + kn ≤ l.length ∧ l.length - kn + k ≤ cap ∧
      (∀ j, p ≤ j → j < p + kn → m2.cell j ≠ .raw) ∧ (∀ j, s.n ≤ j → j < s.n + (k - kn) → m2.cell j = .raw) ∧
      p + k = max (p + k) (s.n) - (max (p + k) s.n - (p + k)) ∧ p + kn + (k - kn) = p + k ∧ (kn < k → p + kn = s.n) ∧
      ∀ j, ¬ (p ≤ j ∧ j < p + k) → m2.cell j = if j < p then cellOf l j else cellOf l (j - k) := by
  have hn := h.n; have hcap := h.cap
  by_cases hc : p + k > s.n
  · rw [if_pos hc] at hco hkn hpo
    subst hco hkn hpo
    obtain ⟨m1, e1, s1, c1⟩ := moveNew_ok (s.n - p) s.mem (s.n - (s.n - p)) (p + k) (by omega) (by omega)
      (fun j h1 h2 => h.mem.live (by omega)) (fun j h1 h2 => h.mem.israw (by omega))
    refine ⟨m1, m1, e1, rfl, s1.1.trans hcap, s1.2.trans h.sms, by omega, by omega, by omega, ?_, ?_, by omega, by omega, by omega, ?_⟩
    · intro j h1 h2
      rw [c1, if_neg (by omega), if_pos (by omega)]; simp
    · intro j h1 h2
      rw [c1, if_neg (by omega), if_neg (by omega)]; exact h.mem.israw (by omega)
    · intro j hj
      simp only [c1, h.mem.2]
      split_ifs <;> (try omega) <;> (try rfl)
      · congr 1; omega
      · rw [cellOf_ge (by omega), cellOf_ge (by omega)]
  · rw [if_neg hc] at hco hkn hpo
    have hkn := hkn.symm
    subst hco hkn hpo
    obtain ⟨m1, e1, s1, c1⟩ := moveNew_ok k s.mem (s.n - k) s.n (by omega) (by omega)
      (fun j h1 h2 => h.mem.live (by omega)) (fun j h1 h2 => h.mem.israw (by omega))
    by_cases hk0 : k = 0
    · subst hk0
      have hm2 : ∃ m2, m1.moveDown (s.n - p - 0) (p + (s.n - p - 0)) (p + 0 + (s.n - p - 0)) = .ok m2 ∧ Same m1 m2 ∧ ∀ j, m2.cell j = m1.cell j := by
        rcases hs with hs | hs | hs
        · exact absurd rfl hs
        · obtain ⟨m2, e2, s2, c2⟩ := moveDown_self (s.n - p - 0) m1 (p + (s.n - p - 0)) (by rw [s1.2, h.sms, hs]) (by omega) (by rw [s1.1]; omega)
            (fun j h1 h2 => by rw [c1, if_neg (by omega), if_neg (by omega)]; exact h.mem.live (by omega))
          exact ⟨m2, by simpa using e2, s2, c2⟩
        · have e0 : s.n - p - 0 = 0 := by omega
          rw [e0]; exact ⟨m1, rfl, .rfl, fun _ => rfl⟩
      obtain ⟨m2, e2, s2, c2⟩ := hm2
      have hall : ∀ j, m2.cell j = cellOf l j := fun j => by rw [c2, c1, if_neg (by omega), if_neg (by omega), h.mem.2]
      refine ⟨m1, m2, e1, e2, (s2.1.trans s1.1).trans hcap, (s2.2.trans s1.2).trans h.sms, by omega, by omega, by omega, by omega, by omega, by omega, by omega, by omega, ?_⟩
      intro j hj
      rw [hall]; split_ifs <;> rfl
    · obtain ⟨m2, e2, s2, c2⟩ := moveDown_ok (s.n - p - k) m1 (p + (s.n - p - k)) (p + k + (s.n - p - k)) (by omega) (by omega) (by rw [s1.1]; omega)
        (fun j h1 h2 => by rw [c1, if_neg (by omega), if_neg (by omega)]; exact h.mem.live (by omega))
        (fun j h1 h2 => by rw [c1, if_neg (by omega), if_pos (by omega)]; simp)
      refine ⟨m1, m2, e1, e2, (s2.1.trans s1.1).trans hcap, (s2.2.trans s1.2).trans h.sms, by omega, by omega, by omega, ?_, by omega, by omega, by omega, by omega, ?_⟩
      · intro j h1 h2
        simp only [c2, c1, h.mem.2]
        split_ifs <;> simp <;> (try omega) <;> (rw [cellOf_lt (by omega)]; simp)
      · intro j hj
        simp only [c2, c1, h.mem.2]
        split_ifs <;> (try omega) <;> (try rfl)
        all_goals first | (congr 1; omega) | (rw [cellOf_ge (by omega), cellOf_ge (by omega)])

theorem insertN_ok (h : Good cap sms check debug s l) (p k : Nat) (v : α) (hp : p ≤ l.length) (hs : k ≠ 0 ∨ sms = true ∨ p = l.length) :
    ∃ s', insertN s p k v = .ok (s', (specStep cap l (.insertN p k v)).2) ∧ Good cap sms check debug s' (specStep cap l (.insertN p k v)).1 := by
  have hn := h.n; have hcap := h.cap
  simp only [specStep]
  by_cases hc : l.length + k ≤ cap
  · simp only [hc, if_true]
    obtain ⟨m1, m2, e1, e2, cp, sm, b1, b2, b3, b4, b5, -, b6, b7, b8⟩ := room_ok h p k hp hc hs _ rfl _ rfl _ rfl
    unfold insertN
    rw [if_pos (by omega)]
    simp only [bind, Except.bind, e1, e2]
    generalize (if p + k > s.n then s.n - p else k) = kn at *
    obtain ⟨m3, e3, s3, c3⟩ := fillNew_ok v (k - kn) m2 s.n (by omega) b5
    obtain ⟨m4, e4, s4, c4⟩ := fillN_ok v kn m3 p (by rw [s3.1]; omega) (fun j h1 h2 => by
      rw [c3]; split_ifs
      · simp
      · exact b4 j h1 h2)
    simp only [e3, e4]
    refine ⟨_, rfl, (s4.1.trans s3.1).trans cp, (s4.2.trans s3.2).trans sm, h.chk, h.dbg, by simp; omega, by simp [s4.1, s3.1]; omega, fun j => ?_⟩
    rw [cellOf_insN _ _ _ _ hp]
    simp only [c4, c3]
    by_cases hj : p ≤ j ∧ j < p + k
    · rw [if_neg (show ¬ j < p by omega), if_pos hj.2]
      split_ifs <;> (try rfl)
      omega
    · rw [if_neg (by omega), if_neg (by omega), b8 j hj]
      split_ifs <;> (try omega) <;> rfl
  · simp only [hc, if_false]
    exact ⟨s, by simp [insertN, hcap, hn, hc], h⟩

theorem insertRange_ok (h : Good cap sms check debug s l) (p : Nat) (vs : List α) (hp : p ≤ l.length) (hs : vs ≠ [] ∨ sms = true ∨ p = l.length) :
    ∃ s', insertRange s p vs = .ok (s', (specStep cap l (.insertRange p vs)).2) ∧ Good cap sms check debug s' (specStep cap l (.insertRange p vs)).1 := by
  have hn := h.n; have hcap := h.cap
  simp only [specStep]
  by_cases hc : l.length + vs.length ≤ cap
  · simp only [hc, if_true]
    obtain ⟨m1, m2, e1, e2, cp, sm, b1, b2, b3, b4, b5, -, b6, b7, b8⟩ := room_ok h p vs.length hp hc (by simpa using hs) _ rfl _ rfl _ rfl
    unfold insertRange
    rw [if_pos (by omega)]
    simp only [bind, Except.bind, e1, e2]
    generalize (if p + vs.length > s.n then s.n - p else vs.length) = kn at *
    obtain ⟨m3, e3, s3, c3⟩ := copyNew_ok (vs.drop kn) m2 s.n (by simp; omega) (by simpa using b5)
    obtain ⟨m4, e4, s4, c4⟩ := copyTo_ok (vs.take kn) m3 p (by rw [s3.1]; simp; omega) (fun j h1 h2 => by
      simp only [List.length_take] at h2
      rw [c3]; split
      · simp
      · exact b4 j h1 (by omega))
    simp only [e3, e4]
    refine ⟨_, rfl, (s4.1.trans s3.1).trans cp, (s4.2.trans s3.2).trans sm, h.chk, h.dbg, by simp; omega, by simp [s4.1, s3.1]; omega, fun j => ?_⟩
    rw [cellOf_ins _ _ _ hp]
    simp only [c4, c3]
    by_cases hj : p ≤ j ∧ j < p + vs.length
    · rw [if_neg (show ¬ j < p by omega), if_pos hj.2, if_pos hj.1]
      have hv : vs[j - p]? = some (vs[j - p]'(by omega)) := List.getElem?_eq_getElem (by omega)
      by_cases hjk : j < p + kn
      · rw [List.getElem?_take_of_lt (by omega)]; simp [hv]
      · rw [List.getElem?_eq_none (by simp; omega)]
        have hb := b7 (by omega)
        rw [if_pos (by omega), List.getElem?_drop]
        have : kn + (j - s.n) = j - p := by omega
        rw [this, hv]
    · have n1 : (if p ≤ j then (vs.take kn)[j - p]? else none) = none := by
        split_ifs
        · rw [List.getElem?_eq_none]; simp; omega
        · rfl
      have n2 : (if s.n ≤ j then (vs.drop kn)[j - s.n]? else none) = none := by
        split_ifs
        · rw [List.getElem?_eq_none]; simp; omega
        · rfl
      rw [n1, n2]
      simp only
      rw [b8 j hj]
      split_ifs <;> (try omega) <;> rfl
  · simp only [hc, if_false]
    exact ⟨s, by simp [insertRange, hcap, hn, hc], h⟩

theorem eraseCore_ok (h : Good cap sms check debug s l) (a b : Nat) (hab : a ≤ b) (hb : b ≤ l.length) (hs : a ≠ b ∨ sms = true ∨ b = l.length) :
    ∃ m, s.mem.moveUp b (s.n - b) a = .ok m ∧ Same s.mem m ∧
      ∀ j, m.cell j = if j < l.length - (b - a) then (if j < a then cellOf l j else cellOf l (j + (b - a))) else if j < l.length then m.cell j else .raw := by
  have hn := h.n; have hcap := h.mem.1
  rcases Nat.lt_or_ge a b with hlt | hge
  · obtain ⟨m, e, s1, c1⟩ := moveUp_ok (s.n - b) s.mem b a hlt (by omega) (fun j h1 h2 => h.mem.live (by omega)) (fun j h1 h2 => h.mem.notraw (by omega))
    refine ⟨m, e, s1, fun j => ?_⟩
    by_cases hj : j < l.length - (b - a)
    · rw [if_pos hj]; simp only [c1, h.mem.2]
      split_ifs <;> (try omega) <;> (try rfl)
      congr 1; omega
    · rw [if_neg hj]
      by_cases hj2 : j < l.length
      · rw [if_pos hj2]
      · rw [if_neg hj2, c1, if_neg (by omega), if_neg (by omega), h.mem.israw (by omega)]
  · have : a = b := by omega
    subst this
    rcases hs with hs | hs | hs
    · exact absurd rfl hs
    · obtain ⟨m, e, s1, c1⟩ := moveUp_self (s.n - a) s.mem a (by rw [h.sms, hs]) (by omega) (fun j h1 h2 => h.mem.live (by omega))
      refine ⟨m, e, s1, fun j => ?_⟩
      rw [c1, h.mem.2]; simp
      intro hj; rw [cellOf_ge hj]
    · have : s.n - a = 0 := by omega
      rw [this]
      refine ⟨s.mem, rfl, .rfl, fun j => ?_⟩
      rw [h.mem.2]; simp
      intro hj; rw [cellOf_ge hj]

theorem moveUp_notraw (n : Nat) : ∀ (m m' : Mem α) (src dst : Nat), m.moveUp src n dst = .ok m' → ∀ j, m.cell j ≠ .raw → m'.cell j ≠ .raw := by
  induction n with
  | zero => intro m m' src dst e j hj; simp [moveUp] at e; subst e; exact hj
  | succ n ih =>
    intro m m' src dst e j hj
    simp only [moveUp, bind, Except.bind] at e
    cases hk : m.moveAssign src dst with
    | error u => rw [hk] at e; simp at e
    | ok m1 =>
      rw [hk] at e
      refine ih m1 m' _ _ e j ?_
      unfold Mem.moveAssign at hk
      split at hk
      · simp only [bind, Except.bind] at hk
        split at hk
        · simp at hk
        · simp only [Except.ok.injEq] at hk; subst hk; rw [set_cell]; split_ifs <;> simp_all
      · simp only [bind, Except.bind, take] at hk
        split at hk
        · simp at hk
        · rename_i hne v hv
          split at hv
          · simp at hv
          · simp only [Except.ok.injEq] at hv; subst hv
            simp only [assign] at hk
            split at hk
            · split at hk
              · simp at hk
              · simp only [Except.ok.injEq] at hk; subst hk; rw [set_cell, set_cell]; split_ifs <;> simp_all
            · simp at hk

theorem eraseRange_ok (h : Good cap sms check debug s l) (a b : Nat) (hab : a ≤ b) (hb : b ≤ l.length) (hs : a ≠ b ∨ sms = true ∨ b = l.length) :
    ∃ s', eraseRange s a b = .ok (s', none) ∧ Good cap sms check debug s' (l.take a ++ l.drop b) := by
  have hn := h.n; have hcap := h.mem.1
  unfold eraseRange
  split
  · rename_i hc
    obtain ⟨s', e, g⟩ := initialise_ok h
    refine ⟨s', by simp [clear, e, bind, Except.bind], ?_⟩
    have : l.take a ++ l.drop b = [] := by rw [hc.1, hc.2, hn]; simp
    rw [this]; exact g
  · obtain ⟨m, e, s1, c1⟩ := eraseCore_ok h a b hab hb hs
    obtain ⟨m2, e2, s2, c2⟩ := destroyN_ok (b - a) m (s.n - (b - a)) (by rw [s1.1]; omega)
      (fun j h1 h2 => moveUp_notraw _ _ _ _ _ e j (h.mem.notraw (by omega)))
    refine ⟨{ s with mem := m2, n := s.n - (b - a) }, by simp [e, e2, bind, Except.bind], (s2.1.trans s1.1).trans h.cap, (s2.2.trans s1.2).trans h.sms, h.chk, h.dbg,
      by simp; omega, by simp [s2.1, s1.1]; omega, fun j => ?_⟩
    rw [cellOf_cut _ _ _ hab hb]
    simp only [c2]
    by_cases hj : j < l.length - (b - a)
    · rw [if_neg (by omega), c1, if_pos hj]
    · by_cases hj2 : j < l.length
      · rw [if_pos (by omega), if_neg (by omega), cellOf_ge (by omega)]
      · rw [if_neg (by omega), c1, if_neg hj, if_neg hj2, if_neg (by omega), cellOf_ge (by omega)]

theorem erase_ok (h : Good cap sms check debug s l) (p : Nat) (hp : p < l.length) :
    ∃ s', erase s p = .ok (s', none) ∧ Good cap sms check debug s' (l.eraseIdx p) := by
  have hn := h.n; have hcap := h.mem.1
  obtain ⟨m, e, s1, c1⟩ := eraseCore_ok h p (p+1) (by omega) (by omega) (.inl (by omega))
  have hd := destroy_ok (m := m) (i := s.n - 1) (by rw [s1.1]; omega) (moveUp_notraw _ _ _ _ _ e _ (h.mem.notraw (by omega)))
  refine ⟨{ s with mem := m.set (s.n - 1) .raw, n := s.n - 1 }, ?_, s1.1.trans h.cap, s1.2.trans h.sms, h.chk, h.dbg, ?_, ?_, fun j => ?_⟩
  · simp only [erase, e, bind, Except.bind, destroyBack, if_neg (show ¬ s.n = 0 by omega), hd]
  · simp [List.length_eraseIdx, hp, hn]
  · have : m.cap = s.mem.cap := s1.1
    simp [List.length_eraseIdx, hp]; omega
  · rw [List.eraseIdx_eq_take_drop_succ, cellOf_cut _ _ _ (by omega) (by omega), set_cell]
    by_cases hj : j = s.n - 1
    · rw [if_pos hj, if_neg (by omega), cellOf_ge (by omega)]
    · rw [if_neg hj, c1]
      split_ifs <;> (try omega) <;> (try rfl)
      rw [cellOf_ge (by omega)]

theorem step_ok (h : Good cap sms check debug s l) (o : Op α) (hl : Legal cap sms check debug l o) :
    ∃ s', step s o = .ok (s', (specStep cap l o).2) ∧ Good cap sms check debug s' (specStep cap l o).1 := by
  have hn := h.n; have hcap := h.cap; have hle := h.mem.1
  cases o with
  | resize k v =>
    simp only [step, resize, specStep]
    by_cases hc : k ≤ cap
    · simp only [hcap, hc, if_true]
      by_cases hk : s.n < k
      · obtain ⟨m, e, s1, c1⟩ := fillNew_ok v (k - s.n) s.mem s.n (by omega) (fun j h1 _ => h.mem.israw (by omega))
        refine ⟨{ s with mem := m, n := k }, by simp [hk, e, bind, Except.bind], s1.1.trans h.cap, s1.2.trans h.sms, h.chk, h.dbg, by simp; omega, by simp [s1.1]; omega, fun j => ?_⟩
        rw [cellOf_resize]; simp only [c1, h.mem.2]
        split_ifs <;> (try omega) <;> (try rfl)
        rw [cellOf_ge (by omega)]
      · obtain ⟨m, e, s1, c1⟩ := destroyN_ok (s.n - k) s.mem (s.n - (s.n - k)) (by omega) (fun j h1 _ => h.mem.notraw (by omega))
        refine ⟨{ s with mem := m, n := k }, by simp [hk, e, bind, Except.bind], s1.1.trans h.cap, s1.2.trans h.sms, h.chk, h.dbg, by simp; omega, by simp [s1.1]; omega, fun j => ?_⟩
        rw [cellOf_resize]; simp only [c1, h.mem.2]
        split_ifs <;> (try omega) <;> (try rfl)
        rw [cellOf_ge (by omega)]
    · simp only [hcap, hc, if_false]; exact ⟨s, rfl, h⟩
  | assignRange vs =>
    simp only [step, assignRange, specStep, Legal] at hl ⊢
    by_cases hc : vs.length ≤ cap
    · obtain ⟨s1, e1, g1⟩ := initialise_ok h
      obtain ⟨m, e2, s2, c2⟩ := copyNew_ok vs s1.mem 0 (by rw [g1.cap]; omega) (fun j _ _ => g1.mem.israw (by simp))
      refine ⟨{ s1 with mem := m, n := vs.length }, ?_, ?_⟩
      · rw [if_neg (by simp [hcap, hc])]; simp [e1, e2, hc, bind, Except.bind]
      · simp only [hc, if_true]
        refine ⟨s2.1.trans g1.cap, s2.2.trans g1.sms, g1.chk, g1.dbg, rfl, by simp [s2.1, g1.cap, hc], fun j => ?_⟩
        simp only [c2, Nat.zero_le, if_true, Nat.sub_zero]
        simp only [cellOf, g1.mem.2, List.getElem?_nil]
    · have hd : debug = true := hl.resolve_right hc
      refine ⟨s, ?_, by simp only [hc, if_false]; exact h⟩
      rw [if_pos (by simp [h.dbg, hd, hcap]; omega)]; simp [hc]
  | assignN k v =>
    simp only [step, assignN, specStep]
    by_cases hc : k ≤ cap
    · obtain ⟨s1, e1, g1⟩ := initialise_ok h
      obtain ⟨m, e2, s2, c2⟩ := fillNew_ok v k s1.mem 0 (by rw [g1.cap]; omega) (fun j _ _ => g1.mem.israw (by simp))
      refine ⟨{ s1 with mem := m, n := k }, by simp [hcap, hc, e1, e2, bind, Except.bind], ?_⟩
      simp only [hc, if_true]
      refine ⟨s2.1.trans g1.cap, s2.2.trans g1.sms, g1.chk, g1.dbg, by simp, by simp [s2.1, g1.cap, hc], fun j => ?_⟩
      rw [cellOf_replicate]; simp only [c2, Nat.zero_le, true_and, Nat.zero_add, g1.mem.2]
      split_ifs
      · rfl
      · simp [cellOf]
    · simp only [hcap, hc, if_false]; exact ⟨s, rfl, h⟩
  | clear =>
    obtain ⟨s1, e1, g1⟩ := initialise_ok h
    exact ⟨s1, by simp [step, clear, e1, specStep, bind, Except.bind], g1⟩
  | fill v =>
    obtain ⟨m, e, s1, c1⟩ := fillN_ok v s.n s.mem 0 (by omega) (fun j _ _ => h.mem.notraw (by omega))
    refine ⟨{ s with mem := m }, by simp [step, fill, e, specStep, bind, Except.bind], s1.1.trans h.cap, s1.2.trans h.sms, h.chk, h.dbg, by simp [specStep, hn], by simp [s1.1, specStep]; omega, fun j => ?_⟩
    simp only [specStep]
    rw [cellOf_replicate]; simp only [c1, Nat.zero_le, true_and, Nat.zero_add, hn, h.mem.2]
    split_ifs
    · rfl
    · rw [cellOf_ge (by omega)]
  | pushBack v =>
    simp only [step, pushBack, specStep, Legal] at hl ⊢
    by_cases hc : l.length < cap
    · obtain ⟨s1, e1, g1⟩ := createBack_ok h hc v
      refine ⟨s1, ?_, by simp only [hc, if_true]; exact g1⟩
      rw [if_neg (by simp; omega)]; simp [e1, hc, bind, Except.bind]
    · have hd : check = true := hl.resolve_right hc
      refine ⟨s, ?_, by simp only [hc, if_false]; exact h⟩
      rw [if_pos (by simp [h.chk, hd]; omega)]; simp [hc]
  | popBack =>
    simp only [step, popBack, specStep, Legal] at hl ⊢
    by_cases hc : l = []
    · have hd : check = true := hl.resolve_right (by simp [hc])
      refine ⟨s, ?_, by simp only [hc, if_true]; rw [hc] at h; exact h⟩
      rw [if_pos (by simp [h.chk, hd, hn, hc])]; simp [hc]
    · obtain ⟨s1, e1, g1⟩ := destroyBack_ok h hc
      refine ⟨s1, ?_, by simp only [hc, if_false]; exact g1⟩
      have := List.length_pos_iff.2 hc
      rw [if_neg (by simp; omega)]; simp [e1, hc, bind, Except.bind]
  | insert p v => exact insert_ok h p v hl
  | insertMove p v => exact insertMove_ok h p v hl
  | emplace p v => exact emplace_ok h p v hl
  | insertN p k v => exact insertN_ok h p k v hl.1 hl.2
  | insertRange p vs => exact insertRange_ok h p vs hl.1 hl.2
  | erase p => exact erase_ok h p hl
  | eraseRange a b => exact eraseRange_ok h a b hl.1 hl.2.1 hl.2.2

end Steps

theorem run_ok {cap : Nat} {sms check debug : Bool} (os : List (Op α)) : ∀ {s : St α} {l : List α}, Good cap sms check debug s l →
    LegalRun cap sms check debug l os →
    ∃ s', run s os = .ok (s', (specRun cap l os).2) ∧ Good cap sms check debug s' (specRun cap l os).1 := by
  induction os with
  | nil => intro s l h _; exact ⟨s, rfl, h⟩
  | cons o os ih =>
    intro s l h hl
    obtain ⟨s1, e1, h1⟩ := step_ok h o hl.1
    obtain ⟨s2, e2, h2⟩ := ih h1 hl.2
    exact ⟨s2, by simp [run, e1, e2, specRun, bind, Except.bind], h2⟩

/-! ## C09 -/

/-- What can be observed of a vector with contents `l`. -/
structure Shows (cap : Nat) (s : St α) (l : List α) : Prop where
  size : size s = l.length
  bound : l.length ≤ cap
  empty : empty s = true ↔ l = []
  full : full s = true ↔ l.length = cap
  avail : available s = cap - l.length
  contents : contents s = .ok l
  index : ∀ (i : Nat) (v : α), l[i]? = some v → index s i = .ok v ∧ atIdx s i = .ok (.ok v)
  atBad : ∀ i, l.length ≤ i → atIdx s i = .ok (.error .outOfBounds)
  front : ∀ v, l.head? = some v → front s = .ok v
  back : ∀ v, l.getLast? = some v → back s = .ok v

theorem shows_of_good {cap : Nat} {sms check debug : Bool} {s : St α} {l : List α} (h : Good cap sms check debug s l) : Shows cap s l := by
  have hn := h.n; have hcap := h.cap; have hle := h.mem.1
  have hrd : ∀ i (hi : i < l.length), s.mem.read i = .ok l[i] := fun i hi => read_ok (by omega) (by rw [h.mem.2, cellOf_lt hi])
  refine ⟨hn, by omega, ?_, ?_, by simp [available, hcap, hn], ?_, ?_, ?_, ?_, ?_⟩
  · simp [Vector.empty, hn]
  · simp [Vector.full, hn, hcap]
  · rw [Vector.contents, readN_ok h.mem _ _ (by omega), hn]; simp
  · intro i v hv
    obtain ⟨hi, rfl⟩ := List.getElem?_eq_some_iff.1 hv
    exact ⟨hrd i hi, by simp [atIdx, hn, hi, hrd i hi, bind, Except.bind]⟩
  · intro i hi; simp [atIdx, hn]; omega
  · intro v hv
    cases l with
    | nil => simp at hv
    | cons a t => simp at hv; subst hv; exact hrd 0 (by simp)
  · intro v hv
    rw [List.getLast?_eq_getElem?] at hv
    obtain ⟨hi, rfl⟩ := List.getElem?_eq_some_iff.1 hv
    simp only [Vector.back, hn]
    rw [if_neg (by omega)]; exact hrd _ hi

/-- **C09.**  Every history of legal calls on a vector of any capacity runs without undefined behaviour, reports exactly the
specified errors, and leaves a vector that shows the contents of the ideal sequence. -/
theorem C09_refines (cap : Nat) (sms check debug : Bool) (os : List (Op α)) (hl : LegalRun cap sms check debug [] os) :
    ∃ s, run (init cap sms check debug) os = .ok (s, (specRun cap [] os).2) ∧ Shows cap s (specRun cap [] os).1 := by
  obtain ⟨s, e, h⟩ := run_ok os (good_init (α := α) cap sms check debug) hl
  exact ⟨s, e, shows_of_good h⟩

/-- With `ETL_CHECK_PUSH_POP` and debug checks, and a `T` that tolerates self-move, the only precondition left is that iterators are valid. -/
theorem C09_checked_legal (cap : Nat) (l : List α) (o : Op α)
    (hp : match o with
      | .insert p _ | .insertMove p _ | .emplace p _ | .insertN p _ _ | .insertRange p _ => p ≤ l.length
      | .erase p => p < l.length
      | .eraseRange a b => a ≤ b ∧ b ≤ l.length
      | _ => True) : Legal cap true true true l o := by
  cases o <;> simp_all [Legal]

/-! ## C10 -/

/-- **C10.**  After every legal history the slots below `size()` hold live, not moved-from objects and all other slots are raw; the history itself
never constructed over a live object nor touched a dead or moved-from one (it ran to `.ok`); the destructor (`clear`) then leaves no object. -/
theorem C10_lifetimes (cap : Nat) (sms check debug : Bool) (os : List (Op α)) (hl : LegalRun cap sms check debug [] os) :
    ∃ s, run (init cap sms check debug) os = .ok s ∧ size s.1 ≤ cap ∧
      (∀ j, j < size s.1 → ∃ v, s.1.mem.cell j = .live v) ∧ (∀ j, size s.1 ≤ j → s.1.mem.cell j = .raw) ∧
      ∃ s', clear s.1 = .ok (s', none) ∧ ∀ j, s'.mem.cell j = .raw := by
  obtain ⟨s, e, h⟩ := run_ok os (good_init (α := α) cap sms check debug) hl
  have hn := h.n; have hle := h.mem.1; have hcap := h.cap
  obtain ⟨s', e', g'⟩ := initialise_ok h
  refine ⟨_, e, by simp [size]; omega, ?_, ?_, s', by simp [clear, e', bind, Except.bind], fun j => g'.mem.israw (by simp)⟩
  · intro j hj; exact h.mem.live (by simp [size] at hj; omega)
  · intro j hj; exact h.mem.israw (by simp [size] at hj; omega)

/-- **C10**, moving a vector: move assignment/construction from a source with contents `r` gives the target those contents and empties the
source; all objects of the old target and of the source are destroyed. -/
theorem C10_move (cap : Nat) (sms check debug : Bool) (s src : St α) (l r : List α) (h : Good cap sms check debug s l)
    (cap' : Nat) (sms' check' debug' : Bool) (hr : Good cap' sms' check' debug' src r) (hfit : r.length ≤ cap) :
    ∃ s' src', moveAssign s src = .ok (s', src', none) ∧ Good cap sms check debug s' r ∧ Good cap' sms' check' debug' src' [] := by
  obtain ⟨s1, e1, g1⟩ := initialise_ok h
  have key : ∀ (k : Nat) (t : St α) (tl : List α) (sm : Mem α) (i : Nat), Good cap sms check debug t tl → i + k = r.length → tl = r.take i →
      Same src.mem sm → (∀ j, sm.cell j = if j < i then .moved else cellOf r j) →
      ∃ t' sm', pushAll t sm i k = .ok (t', sm', none) ∧ Good cap sms check debug t' r ∧ Same src.mem sm' ∧ ∀ j, sm'.cell j = if j < r.length then .moved else .raw := by
    intro k
    induction k with
    | zero =>
      intro t tl sm i gt hi htl hsm hc
      refine ⟨t, sm, rfl, ?_, hsm, fun j => ?_⟩
      · have : tl = r := by rw [htl, List.take_of_length_le (by omega)]
        rw [← this]; exact gt
      · rw [hc]
        split_ifs <;> (try omega) <;> (try rfl)
        rw [cellOf_ge (by omega)]
    | succ k ih =>
      intro t tl sm i gt hi htl hsm hc
      have hir : i < r.length := by omega
      have hrd : sm.read i = .ok r[i] := read_ok (by rw [hsm.1]; have := hr.mem.1; omega) (by rw [hc, if_neg (by omega), cellOf_lt hir])
      have hlen : tl.length = i := by rw [htl]; simp; omega
      obtain ⟨t1, e1, gt1⟩ := createBack_ok gt (by omega) r[i]
      have hpb : pushBack t r[i] = .ok (t1, none) := by
        unfold pushBack
        have := gt.n; have := gt.cap
        rw [if_neg (by simp; omega)]; simp [e1, bind, Except.bind]
      obtain ⟨t', sm', e', g', s', c'⟩ := ih t1 (tl ++ [r[i]]) (sm.set i .moved) (i+1) gt1 (by omega)
        (by rw [htl, List.take_succ_eq_append_getElem hir]) (hsm.trans same_set) (fun j => by
          rw [set_cell, hc]; split_ifs <;> (try omega) <;> rfl)
      exact ⟨t', sm', by simp [pushAll, hrd, hpb, e', bind, Except.bind], g', s', c'⟩
  obtain ⟨t', sm', e2, g2, ss, c2⟩ := key src.n s1 [] src.mem 0 g1 (by have := hr.n; omega) (by simp) .rfl (fun j => by rw [hr.mem.2]; simp)
  obtain ⟨m3, e3, s3, c3⟩ := destroyN_ok src.n sm' 0 (by rw [ss.1]; have := hr.mem.1; have := hr.n; omega) (fun j _ h2 => by
    rw [c2, if_pos (by have := hr.n; omega)]; simp)
  refine ⟨t', { src with mem := m3, n := 0 }, ?_, g2, ?_⟩
  · have e4 : initialise { src with mem := sm' } = .ok { src with mem := m3, n := 0 } := by simp [initialise, e3, bind, Except.bind]
    simp [Vector.moveAssign, e1, e2, e4, bind, Except.bind]
  · refine ⟨(s3.1.trans ss.1).trans hr.cap, (s3.2.trans ss.2).trans hr.sms, hr.chk, hr.dbg, rfl, by simp, fun j => ?_⟩
    rw [c3, c2]
    have := hr.n
    split_ifs <;> (try omega) <;> simp [cellOf]

/-! ## A hazard: inserting an element of the vector into itself

`v.insert(pos, v[k])` reads `v[k]` only after the tail was shifted: for `k > pos` the element before it is inserted instead, and for `k = pos`
a moved-from object is read.  `std::vector` has to handle this case. -/
theorem insert_alias_wrong (cap : Nat) (sms check debug : Bool) (s : St α) (l : List α) (h : Good cap sms check debug s l) (hc : l.length < cap)
    (p k : Nat) (hpk : p < k) (hk : k < l.length) :
    ∃ s', insertAlias s p k = .ok (s', none) ∧ Good cap sms check debug s' (l.take p ++ (l[k - 1]'(by omega)) :: l.drop p) := by
  have hn := h.n; have hcap := h.cap
  obtain ⟨s1, e1, c1, c2, c3, c4, c5, c6, c7⟩ := openGap_ok h hc p (by omega)
  have hr : s1.mem.read k = .ok (l[k-1]'(by omega)) := read_ok (by omega) (by rw [c7 k (by omega), if_neg (by omega), cellOf_lt])
  have ha := assign_ok (l[k-1]'(by omega)) (show p < s1.mem.cap by omega) c6
  refine ⟨{ s1 with mem := s1.mem.set p (.live (l[k-1]'(by omega))) }, ?_, ?_⟩
  · unfold insertAlias
    rw [if_neg (by simp; omega), if_neg (by omega)]; simp [e1, hr, ha, bind, Except.bind]
  · refine ⟨c1, c2, c3, c4, by simp [c5]; omega, by simp; omega, fun j => ?_⟩
    rw [set_cell, cellOf_ins1 _ _ _ (by omega)]
    by_cases hj : j = p
    · simp [hj]
    · rw [if_neg hj, c7 j hj, if_neg hj]

/-- The shared hypothesis is met: a concrete history exercising inserts, erases and refusals. -/
example : LegalRun 5 false true true ([] : List Nat)
    [.pushBack 1, .pushBack 2, .insert 0 7, .insertN 1 2 9, .pushBack 4, .erase 0, .eraseRange 1 3, .insertRange 1 [5, 6], .popBack, .resize 4 0] := by
  simp [LegalRun, Legal, specStep]
example : (specRun 5 ([] : List Nat)
    [.pushBack 1, .pushBack 2, .insert 0 7, .insertN 1 2 9, .pushBack 4, .erase 0, .eraseRange 1 3, .insertRange 1 [5, 6], .popBack, .resize 4 0]) =
    ([9, 5, 6, 0], [none, none, none, none, some .full, none, none, none, none, none]) := by decide
example : ((run (init 5 false true true) [.pushBack 1, .pushBack 2, .insert 0 7, .insertN 1 2 9, Op.pushBack 4, .erase 0]).map
    (fun p => (p.1.n, p.1.mem.cell 0, p.1.mem.cell 1, p.1.mem.cell 3, p.1.mem.cell 4))) = .ok (4, .live 9, .live 9, .live 2, .raw) := by rfl

end Etl.Vector
