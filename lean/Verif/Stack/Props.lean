import Verif.Stack.Model

/-!
# C42 (stack): `etl::stack` is a bounded last-in first-out stack

The specification knows nothing of indices or storage: a stack is a list, top first.
-/
namespace Etl.Stack
variable {α : Type}
open Mem (Holds cellOf)

/-! ## Specification -/

/-- Effect of one operation on stacks of capacity `n`; `none` when the caller broke a precondition (`pop_into` from an empty stack; push to a full or pop from an
empty stack when the checks are compiled out). -/
def specStep (n : Nat) (check : Bool) (mf : α → α) (w : Nat → List α) : Op α → Option ((Nat → List α) × Out α)
  | .push q v =>
    if (w q).length < n then some (upd w q (v :: w q), .unit)
    else if check then some (w, .err .full) else none
  | .pop q =>
    match w q with
    | _ :: t => some (upd w q t, .unit)
    | [] => if check then some (w, .err .empty) else none
  | .popInto q =>
    match w q with
    | v :: t => some (upd w q t, .val v)
    | [] => none
  | .popIntoStack q dst =>
    if (w dst).length < n then
      match w q with
      | v :: t =>
        -- into itself: the top moves one up and is popped again, the moved-from object stays
        if q = dst then some (upd w q (mf v :: t), .unit) else some (upd (upd w q t) dst (v :: w dst), .unit)
      | [] => none
    else if check then some (w, .err .full) else none
  | .clear q => some (upd w q [], .unit)
  | .reverse q => some (upd w q (w q).reverse, .unit)
  | .copyAssign dst src => some (upd w dst (w src), .unit)
  | .moveAssign dst src => some (if dst = src then w else upd (upd w dst (w src)) src ((w src).map mf), .unit)

def specRun (n : Nat) (check : Bool) (mf : α → α) (w : Nat → List α) : List (Op α) → Option ((Nat → List α) × List (Out α))
  | [] => some (w, [])
  | o :: os =>
    match specStep n check mf w o with
    | none => none
    | some (w, r) =>
      match specRun n check mf w os with
      | none => none
      | some (w, rs) => some (w, r :: rs)

/-- What a user can observe of a stack of capacity `n` holding `l`. -/
structure Shows (n : Nat) (s : St α) (l : List α) : Prop where
  size : s.size = l.length
  bound : l.length ≤ n
  empty : empty s = true ↔ l = []
  full : full s = true ↔ l.length = n
  cap : maxSize s = n
  avail : available s = n - l.length
  top : ∀ v, l.head? = some v → top s = .ok v
  /-- objects are alive in the slots `0 .. size` and nowhere else -/
  live : ∀ i, (s.mem.cell i).alive = true ↔ i < l.length

/-! ## Invariant -/

/-- `mx` plays no role: the wrapped `top_index` of an empty stack is never used. -/
structure Inv (n : Nat) (triv check : Bool) (s : St α) (l : List α) : Prop where
  hcap : s.cap = n
  hmcap : s.mem.cap = n
  htriv : s.trivial = triv
  hcheck : s.check = check
  hsize : s.size = l.length
  hlen : l.length ≤ n
  htop : l ≠ [] → s.topI = l.length - 1
  hmem : Holds s.mem l.reverse

theorem inv_init (n mx : Nat) (triv check : Bool) : Inv n triv check (init (α := α) n mx triv check) [] := by
  refine ⟨rfl, rfl, rfl, rfl, rfl, by simp, by simp, by simp, ?_⟩
  intro j; simp [init, Mem.fresh, cellOf]

section
variable {n : Nat} {triv check : Bool} {s : St α} {l : List α}

theorem full_iff (h : Inv n triv check s l) : full s = true ↔ l.length = n := by
  simp [full, h.hsize, h.hcap]
theorem empty_iff (h : Inv n triv check s l) : empty s = true ↔ l = [] := by
  simp [empty, h.hsize]

theorem push_full (h : Inv n triv true s l) (hl : l.length = n) (v : α) : push s v = .ok (.error .full) := by
  rw [push, if_pos ⟨h.hcheck, (full_iff h).2 hl⟩]

theorem push_inv (h : Inv n triv check s l) (hl : l.length < n) (v : α) :
    ∃ s', push s v = .ok (.ok s') ∧ Inv n triv check s' (v :: l) := by
  have hnf : ¬ (s.check = true ∧ full s = true) := by rw [full_iff h]; omega
  have hraw : s.mem.cell s.size = .raw := h.hmem.israw (by simp [h.hsize])
  have hin : s.size < s.mem.cap := by rw [h.hsize, h.hmcap]; exact hl
  refine ⟨{ addIn s with mem := s.mem.set s.size (.live v) }, ?_, ?_⟩
  · rw [push, if_neg hnf]
    show (do let m ← s.mem.construct s.size v; _) = _
    rw [Mem.construct_ok v hin hraw]; rfl
  · refine ⟨h.hcap, h.hmcap, h.htriv, h.hcheck, by simp [addIn, h.hsize], by simp; omega, by simp [addIn, h.hsize], ?_, ?_⟩
    · simp [h.hmcap]; omega
    · intro j
      rw [List.reverse_cons, Mem.cellOf_snoc, Mem.set_cell, h.hmem.2, h.hsize]; simp

theorem pop_empty (h : Inv n triv true s []) : pop s = .ok (.error .empty) := by
  rw [pop, if_pos ⟨h.hcheck, (empty_iff h).2 rfl⟩]

theorem top_eq {a : α} {t : List α} (h : Inv n triv check s (a :: t)) : s.topI = t.length := by simpa using h.htop (by simp)

theorem top_live {a : α} {t : List α} (h : Inv n triv check s (a :: t)) : s.mem.cell s.topI = .live a := by
  rw [h.hmem.2, top_eq h, List.reverse_cons, Mem.cellOf_snoc]; simp

theorem top_lt {a : α} {t : List α} (h : Inv n triv check s (a :: t)) : s.topI < s.mem.cap := by
  rw [h.hmcap, top_eq h]; have := h.hlen; simp at this; omega

theorem drop_inv {a : α} {t : List α} (h : Inv n triv check s (a :: t)) :
    Inv n triv check (delOut { s with mem := s.mem.set s.topI .raw }) t := by
  have ht := top_eq h
  have hlen := h.hlen
  simp only [List.length_cons] at hlen
  refine ⟨h.hcap, h.hmcap, h.htriv, h.hcheck, by simp [delOut, h.hsize], by omega, ?_, ?_, ?_⟩
  · intro hne
    have := List.length_pos_iff.2 hne
    simp only [delOut, ht]; rw [if_neg (by omega)]
  · show t.reverse.length ≤ s.mem.cap
    rw [h.hmcap]; simp; omega
  · intro j
    show (s.mem.set s.topI .raw).cell j = _
    rw [Mem.set_cell, h.hmem.2, ht, List.reverse_cons, Mem.cellOf_snoc]
    simp only [List.length_reverse]
    split_ifs with hj
    · subst hj; rw [Mem.cellOf_ge (by simp)]
    · rfl

theorem pop_inv {a : α} {t : List α} (h : Inv n triv check s (a :: t)) :
    ∃ s', pop s = .ok (.ok s') ∧ Inv n triv check s' t := by
  have hne : ¬ (s.check = true ∧ empty s = true) := by rw [empty_iff h]; simp
  refine ⟨_, ?_, drop_inv h⟩
  rw [pop, if_neg hne, Mem.destroy_ok (top_lt h) (by rw [top_live h]; simp)]; rfl

theorem clearLoop_inv (fuel : Nat) : ∀ {s : St α} {l : List α}, Inv n triv check s l → l.length < fuel →
    ∃ s', clearLoop s fuel = .ok s' ∧ Inv n triv check s' [] := by
  induction fuel with
  | zero => intro s l _ h; omega
  | succ fuel ih =>
    intro s l h hf
    cases l with
    | nil => exact ⟨s, by rw [clearLoop, if_neg (by rw [h.hsize]; simp)], h⟩
    | cons a t =>
      obtain ⟨s', e, h'⟩ := ih (drop_inv h) (by simpa using hf)
      refine ⟨s', ?_, h'⟩
      rw [clearLoop, if_pos (by rw [h.hsize]; simp), Mem.destroy_ok (top_lt h) (by rw [top_live h]; simp)]
      exact e

theorem clear_inv (h : Inv n triv check s l) : ∃ s', clear s = .ok s' ∧ Inv n triv check s' [] := by
  by_cases ht : s.trivial = true
  · refine ⟨{ indexClear s with mem := .fresh s.mem.cap s.mem.sms }, by rw [clear, if_pos ht], h.hcap, h.hmcap, h.htriv, h.hcheck, rfl, by simp, by simp, by simp, ?_⟩
    intro j; simp [Mem.fresh, cellOf]
  · obtain ⟨s', e, h'⟩ := clearLoop_inv (s.size + 1) h (by rw [h.hsize]; omega)
    exact ⟨s', by rw [clear, if_neg ht, e], h'⟩

theorem cellOf_set (l : List α) (i : Nat) (v : α) (hi : i < l.length) (j : Nat) :
    cellOf (l.set i v) j = if j = i then .live v else cellOf l j := by
  unfold Mem.cellOf
  rw [List.getElem?_set]
  by_cases h : i = j
  · subst h; simp [hi]
  · rw [if_neg h, if_neg (Ne.symm h)]

/-- Moving out of the object in slot `k`; `r` lists the elements oldest first. -/
theorem takeAt_inv (mf : α → α) {r : List α} (h : Inv n triv check s r.reverse) {k : Nat} {v : α} (hk : r[k]? = some v) :
    ∃ s', takeAt mf s k = .ok (v, s') ∧ Inv n triv check s' (r.set k (mf v)).reverse := by
  obtain ⟨hkl, hv⟩ := List.getElem?_eq_some_iff.1 hk
  have hm := h.hmem
  rw [List.reverse_reverse] at hm
  have hc : s.mem.cell k = .live v := by rw [hm.2]; simp [Mem.cellOf, hk]
  have hi : k < s.mem.cap := by have := hm.1; omega
  refine ⟨{ s with mem := s.mem.set k (.live (mf v)) }, ?_, ?_⟩
  · rw [takeAt, Mem.read_ok hi hc]
    simp only [bind, Except.bind]
    rw [Mem.assign_ok _ hi (by rw [hc]; simp)]
  · refine ⟨h.hcap, h.hmcap, h.htriv, h.hcheck, by simpa using h.hsize, by simpa using h.hlen, ?_, ?_, ?_⟩
    · intro _
      have := h.htop (by intro e; simp at e; subst e; simp at hkl)
      simpa using this
    · simpa using hm.1
    · intro j
      rw [List.reverse_reverse, cellOf_set _ _ _ hkl, Mem.set_cell, hm.2]

theorem takeTop_inv (mf : α → α) {a : α} {t : List α} (h : Inv n triv check s (a :: t)) :
    ∃ s', takeAt mf s s.topI = .ok (a, s') ∧ Inv n triv check s' (mf a :: t) := by
  have := takeAt_inv mf (s := s) (r := (a :: t).reverse) (by simpa using h) (k := t.length) (v := a) (by
    rw [List.reverse_cons, List.getElem?_append_right (by simp)]; simp)
  obtain ⟨s', e, h'⟩ := this
  refine ⟨s', by rw [top_eq h]; exact e, ?_⟩
  rw [List.reverse_cons, List.set_append_right _ _ (by simp)] at h'
  simpa using h'

theorem reverse_inv (h : Inv n triv check s l) : ∃ s', reverse .pointer s = .ok s' ∧ Inv n triv check s' l.reverse := by
  have hr : s.mem.readN 0 s.size = .ok l.reverse := by
    rw [Mem.readN_ok h.hmem _ _ (by simp [h.hsize]), h.hsize]; simp
  have hv : Algo.reverse .pointer l.reverse 0 s.size = .ok l := by
    have := Algo.C49_reverse .pointer [] l.reverse []
    simpa [h.hsize] using this
  obtain ⟨m, e, hs, hm⟩ := Mem.copyTo_ok l s.mem 0 (by have := h.hlen; rw [h.hmcap]; omega) (fun j _ hj => h.hmem.notraw (by simpa using hj))
  refine ⟨{ s with mem := m }, by simp [reverse, hr, hv, e, bind, Except.bind], ?_⟩
  refine ⟨h.hcap, by rw [hs.1, h.hmcap], h.htriv, h.hcheck, by simpa using h.hsize, by simpa using h.hlen, ?_, ?_, ?_⟩
  · intro hne; simpa using h.htop (by simpa using hne)
  · rw [hs.1, h.hmcap]; simpa using h.hlen
  · intro j
    rw [List.reverse_reverse, hm]
    simp only [Nat.zero_le, if_true, Nat.sub_zero, cellOf]
    cases hj : l[j]? with
    | some v => rfl
    | none =>
      simp only
      rw [h.hmem.2, Mem.cellOf_ge]
      simpa using hj

theorem cloneLoop_inv {r : List α} {o : St α} {tr2 ck2 : Bool} (ho : Inv n tr2 ck2 o r.reverse) (fuel : Nat) : ∀ {s : St α} (i : Nat), i ≤ r.length → r.length - i < fuel →
    Inv n triv check s (r.take i).reverse →
    ∃ s', cloneLoop s o i fuel = .ok (s', none) ∧ Inv n triv check s' r.reverse := by
  induction fuel with
  | zero => intro s i _ h; omega
  | succ fuel ih =>
    intro s i hi hf h
    have hlen : r.length ≤ n := by simpa using ho.hlen
    have hm := ho.hmem
    rw [List.reverse_reverse] at hm
    have hsz : o.size = r.length := by simpa using ho.hsize
    by_cases hlt : i < r.length
    · have hc : o.mem.cell i = .live r[i] := by rw [hm.2, Mem.cellOf_lt hlt]
      obtain ⟨s1, e1, h1⟩ := push_inv h (by simp; omega) r[i]
      have e : r[i] :: (r.take i).reverse = (r.take (i + 1)).reverse := by
        have e0' : r.take i ++ [r[i]] = r.take (i + 1) := by simp
        rw [← e0', List.reverse_append]; rfl
      rw [e] at h1
      obtain ⟨s', e2, h2⟩ := ih (i + 1) (by omega) (by omega) h1
      refine ⟨s', ?_, h2⟩
      rw [cloneLoop, if_pos (by rw [hsz]; exact hlt), Mem.read_ok (by have := hm.1; omega) hc]
      simp only [bind, Except.bind, e1]
      exact e2
    · have : i = r.length := by omega
      subst this
      refine ⟨s, by rw [cloneLoop, if_neg (by rw [hsz]; omega)], by simpa using h⟩

theorem clone_inv {lo : List α} {o : St α} {tr2 ck2 : Bool} (ho : Inv n tr2 ck2 o lo) (h : Inv n triv check s l) :
    ∃ s', clone s o = .ok (s', none) ∧ Inv n triv check s' lo := by
  obtain ⟨s1, e1, h1⟩ := clear_inv h
  obtain ⟨s', e2, h2⟩ := cloneLoop_inv (r := lo.reverse) (by simpa using ho) (o.size + 1) (s := s1) (triv := triv) (check := check) 0 (by omega)
    (by rw [ho.hsize]; simp) (by simpa using h1)
  refine ⟨s', ?_, by simpa using h2⟩
  simp only [clone, e1, bind, Except.bind]; exact e2

theorem moveCloneLoop_inv (mf : α → α) {r : List α} {tr2 ck2 : Bool} (fuel : Nat) : ∀ {s o : St α} (i : Nat), i ≤ r.length → r.length - i < fuel →
    Inv n triv check s (r.take i).reverse → Inv n tr2 ck2 o ((r.take i).map mf ++ r.drop i).reverse →
    ∃ s' o', moveCloneLoop mf s o i fuel = .ok (s', o', none) ∧ Inv n triv check s' r.reverse ∧ Inv n tr2 ck2 o' (r.map mf).reverse := by
  induction fuel with
  | zero => intro s o i _ h; omega
  | succ fuel ih =>
    intro s o i hi hf h ho
    have hlen : r.length ≤ n := by have := ho.hlen; simp at this; omega
    have hsz : o.size = r.length := by rw [ho.hsize]; simp; omega
    by_cases hlt : i < r.length
    · have hx : ((r.take i).map mf ++ r.drop i)[i]? = some r[i] := by
        rw [List.getElem?_append_right (by simp)]; simp [List.length_take, show min i r.length = i by omega]
      have hnf : ¬ (s.check = true ∧ full s = true) := by rw [full_iff h]; simp; omega
      obtain ⟨o1, e0, ho1⟩ := takeAt_inv mf ho hx
      obtain ⟨s1, e1, h1⟩ := push_inv h (by simp; omega) r[i]
      have e0' : r.take i ++ [r[i]] = r.take (i + 1) := by simp
      have e : r[i] :: (r.take i).reverse = (r.take (i + 1)).reverse := by
        rw [← e0', List.reverse_append]; rfl
      rw [e] at h1
      have e' : ((r.take i).map mf ++ r.drop i).set i (mf r[i]) = (r.take (i + 1)).map mf ++ r.drop (i + 1) := by
        have hl : ((r.take i).map mf).length = i := by simp; omega
        rw [List.set_append_right _ _ (by omega), hl, Nat.sub_self, List.drop_eq_getElem_cons hlt, List.set_cons_zero, ← e0', List.map_append, List.append_assoc]
        rfl
      rw [e'] at ho1
      obtain ⟨s', o', e2, h2, h3⟩ := ih (i + 1) (by omega) (by omega) h1 ho1
      refine ⟨s', o', ?_, h2, h3⟩
      rw [moveCloneLoop, if_pos (by rw [hsz]; exact hlt), if_neg hnf, e0]
      simp only [bind, Except.bind, e1]
      exact e2
    · have : i = r.length := by omega
      subst this
      refine ⟨s, o, by rw [moveCloneLoop, if_neg (by rw [hsz]; omega)], by simpa using h, by simpa using ho⟩

theorem moveClone_inv (mf : α → α) {lo : List α} {o : St α} {tr2 ck2 : Bool} (ho : Inv n tr2 ck2 o lo) (h : Inv n triv check s l) :
    ∃ s' o', moveClone mf s o = .ok (s', o', none) ∧ Inv n triv check s' lo ∧ Inv n tr2 ck2 o' (lo.map mf) := by
  obtain ⟨s1, e1, h1⟩ := clear_inv h
  obtain ⟨s', o', e2, h2, h3⟩ := moveCloneLoop_inv mf (r := lo.reverse) (o.size + 1) (s := s1) (o := o) (triv := triv) (check := check) 0 (by omega)
    (by rw [ho.hsize]; simp) (by simpa using h1) (by simpa using ho)
  refine ⟨s', o', ?_, by simpa using h2, by simpa using h3⟩
  simp only [moveClone, e1, bind, Except.bind]; exact e2

theorem shows_of_inv (h : Inv n triv check s l) : Shows n s l := by
  refine ⟨h.hsize, h.hlen, empty_iff h, full_iff h, h.hcap, by simp [available, maxSize, h.hcap, h.hsize], ?_, ?_⟩
  · intro v hv
    cases l with
    | nil => simp at hv
    | cons a t =>
      simp at hv; subst hv
      exact Mem.read_ok (top_lt h) (top_live h)
  · intro i
    rw [h.hmem.2]
    by_cases hi : i < l.length
    · rw [Mem.cellOf_lt (by simpa using hi)]; simp [Cell.alive, hi]
    · rw [Mem.cellOf_ge (by simpa using hi)]; simp [Cell.alive, hi]
end

/-! ## Worlds -/

def WInv (n : Nat) (triv check : Bool) (w : World α) (lw : Nat → List α) : Prop := ∀ i, Inv n triv check (w i) (lw i)

theorem WInv.upd {n : Nat} {triv check : Bool} {w : World α} {lw : Nat → List α} (h : WInv n triv check w lw) {q : Nat} {s : St α} {l : List α}
    (hs : Inv n triv check s l) : WInv n triv check (upd w q s) (Etl.upd lw q l) := by
  intro i
  by_cases hi : i = q
  · subst hi; simpa using hs
  · rw [upd_other _ _ hi, upd_other _ _ hi]; exact h i

theorem upd_self {β : Type} (f : Nat → β) (i : Nat) : Etl.upd f i (f i) = f := by
  funext j; unfold Etl.upd; split_ifs with h
  · rw [h]
  · rfl

theorem upd_upd {β : Type} (f : Nat → β) (i : Nat) (a b : β) : Etl.upd (Etl.upd f i a) i b = Etl.upd f i b := by
  funext j; unfold Etl.upd; split_ifs <;> rfl

theorem upd_comm {β : Type} (f : Nat → β) {i j : Nat} (h : i ≠ j) (a b : β) : Etl.upd (Etl.upd f i a) j b = Etl.upd (Etl.upd f j b) i a := by
  funext k; unfold Etl.upd; split_ifs with h1 h2
  · subst h1; exact absurd h2 (Ne.symm h)
  all_goals rfl

theorem step_inv {n : Nat} {triv check : Bool} (mf : α → α) {w : World α} {lw lw' : Nat → List α} (h : WInv n triv check w lw) (o : Op α) {r : Out α}
    (hs : specStep n check mf lw o = some (lw', r)) : ∃ w', step mf w o = .ok (w', r) ∧ WInv n triv check w' lw' := by
  cases o with
  | push q v =>
    simp only [specStep] at hs
    by_cases hl : (lw q).length < n
    · rw [if_pos hl] at hs; obtain ⟨rfl, rfl⟩ := Prod.mk.inj (Option.some.inj hs)
      obtain ⟨s', e, h'⟩ := push_inv (h q) hl v
      exact ⟨_, by simp [step, e, bind, Except.bind], h.upd h'⟩
    · rw [if_neg hl] at hs
      cases check with
      | false => simp at hs
      | true =>
        simp at hs; obtain ⟨rfl, rfl⟩ := hs
        have := push_full (h q) (by have := (h q).hlen; omega) v
        exact ⟨w, by simp [step, this, bind, Except.bind], h⟩
  | pop q =>
    simp only [specStep] at hs
    have hq := h q
    cases hl : lw q with
    | nil =>
      rw [hl] at hs hq
      cases check with
      | false => simp at hs
      | true =>
        simp at hs; obtain ⟨rfl, rfl⟩ := hs
        exact ⟨w, by simp [step, pop_empty hq, bind, Except.bind], h⟩
    | cons a t =>
      rw [hl] at hs hq
      simp at hs; obtain ⟨rfl, rfl⟩ := hs
      obtain ⟨s', e, h'⟩ := pop_inv hq
      exact ⟨_, by simp [step, e, bind, Except.bind], h.upd h'⟩
  | popInto q =>
    simp only [specStep] at hs
    have hq := h q
    cases hl : lw q with
    | nil => rw [hl] at hs; simp at hs
    | cons a t =>
      rw [hl] at hs hq
      simp at hs; obtain ⟨rfl, rfl⟩ := hs
      obtain ⟨s1, e1, h1⟩ := takeTop_inv mf hq
      obtain ⟨s2, e2, h2⟩ := pop_inv h1
      exact ⟨_, by simp [step, popInto, e1, e2, bind, Except.bind], h.upd h2⟩
  | popIntoStack q dst =>
    simp only [specStep] at hs
    by_cases hl : (lw dst).length < n
    · rw [if_pos hl] at hs
      have hq := h q
      have hnf : ¬ ((w dst).check = true ∧ full (w dst) = true) := by rw [full_iff (h dst)]; omega
      cases hlq : lw q with
      | nil => rw [hlq] at hs; simp at hs
      | cons a t =>
        rw [hlq] at hs hq
        simp only at hs
        obtain ⟨s1, e1, h1⟩ := takeTop_inv mf hq
        have hw1 : WInv n triv check (upd w q s1) (Etl.upd lw q (mf a :: t)) := h.upd h1
        have hl1 : (Etl.upd lw q (mf a :: t) dst).length < n := by
          by_cases hdq : dst = q
          · subst hdq; rw [hlq] at hl; simpa using hl
          · rw [upd_other _ _ hdq]; exact hl
        obtain ⟨d, e2, h2⟩ := push_inv (hw1 dst) hl1 a
        have hw2 := hw1.upd (q := dst) h2
        by_cases hdq : dst = q
        · subst hdq
          rw [if_pos rfl] at hs
          simp at hs; obtain ⟨rfl, rfl⟩ := hs
          simp only [upd_same, upd_upd] at h2 hw2 e2 ⊢
          obtain ⟨s3, e3, h3⟩ := pop_inv h2
          refine ⟨_, by simp only [step, popIntoStack, if_neg hnf, e1, e2, e3, bind, Except.bind, upd_same, upd_upd]; rfl, ?_⟩
          exact h.upd h3
        · rw [if_neg (Ne.symm hdq)] at hs
          simp at hs; obtain ⟨rfl, rfl⟩ := hs
          rw [upd_other _ _ hdq] at e2
          have hq2 := hw2 q
          rw [upd_other _ _ (Ne.symm hdq), upd_other _ _ (Ne.symm hdq), upd_same, upd_same] at hq2
          obtain ⟨s3, e3, h3⟩ := pop_inv hq2
          refine ⟨upd (upd (upd w q s1) dst d) q s3, by
            simp only [step, popIntoStack, if_neg hnf, e1, e2, bind, Except.bind, upd_other _ _ hdq, upd_other _ _ (Ne.symm hdq), upd_same, e3], ?_⟩
          have := hw2.upd (q := q) h3
          rw [upd_comm (Etl.upd lw q (mf a :: t)) hdq, upd_upd, upd_other _ _ hdq] at this
          exact this
    · rw [if_neg hl] at hs
      cases check with
      | false => simp at hs
      | true =>
        simp at hs; obtain ⟨rfl, rfl⟩ := hs
        have hlen : (lw dst).length = n := by have := (h dst).hlen; omega
        exact ⟨w, by simp only [step, popIntoStack, if_pos (show (w dst).check = true ∧ full (w dst) = true from ⟨(h dst).hcheck, (full_iff (h dst)).2 hlen⟩)], h⟩
  | reverse q =>
    simp [specStep] at hs; obtain ⟨rfl, rfl⟩ := hs
    obtain ⟨s', e, h'⟩ := reverse_inv (h q)
    exact ⟨_, by simp [step, e, bind, Except.bind], h.upd h'⟩
  | clear q =>
    simp [specStep] at hs; obtain ⟨rfl, rfl⟩ := hs
    obtain ⟨s', e, h'⟩ := clear_inv (h q)
    exact ⟨_, by simp [step, e, bind, Except.bind], h.upd h'⟩
  | copyAssign dst src =>
    simp [specStep] at hs; obtain ⟨rfl, rfl⟩ := hs
    by_cases hd : dst = src
    · subst hd
      refine ⟨w, by simp [step], ?_⟩
      rw [upd_self]; exact h
    · obtain ⟨s', e, h'⟩ := clone_inv (h src) (h dst)
      exact ⟨_, by simp [step, hd, e, bind, Except.bind], h.upd h'⟩
  | moveAssign dst src =>
    simp [specStep] at hs; obtain ⟨rfl, rfl⟩ := hs
    by_cases hd : dst = src
    · subst hd
      exact ⟨w, by simp [step], by simpa using h⟩
    · obtain ⟨s', o', e, h1, h2⟩ := moveClone_inv mf (h src) (h dst)
      rw [if_neg hd]
      exact ⟨_, by simp [step, hd, e, bind, Except.bind], (h.upd h1).upd h2⟩

theorem run_inv {n : Nat} {triv check : Bool} (mf : α → α) (os : List (Op α)) : ∀ {w : World α} {lw lw' : Nat → List α} {rs : List (Out α)},
    WInv n triv check w lw → specRun n check mf lw os = some (lw', rs) → ∃ w', run mf w os = .ok (w', rs) ∧ WInv n triv check w' lw' := by
  induction os with
  | nil => intro w lw lw' rs h hs; simp [specRun] at hs; obtain ⟨rfl, rfl⟩ := hs; exact ⟨w, rfl, h⟩
  | cons o os ih =>
    intro w lw lw' rs h hs
    simp only [specRun] at hs
    split at hs
    · simp at hs
    · next w1 r1 h1 =>
      split at hs
      · simp at hs
      · next w2 rs2 h2 =>
        simp at hs; obtain ⟨rfl, rfl⟩ := hs
        obtain ⟨w', e1, i1⟩ := step_inv mf h o h1
        obtain ⟨w'', e2, i2⟩ := ih i1 h2
        exact ⟨w'', by simp [run, e1, e2, bind, Except.bind], i2⟩

/-- **C42, stack.**  Take any number of stacks of any capacity `n`, initially empty, and any history of operations on them that keeps the preconditions.  The run has
no undefined behaviour, every operation reports what the last-in first-out specification says, and each stack then shows exactly its specified contents. -/
theorem C42_stack_refines (n mx : Nat) (triv check : Bool) (mf : α → α) (os : List (Op α)) (lw : Nat → List α) (rs : List (Out α))
    (hs : specRun n check mf (fun _ => []) os = some (lw, rs)) :
    ∃ w, run mf (fun _ => init n mx triv check) os = .ok (w, rs) ∧ ∀ q, Shows n (w q) (lw q) := by
  obtain ⟨w, e, h⟩ := run_inv (triv := triv) mf os (fun _ => inv_init n mx triv check) hs
  exact ⟨w, e, fun q => shows_of_inv (h q)⟩

/-- **C42, stack**, headline: after any history, pushing `vs` (as far as they fit) and popping yields `vs` newest first, then the older elements from the top down. -/
theorem C42_stack_lifo (n mx : Nat) (triv check : Bool) (mf : α → α) (os : List (Op α)) (lw : Nat → List α) (rs : List (Out α))
    (hs : specRun n check mf (fun _ => []) os = some (lw, rs)) (q : Nat) (vs : List α) (hfit : (lw q).length + vs.length ≤ n) :
    ∃ w, run mf (fun _ => init n mx triv check) (os ++ vs.map (.push q) ++ List.replicate ((lw q).length + vs.length) (.popInto q)) =
      .ok (w, rs ++ vs.map (fun _ => .unit) ++ (vs.reverse ++ lw q).map .val) ∧ Shows n (w q) [] := by
  have happ : ∀ (a b : List (Op α)) (l l1 l2 : Nat → List α) (r1 r2 : List (Out α)), specRun n check mf l a = some (l1, r1) → specRun n check mf l1 b = some (l2, r2) →
      specRun n check mf l (a ++ b) = some (l2, r1 ++ r2) := by
    intro a
    induction a with
    | nil => intro b l l1 l2 r1 r2 h1 h2; simp [specRun] at h1; obtain ⟨rfl, rfl⟩ := h1; simpa using h2
    | cons o a ih =>
      intro b l l1 l2 r1 r2 h1 h2
      simp only [List.cons_append, specRun] at h1 ⊢
      split at h1
      · simp at h1
      · next w r hw =>
        split at h1
        · simp at h1
        · next w' rs' hw' =>
          simp at h1; obtain ⟨rfl, rfl⟩ := h1
          rw [ih b _ _ _ _ _ hw' h2]; rfl
  have hpush : ∀ (vs : List α) (l : Nat → List α), (l q).length + vs.length ≤ n →
      specRun n check mf l (vs.map (.push q)) = some (Etl.upd l q (vs.reverse ++ l q), vs.map (fun _ => .unit)) := by
    intro vs
    induction vs with
    | nil => intro l _; simp [specRun, upd_self]
    | cons v vs ih =>
      intro l hl
      simp only [List.length_cons] at hl
      simp only [List.map_cons, specRun, specStep]
      rw [if_pos (by omega)]; simp only
      rw [ih _ (by simp; omega)]; simp [upd_upd]
  have hpop : ∀ (vs : List α) (l : Nat → List α), l q = vs →
      specRun n check mf l (List.replicate vs.length (.popInto q)) = some (Etl.upd l q [], vs.map .val) := by
    intro vs
    induction vs with
    | nil =>
      intro l hl
      have : Etl.upd l q [] = l := by rw [← hl, upd_self]
      rw [this]; rfl
    | cons v vs ih =>
      intro l hl
      simp only [List.length_cons, List.replicate_succ, specRun, specStep, hl, List.map_cons]
      rw [ih _ (by simp)]; simp [upd_upd]
  have h1 := happ _ _ _ _ _ _ _ hs (hpush vs lw hfit)
  have h2 := happ _ _ _ _ _ _ _ h1 (hpop (vs.reverse ++ lw q) _ (by simp))
  rw [List.length_append, List.length_reverse, Nat.add_comm] at h2
  obtain ⟨w, e, h⟩ := C42_stack_refines n mx triv check mf _ _ _ h2
  exact ⟨w, e, by simpa using h q⟩

/-- **C42, stack**: destroying a stack after any history destroys every object in it, and nothing else. -/
theorem C42_stack_destroy (n mx : Nat) (triv check : Bool) (mf : α → α) (os : List (Op α)) (lw : Nat → List α) (rs : List (Out α))
    (hs : specRun n check mf (fun _ => []) os = some (lw, rs)) (q : Nat) :
    ∃ w, run mf (fun _ => init n mx triv check) os = .ok (w, rs) ∧ ∃ s, destroy (w q) = .ok s ∧ ∀ i, s.mem.cell i = .raw := by
  obtain ⟨w, e, h⟩ := run_inv (triv := triv) mf os (fun _ => inv_init n mx triv check) hs
  obtain ⟨s, e2, h2⟩ := clear_inv (h q)
  exact ⟨w, e, s, e2, fun i => h2.hmem.israw (by simp)⟩

/-- A history meeting the hypotheses: a rejected push, a copy, a move, a reversal, a pop to empty and a push after it. -/
def demo : List (Op Nat) :=
  [.push 0 1, .pop 0, .push 0 1, .push 0 2, .push 0 3, .push 0 4, .copyAssign 1 0, .pop 1, .moveAssign 2 0, .reverse 2, .popInto 2, .popIntoStack 1 2, .pop 3]
example : (specRun 3 true (fun _ => 0) (fun _ => []) demo).map (fun r => (r.1 0, r.1 1, r.1 2, r.2)) =
    some ([0, 0, 0], [1], [2, 2, 3], [.unit, .unit, .unit, .unit, .unit, .err .full, .unit, .unit, .unit, .unit, .val 1, .unit, .err .empty]) := by decide +kernel

/-- Without `ETL_CHECK_PUSH_POP` a push to a full stack writes outside the buffer. -/
theorem push_full_unchecked_undefined :
    (run (fun v : Nat => v) (fun _ => init 1 99 false false) [.push 0 10, .push 0 20]).toBool = false := rfl

end Etl.Stack
