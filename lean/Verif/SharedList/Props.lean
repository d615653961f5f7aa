import Verif.SharedList.Lemmas
import Mathlib.Tactic.SplitIfs

/-!
# Properties of lists that share one pool (C107)
-/
namespace Etl.SList
open Links
variable {α : Type}

/-! ## Specification: `k` lists whose sizes together never exceed the size of the pool -/

structure Cfg where
  k : Nat
  cap : Nat
  check : Bool
  dbg : Bool

/-- elements held by all lists together -/
def total (k : Nat) (l : Nat → List α) : Nat := ((List.range k).map (fun i => (l i).length)).sum
/-- elements that can still be added, to whichever list -/
def room (c : Cfg) (l : Nat → List α) : Nat := c.cap - total c.k l

/-- Effect of an operation on the contents of the lists, and what it reports. -/
def specStep (c : Cfg) (l : Nat → List α) : Op α → (Nat → List α) × Out
  | .assign i vs =>
      if c.dbg = true ∧ c.cap < vs.length then (l, .err .full)
      else (upd l i (vs.take (room c (upd l i []))), if vs.length ≤ room c (upd l i []) then .ok else .err .noAlloc)
  | .clear i => (upd l i [], .ok)
  | .resize i n v =>
      if c.cap < n then (l, .err .full)
      else if n ≤ (l i).length then (upd l i ((l i).take n), .ok)
      else (upd l i (l i ++ (List.replicate (n - (l i).length) v).take (room c l)), if n - (l i).length ≤ room c l then .ok else .err .full)
  | .pushFront i v => if 0 < room c l then (upd l i (v :: l i), .ok) else (l, .err (if c.check then .full else .noAlloc))
  | .pushBack i v => if 0 < room c l then (upd l i (l i ++ [v]), .ok) else (l, .err (if c.check then .full else .noAlloc))
  | .popFront i => if l i = [] then (l, .err .empty) else (upd l i (l i).tail, .ok)
  | .popBack i => if l i = [] then (l, .err .empty) else (upd l i (l i).dropLast, .ok)
  | .insert i p v => if 0 < room c l then (upd l i ((l i).take p ++ v :: (l i).drop p), .at p) else (l, .err .full)
  | .insertAll i p vs => (upd l i ((l i).take p ++ vs.take (room c l) ++ (l i).drop p), if vs.length ≤ room c l then .ok else .err .full)
  | .erase i p => (upd l i ((l i).eraseIdx p), .at p)
  | .eraseRange i p q => (upd l i ((l i).take p ++ (l i).drop q), .at p)
  | .removeIf i f => (upd l i ((l i).filter (fun x => !f x)), .ok)
  | .sort i lt => (upd l i (isort lt (l i)), .ok)
  | .copyAssign i j =>
      if i = j then (l, .ok)
      else (upd l i ((l j).take (room c (upd l i []))), if (l j).length ≤ room c (upd l i []) then .ok else .err .noAlloc)
  | .moveAssign i j => if i = j then (l, .ok) else (upd (upd l i (l j)) j [], .ok)
  | .splice i p j =>
      if (l j).length ≤ room c l then (upd (upd l i ((l i).take p ++ l j ++ (l i).drop p)) j [], .ok)
      else (upd l i ((l i).take p ++ (l j).take (room c l) ++ (l i).drop p), .err .full)
  | .spliceRange i p j a b =>
      if b - a ≤ room c l then (upd (upd l i ((l i).take p ++ ((l j).drop a).take (b - a) ++ (l i).drop p)) j ((l j).take a ++ (l j).drop b), .ok)
      else (upd l i ((l i).take p ++ (((l j).drop a).take (b - a)).take (room c l) ++ (l i).drop p), .err .full)
  | .spliceOne i p j a =>
      if 0 < room c l then (upd (upd l i ((l i).take p ++ ((l j).drop a).take 1 ++ (l i).drop p)) j ((l j).eraseIdx a), .ok)
      else (l, .err .full)

/-- Preconditions: the lists exist, iterators are valid, the comparison is a strict weak order, `pop` on an empty list only with `ETL_CHECK_PUSH_POP`, a splice is from
another list. -/
def Legal (c : Cfg) (l : Nat → List α) : Op α → Prop
  | .assign i _ | .clear i | .resize i _ _ | .pushFront i _ | .pushBack i _ | .removeIf i _ => i < c.k
  | .popFront i | .popBack i => i < c.k ∧ (c.check = true ∨ l i ≠ [])
  | .insert i p _ | .insertAll i p _ => i < c.k ∧ p ≤ (l i).length
  | .erase i p => i < c.k ∧ p < (l i).length
  | .eraseRange i p q => i < c.k ∧ p ≤ q ∧ q ≤ (l i).length
  | .sort i lt => i < c.k ∧ StrictWeak lt
  | .copyAssign i j | .moveAssign i j => i < c.k ∧ j < c.k
  | .splice i p j => i < c.k ∧ j < c.k ∧ i ≠ j ∧ p ≤ (l i).length
  | .spliceRange i p j a b => i < c.k ∧ j < c.k ∧ i ≠ j ∧ p ≤ (l i).length ∧ a ≤ b ∧ b ≤ (l j).length
  | .spliceOne i p j a => i < c.k ∧ j < c.k ∧ i ≠ j ∧ p ≤ (l i).length ∧ a < (l j).length

def specRun (c : Cfg) (l : Nat → List α) : List (Op α) → (Nat → List α) × List Out
  | [] => (l, [])
  | o :: os =>
    let (l', e) := specStep c l o
    let (l'', es) := specRun c l' os
    (l'', e :: es)

def LegalRun (c : Cfg) (l : Nat → List α) : List (Op α) → Prop
  | [] => True
  | o :: os => Legal c l o ∧ LegalRun c (specStep c l o).1 os

/-! ## What a user sees -/

/-- All values by backward iteration from `end()`. -/
def backward (s : St α) (i : Nat) : Res (List α) := do
  let ns ← s.h.walkBack (term i) (← s.h.prev (term i)) (s.cap + 1)
  ns.mapM (read s)
/-- `front()`, l.746; `back()`, l.768 (the list is not empty). -/
def front (s : St α) (i : Nat) : Res α := do read s (← s.h.next (term i))
def backv (s : St α) (i : Nat) : Res α := do read s (← s.h.prev (term i))

/-- Every observation of every list agrees with `l`; the items in use are exactly as many as there are elements in all lists together, and exactly these hold values. -/
structure Shows (c : Cfg) (s : St α) (l : Nat → List α) : Prop where
  fwd : ∀ i < c.k, values s i = .ok (l i)
  bwd : ∀ i < c.k, backward s i = .ok (l i).reverse
  size : ∀ i < c.k, size s i = .ok (l i).length
  empty : ∀ i < c.k, empty s i = .ok (decide (l i = []))
  front : ∀ i < c.k, ∀ v, (l i).head? = some v → front s i = .ok v
  back : ∀ i < c.k, ∀ v, (l i).getLast? = some v → backv s i = .ok v
  le : total c.k l ≤ c.cap
  full : full s = decide (total c.k l = c.cap)
  avail : available s = c.cap - total c.k l
  max : maxSize s = c.cap
  live : ((items c.k c.cap).map s.val).Perm (((List.range c.k).flatMap l).map Cell.live ++ List.replicate (c.cap - total c.k l) .raw)

/-! ## The invariant -/

/-- nodes of the lists other than `i` -/
def others (k : Nat) (ns : Nat → List Nat) (i : Nat) : List Nat := ((List.range k).filter (fun j => decide (j ≠ i))).flatMap ns

structure GInv (s : St α) (ns : Nat → List Nat) : Prop where
  circ : ∀ i < s.k, Circle s.h (term i) (ns i)
  pl : Pl s ((List.range s.k).flatMap ns)

theorem flatMap_perm {β : Type} (g : Nat → List β) (i : Nat) : ∀ (L : List Nat), L.Nodup → i ∈ L →
    (L.flatMap g).Perm (g i ++ (L.filter (fun j => decide (j ≠ i))).flatMap g)
  | [], _, h => by simp at h
  | a :: L, nd, h => by
    have nd' := List.nodup_cons.1 nd
    by_cases e : a = i
    · subst e
      have : (a :: L).filter (fun j => decide (j ≠ a)) = L := by
        rw [List.filter_cons]; simp only [ne_eq, not_true_eq_false, decide_false, Bool.false_eq_true, if_false]
        rw [List.filter_eq_self]
        intro x hx; simp; rintro rfl; exact nd'.1 hx
      rw [this]; simp
    · have hm : i ∈ L := by simpa [Ne.symm e] using h
      have ih := flatMap_perm g i L nd'.2 hm
      rw [List.filter_cons]
      simp only [ne_eq, e, not_false_eq_true, decide_true, if_true, List.flatMap_cons]
      refine (ih.append_left (g a)).trans ?_
      exact List.perm_append_comm_assoc _ _ _

theorem others_perm {β : Type} (g : Nat → List β) {k i : Nat} (hi : i < k) :
    ((List.range k).flatMap g).Perm (g i ++ ((List.range k).filter (fun j => decide (j ≠ i))).flatMap g) :=
  flatMap_perm g i _ List.nodup_range (List.mem_range.2 hi)

theorem mem_others {k i x : Nat} {ns : Nat → List Nat} : x ∈ others k ns i ↔ ∃ j, j < k ∧ j ≠ i ∧ x ∈ ns j := by
  simp only [others, List.mem_flatMap, List.mem_filter, List.mem_range, decide_eq_true_eq]
  constructor
  · rintro ⟨j, ⟨h1, h2⟩, h3⟩; exact ⟨j, h1, h2, h3⟩
  · rintro ⟨j, h1, h2, h3⟩; exact ⟨j, ⟨h1, h2⟩, h3⟩

theorem others_upd {k i : Nat} {ns : Nat → List Nat} {l : List Nat} : others k (upd ns i l) i = others k ns i := by
  unfold others
  rw [List.flatMap_def, List.flatMap_def]
  congr 1
  refine List.map_congr_left (fun x hx => ?_)
  have : x ≠ i := by simpa using (List.mem_filter.1 hx).2
  exact upd_other _ _ this

section
variable {s s' : St α} {ns : Nat → List Nat} {i : Nat}

theorem GInv.foc (g : GInv s ns) (hi : i < s.k) : Foc s (term i) (ns i) (others s.k ns i) :=
  ⟨g.circ i hi, g.pl.perm (others_perm ns hi), hi⟩

/-- Back to all lists after an operation on list `i`. -/
theorem GInv.unfoc (g : GInv s ns) (hi : i < s.k) {l' : List Nat} (f : Foc s' (term i) l' (others s.k ns i)) (sm : Same (term i) (others s.k ns i) s s') :
    GInv s' (upd ns i l') := by
  refine ⟨fun j hj => ?_, ?_⟩
  · rw [sm.k] at hj
    by_cases e : j = i
    · subst e; rw [upd_same]; exact f.circ
    · rw [upd_other _ _ e]
      refine circle_frame (g.circ j hj) sm.lim (fun x hx => ?_)
      have : s'.h.nx x = s.h.nx x ∧ s'.h.pv x = s.h.pv x ∧ s'.val x = s.val x := by
        refine sm.oth x ?_
        rcases List.mem_cons.1 hx with hx | hx
        · right; simp only [term] at hx ⊢; omega
        · left; exact mem_others.2 ⟨j, hj, e, hx⟩
      exact ⟨this.1, this.2.1⟩
  · rw [sm.k]
    refine f.pl.perm ?_
    have := (others_perm (upd ns i l') hi).symm
    rw [upd_same] at this
    refine List.Perm.trans ?_ this
    have e2 := others_upd (k := s.k) (i := i) (ns := ns) (l := l')
    unfold others at e2 ⊢
    rw [e2]
end

def Rep (s : St α) (l : Nat → List α) : Prop := ∃ ns, GInv s ns ∧ ∀ i < s.k, Vals s (ns i) (l i)
def cfgOf (s : St α) : Cfg := ⟨s.k, s.cap, s.check, s.dbg⟩
def Good (c : Cfg) (s : St α) (l : Nat → List α) : Prop := cfgOf s = c ∧ Rep s l

theorem Same.cfg {t : Nat} {R : List Nat} {s s' : St α} (h : Same t R s s') : cfgOf s' = cfgOf s := by
  simp [cfgOf, h.k, h.cap, h.check, h.dbg]

theorem total_eq {β : Type} {k : Nat} {ns : Nat → List β} {l : Nat → List α} (h : ∀ i < k, (ns i).length = (l i).length) : total k l = ((List.range k).flatMap ns).length := by
  unfold total
  rw [List.length_flatMap]
  congr 1
  refine List.map_congr_left (fun x hx => ?_)
  exact (h x (List.mem_range.1 hx)).symm

/-- The free items are the room left. -/
theorem free_room {s : St α} {ns : Nat → List Nat} {l : Nat → List α} (g : GInv s ns) (hv : ∀ i < s.k, Vals s (ns i) (l i)) :
    s.free.length = room (cfgOf s) l ∧ total s.k l + s.free.length = s.cap := by
  have h1 := total_eq (ns := ns) (l := l) (fun i hi => (hv i hi).len)
  have h2 := g.pl.len
  have : total s.k l + s.free.length = s.cap := by rw [h1]; exact h2
  refine ⟨?_, this⟩
  show s.free.length = s.cap - total s.k l
  omega

/-- outcome of an operation on the list in focus -/
def FDoes (s : St α) (t : Nat) (R : List Nat) (r : Res (St α × Out)) (l' : List α) (o : Out) : Prop :=
  ∃ s' ns', r = .ok (s', o) ∧ Foc s' t ns' R ∧ Same t R s s' ∧ Vals s' ns' l'

/-- outcome of an operation on all lists -/
def Does (s : St α) (r : Res (St α × Out)) (l' : Nat → List α) (o : Out) : Prop := ∃ s', r = .ok (s', o) ∧ Good (cfgOf s) s' l'

theorem back_all {s s' : St α} {ns : Nat → List Nat} {l : Nat → List α} {i : Nat} (g : GInv s ns) (hv : ∀ j < s.k, Vals s (ns j) (l j)) (hi : i < s.k)
    {ns' : List Nat} {l' : List α} (f : Foc s' (term i) ns' (others s.k ns i)) (sm : Same (term i) (others s.k ns i) s s') (v' : Vals s' ns' l') :
    GInv s' (upd ns i ns') ∧ (∀ j < s'.k, Vals s' (upd ns i ns' j) (upd l i l' j)) := by
  refine ⟨g.unfoc hi f sm, fun j hj => ?_⟩
  rw [sm.k] at hj
  by_cases e : j = i
  · subst e; rw [upd_same, upd_same]; exact v'
  · rw [upd_other _ _ e, upd_other _ _ e]
    exact (hv j hj).congr (fun y hy => (sm.oth y (Or.inl (mem_others.2 ⟨j, hj, e, hy⟩))).2.2)

theorem lift {s : St α} {l : Nat → List α} (h : Rep s l) {i : Nat} (hi : i < s.k) {r : Res (St α × Out)} {l' : List α} {o : Out}
    (hd : ∀ ns R, Foc s (term i) ns R → Vals s ns (l i) → s.free.length = room (cfgOf s) l → FDoes s (term i) R r l' o) : Does s r (upd l i l') o := by
  obtain ⟨ns, g, hv⟩ := h
  obtain ⟨s', ns', e, f, sm, v'⟩ := hd _ _ (g.foc hi) (hv i hi) (free_room g hv).1
  obtain ⟨g', hv'⟩ := back_all g hv hi f sm v'
  exact ⟨s', e, sm.cfg, _, g', hv'⟩

theorem Does.refl {s : St α} {l : Nat → List α} (h : Rep s l) {o : Out} : Does s (.ok (s, o)) l o := ⟨s, rfl, rfl, h⟩

/-! ## Each operation -/

section
variable {s : St α} {i : Nat} {ns R : List Nat} {l : List α}

/-- Splitting at a valid position. -/
theorem Foc.at (f : Foc s (term i) ns R) (hv : Vals s ns l) {p : Nat} (hp : p ≤ l.length) :
    ∃ A B, ns = A ++ B ∧ Vals s A (l.take p) ∧ Vals s B (l.drop p) ∧ A.length = p ∧ iter s i p = .ok (nodeAt (term i) B 0) := by
  have hv' := hv
  rw [← List.take_append_drop p l] at hv'
  obtain ⟨A, B, rfl, h1, h2⟩ := hv'.split
  have hA : A.length = p := by rw [h1.len, List.length_take]; omega
  refine ⟨A, B, rfl, h1, h2, hA, ?_⟩
  rw [iter_ok f (by rw [List.length_append]; omega), ← hA, nodeAt_app0]

theorem full_eq {U : List Nat} (p : Pl s U) : full s = decide (s.free = []) := by
  cases hf : full s with
  | true => exact (decide_eq_true (p.full_iff.1 hf)).symm
  | false => exact (decide_eq_false (fun x => by rw [p.full_iff.2 x] at hf; cases hf)).symm

theorem add_ok (f : Foc s (term i) ns R) (hv : Vals s ns l) {p : Nat} (hp : p ≤ l.length) (hf : s.free ≠ []) (v : α) :
    ∃ q s' n ns', iter s i p = .ok q ∧ addAt s q v = .ok (s', some n) ∧ Foc s' (term i) ns' R ∧ Same (term i) R s s' ∧ Vals s' ns' (l.take p ++ v :: l.drop p) ∧
      position s' i n = .ok p := by
  obtain ⟨A, B, rfl, hA, hB, lA, hit⟩ := f.at hv hp
  obtain ⟨s', n, e, f', sm, v1, v2, _⟩ := addAt_ok f hf v
  refine ⟨_, s', n, _, hit, e, f', sm, ?_, ?_⟩
  · have h1 : Vals s' A (l.take p) := hA.congr (fun y hy => v2 y (by simp [hy]))
    have h2 : Vals s' B (l.drop p) := hB.congr (fun y hy => v2 y (by simp [hy]))
    exact h1.append (by rw [Vals, List.map_cons, List.map_cons, v1, h2])
  · have := position_ok f' (p := A.length) (by simp)
    rwa [nodeAt_mid, lA] at this

theorem iter_first (f : Foc s (term i) ns R) : iter s i 0 = .ok (s.h.nx (term i)) ∧ s.h.next (term i) = .ok (s.h.nx (term i)) := by
  refine ⟨?_, next_ok f.circ.tv⟩
  rw [iter_ok f (Nat.zero_le _), f.circ.first]
theorem iter_end (f : Foc s (term i) ns R) (hv : Vals s ns l) : iter s i l.length = .ok (term i) := by
  rw [iter_ok f (by rw [hv.len]; exact Nat.le_refl _), nodeAt_len (by rw [hv.len]; exact Nat.le_refl _)]

theorem pushFront_ok (f : Foc s (term i) ns R) (hv : Vals s ns l) (hf : s.free ≠ []) (v : α) : FDoes s (term i) R (pushFront s i v) (v :: l) .ok := by
  obtain ⟨q, s', n, ns', e1, e2, f', sm, v', _⟩ := add_ok f hv (Nat.zero_le _) hf v
  rw [(iter_first f).1] at e1; cases e1
  refine ⟨s', ns', ?_, f', sm, by simpa using v'⟩
  simp [pushFront, full_eq f.pl, hf, (iter_first f).2, e2, bind, Except.bind, pushOut]

theorem pushBack_ok (f : Foc s (term i) ns R) (hv : Vals s ns l) (hf : s.free ≠ []) (v : α) : FDoes s (term i) R (pushBack s i v) (l ++ [v]) .ok := by
  obtain ⟨q, s', n, ns', e1, e2, f', sm, v', _⟩ := add_ok f hv (Nat.le_refl _) hf v
  rw [iter_end f hv] at e1; cases e1
  refine ⟨s', ns', ?_, f', sm, by simpa using v'⟩
  simp [pushBack, full_eq f.pl, hf, e2, bind, Except.bind, pushOut]

theorem push_full {U : List Nat} (p : Pl s U) (hf : s.free = []) (htv : s.h.valid (term i)) (v : α) :
    pushFront s i v = .ok (s, .err (if s.check then .full else .noAlloc)) ∧ pushBack s i v = .ok (s, .err (if s.check then .full else .noAlloc)) := by
  cases hc : s.check <;> simp [pushFront, pushBack, full_eq p, hf, hc, addAt_full, next_ok htv, bind, Except.bind, pushOut]

theorem erase_at (f : Foc s (term i) ns R) (hv : Vals s ns l) {p : Nat} (hp : p < l.length) :
    ∃ x s' ns' q, iter s i p = .ok x ∧ removeNode s x = .ok s' ∧ erase s x = .ok (s', q) ∧ Foc s' (term i) ns' R ∧ Same (term i) R s s' ∧ Vals s' ns' (l.eraseIdx p) ∧
      position s' i q = .ok p := by
  obtain ⟨A, B, rfl, hA, hB, lA, hit⟩ := f.at hv (Nat.le_of_lt hp)
  rw [List.drop_eq_getElem_cons hp] at hB
  obtain ⟨x, N, rfl, hx, hN⟩ := hB.cons_split
  have hx0 : nodeAt (term i) (x :: N) 0 = x := by simp [nodeAt]
  rw [hx0] at hit
  obtain ⟨s1, e1, f1, sm1, v1⟩ := removeNode_ok f
  obtain ⟨s2, e2, f2, sm2, v2⟩ := erase_ok f
  have e3 := e2
  have hs : s2 = s1 := by
    simp only [erase, bind, Except.bind] at e3
    have hxv := f.valid (x := x) (by simp)
    have i2 : Foc s (term i) ((A ++ [x]) ++ N) R := by simpa using f
    have hq := getLast_eq_pv i2.circ
    rw [show (term i :: (A ++ [x])).getLast (by simp) = x from getLast_cons_concat _ _ _ _] at hq
    rw [next_ok hxv, f.nx_mid] at e3
    simp only [prev_ok i2.valid_at, hq, e1, Except.ok.injEq, Prod.mk.injEq] at e3
    exact e3.1.symm
  subst hs
  refine ⟨x, s2, A ++ N, _, hit, e1, e2, f2, sm2, ?_, ?_⟩
  · rw [List.eraseIdx_eq_take_drop_succ]
    exact (hA.congr (fun y hy => v2 y (by simp [hy]))).append (hN.congr (fun y hy => v2 y (by simp [hy])))
  · have := position_ok f2 (p := A.length) (by simp)
    rwa [nodeAt_app0, lA] at this

theorem popFront_ok (f : Foc s (term i) ns R) (hv : Vals s ns l) (hne : l ≠ []) : FDoes s (term i) R (popFront s i) l.tail .ok := by
  have h0 : 0 < l.length := List.length_pos_iff.2 hne
  obtain ⟨x, s', ns', q, e1, e2, _, f', sm, v', _⟩ := erase_at f hv h0
  rw [(iter_first f).1] at e1; cases e1
  have hns : ns ≠ [] := by rintro rfl; have := hv.len; simp at this; omega
  refine ⟨s', ns', ?_, f', sm, by simpa using v'⟩
  simp [popFront, empty_ok f, hns, (iter_first f).2, e2, bind, Except.bind]

theorem popBack_ok (f : Foc s (term i) ns R) (hv : Vals s ns l) (hne : l ≠ []) : FDoes s (term i) R (popBack s i) l.dropLast .ok := by
  have h0 : 0 < l.length := List.length_pos_iff.2 hne
  have hns : ns ≠ [] := by rintro rfl; have := hv.len; simp at this; omega
  obtain ⟨x, s', ns', q, e1, e2, _, f', sm, v', _⟩ := erase_at f hv (p := l.length - 1) (by omega)
  have hpv : s.h.pv (term i) = x := by
    rw [iter_ok f (by rw [hv.len]; omega)] at e1
    have := f.circ.pv_at (Nat.le_refl ns.length)
    rw [nodeAt_len (Nat.le_refl _), if_neg (by rw [hv.len]; omega), hv.len] at this
    rw [this]; cases e1; rfl
  refine ⟨s', ns', ?_, f', sm, by rw [List.eraseIdx_length_sub_one] at v'; exact v'⟩
  simp [popBack, empty_ok f, hns, prev_ok f.circ.tv, hpv, e2, bind, Except.bind]

theorem pop_empty (f : Foc s (term i) ns R) (hv : Vals s ns ([] : List α)) (hc : s.check = true) :
    popFront s i = .ok (s, .err .empty) ∧ popBack s i = .ok (s, .err .empty) := by
  have := hv.nil_split; subst this
  simp [popFront, popBack, empty_ok f, hc, bind, Except.bind]

theorem insertAll_foc (f : Foc s (term i) ns R) (hv : Vals s ns l) {p : Nat} (hp : p ≤ l.length) (vs : List α) :
    ∃ q, iter s i p = .ok q ∧ FDoes s (term i) R (insertAll s q vs) (l.take p ++ vs.take s.free.length ++ l.drop p) (if vs.length ≤ s.free.length then .ok else .err .full) := by
  obtain ⟨A, B, rfl, hA, hB, lA, hit⟩ := f.at hv hp
  obtain ⟨s', N, e, f', sm, v1, v2⟩ := insertAll_ok vs f
  refine ⟨_, hit, s', _, e, f', sm, ?_⟩
  exact ((hA.congr (fun y hy => v2 y (by simp [hy]))).append v1).append (hB.congr (fun y hy => v2 y (by simp [hy])))

theorem eraseRange_foc (f : Foc s (term i) ns R) (hv : Vals s ns l) {p q : Nat} (hpq : p ≤ q) (hq : q ≤ l.length) :
    ∃ a b s' ns', iter s i p = .ok a ∧ iter s i q = .ok b ∧ eraseRange s a b = .ok s' ∧ Foc s' (term i) ns' R ∧ Same (term i) R s s' ∧ Vals s' ns' (l.take p ++ l.drop q) ∧
      position s' i b = .ok p := by
  obtain ⟨A, B0, rfl, hA, hB, lA, hit⟩ := f.at hv (Nat.le_trans hpq hq)
  have hB' := hB
  rw [← List.take_append_drop (q - p) (l.drop p), List.drop_drop, show p + (q - p) = q by omega] at hB'
  obtain ⟨M, B, rfl, hM, hBB⟩ := hB'.split
  have lM : M.length = q - p := by rw [hM.len, List.length_take, List.length_drop]; omega
  have f2 : Foc s (term i) (A ++ M ++ B) R := by simpa using f
  obtain ⟨s', e, f', sm, v'⟩ := eraseRange_ok f2
  refine ⟨_, nodeAt (term i) B 0, s', _, hit, ?_, e, f', sm, ?_, ?_⟩
  · have := iter_ok f2 (p := q) (by simp only [List.length_append]; omega)
    rw [this]; congr 1
    have h1 : q = (A ++ M).length := by simp only [List.length_append]; omega
    rw [h1, nodeAt_app0]
  · exact (hA.congr (fun y hy => v' y (by simp [hy]))).append (hBB.congr (fun y hy => v' y (by simp [hy])))
  · have := position_ok f' (p := A.length) (by simp)
    rwa [nodeAt_app0, lA] at this

theorem removeIf_ok (g : α → Bool) (f : Foc s (term i) ns R) (hv : Vals s ns l) : FDoes s (term i) R (removeIf g s i) (l.filter (fun x => !g x)) .ok := by
  have f0 : Foc s (term i) ([] ++ ns) R := f
  obtain ⟨s', B', e, f', sm, v1, _⟩ := removeLoop_ok g (s.cap + 1) f0 hv (by have := f.len; rw [hv.len] at this; omega)
  refine ⟨s', B', ?_, f', sm, v1⟩
  simp only [removeIf, next_ok f.circ.tv, f.circ.first, e, bind, Except.bind]

theorem live_inj : Function.Injective (Cell.live : α → Cell α) := fun a b h => by cases h; rfl

theorem sort_ok (f : Foc s (term i) ns R) (hv : Vals s ns l) {lt : α → α → Bool} (ho : StrictWeak lt) : FDoes s (term i) R (sort lt s i) (isort lt l) .ok := by
  have hsz := size_ok f
  rw [hv.len] at hsz
  by_cases h2 : l.length < 2
  · have : isort lt l = l := by
      rcases l with _ | ⟨a, _ | ⟨b, l⟩⟩
      · rfl
      · rfl
      · exact absurd h2 (by simp)
    refine ⟨s, ns, ?_, f, Same.refl s, by rw [this]; exact hv⟩
    simp [sort, hsz, h2, bind, Except.bind]
  · obtain ⟨d, l0, rfl⟩ : ∃ d l0, l = d :: l0 := by
      cases l with
      | nil => simp at h2
      | cons d l0 => exact ⟨d, l0, rfl⟩
    let vf : Nat → α := fun n => match s.val n with | .live v => v | _ => d
    have hvf : ∀ x ∈ ns, s.val x = .live (vf x) := by
      intro x hx
      have : s.val x ∈ ns.map s.val := List.mem_map_of_mem hx
      rw [hv] at this
      obtain ⟨v, _, e⟩ := List.mem_map.1 this
      simp only [vf, ← e]
    have hmap : ns.map vf = d :: l0 := by
      have : ns.map s.val = (ns.map vf).map Cell.live := by rw [List.map_map]; exact List.map_congr_left hvf
      rw [hv] at this
      exact ((List.map_inj_right (fun _ _ h => live_inj h)).1 this).symm
    have hne : ns ≠ [] := by rintro rfl; simp at hmap
    obtain ⟨h', l', e, hl, hc, hs, hfr⟩ := sortLinks_ok (cmp := cmpNodes lt s) (ho.comap vf) f.circ hne (fun x hx y hy => by
      simp [cmpNodes, f.read hx (hvf x hx), f.read hy (hvf y hy), bind, Except.bind]) (by have := f.len; rw [f.pl.lim]; omega)
    refine ⟨{ s with h := h' }, l', ?_, ⟨hc, (f.pl.links hl).perm (hs.perm.symm.append_right R), f.tk⟩, ⟨rfl, rfl, rfl, rfl, hl, fun x hx => ?_⟩, ?_⟩
    · simp only [sort, hsz, if_neg h2, e, bind, Except.bind]
    · have := hfr x (f.oth_ne hx).1
      exact ⟨this.1, this.2, rfl⟩
    · have h3 := (IsStableSort.map ho vf hs).eq_isort ho
      rw [hmap] at h3
      rw [← h3]
      show l'.map s.val = (l'.map vf).map Cell.live
      rw [List.map_map]
      exact List.map_congr_left (fun x hx => hvf x (hs.perm.mem_iff.1 hx))

theorem mapM_read (f : Foc s (term i) ns R) : ∀ {N : List Nat} {l : List α}, (∀ x ∈ N, x ∈ ns) → Vals s N l → N.mapM (read s) = .ok l
  | N, [], _, hv => by have := hv.nil_split; subst this; rfl
  | N, v :: l, hN, hv => by
    obtain ⟨x, N', rfl, hx, hv'⟩ := hv.cons_split
    rw [List.mapM_cons, f.read (hN x (by simp)) hx]
    simp only [bind, Except.bind]
    rw [mapM_read f (fun y hy => hN y (by simp [hy])) hv']; rfl

theorem values_ok (f : Foc s (term i) ns R) (hv : Vals s ns l) : values s i = .ok l := by
  have hw := f.circ.walk (s.cap + 1) 0 (Nat.zero_le _) (by have := f.len; omega)
  rw [← f.circ.first, List.drop_zero] at hw
  simp only [values, next_ok f.circ.tv, hw, bind, Except.bind]
  exact mapM_read f (fun x hx => hx) hv

theorem resize_ok (f : Foc s (term i) ns R) (hv : Vals s ns l) (n : Nat) (v : α) (hn : n ≤ s.cap) :
    FDoes s (term i) R (resize s i n v) (if n ≤ l.length then l.take n else l ++ (List.replicate (n - l.length) v).take s.free.length)
      (if n ≤ l.length then .ok else if n - l.length ≤ s.free.length then .ok else .err .full) := by
  have hsz := size_ok f
  rw [hv.len] at hsz
  by_cases h0 : n = 0
  · subst h0
    obtain ⟨s', e, f', sm⟩ := initialise_ok f
    refine ⟨s', [], ?_, f', sm, by simp [Vals]⟩
    simp [resize, e, bind, Except.bind]
  · by_cases h1 : n < l.length
    · obtain ⟨a, b, s', ns', e1, e2, e3, f', sm, v', _⟩ := eraseRange_foc f hv (Nat.le_of_lt h1) (Nat.le_refl _)
      rw [iter_end f hv] at e2; cases e2
      refine ⟨s', ns', ?_, f', sm, ?_⟩
      · have hb := back_ok f (l.length - n) ns.length (by rw [hv.len]; omega) (Nat.le_refl _)
        rw [nodeAt_len (Nat.le_refl _), hv.len, show l.length - (l.length - n) = n by omega] at hb
        rw [iter_ok f (by rw [hv.len]; omega)] at e1
        cases e1
        simp only [resize, if_pos hn, if_neg h0, hsz, if_pos h1, hb, e3, bind, Except.bind, if_pos (Nat.le_of_lt h1)]
      · rw [if_pos (Nat.le_of_lt h1)]; simpa using v'
    · by_cases h2 : n > l.length
      · obtain ⟨q, e1, s', ns', e2, f', sm, v'⟩ := insertAll_foc f hv (Nat.le_refl _) (List.replicate (n - l.length) v)
        rw [iter_end f hv] at e1; cases e1
        refine ⟨s', ns', ?_, f', sm, ?_⟩
        · simp only [resize, if_pos hn, if_neg h0, hsz, if_neg h1, if_pos h2, e2, bind, Except.bind, List.length_replicate]
          rw [if_neg (show ¬ n ≤ l.length by omega)]
        · rw [if_neg (by omega)]; simpa using v'
      · have h3 : n = l.length := by omega
        refine ⟨s, ns, ?_, f, Same.refl s, ?_⟩
        · simp only [resize, if_pos hn, if_neg h0, hsz, if_neg h1, if_neg h2, bind, Except.bind]
          rw [if_pos (by omega)]
        · rw [if_pos (by omega), h3, List.take_length]; exact hv

end

/-! ## Operations on all lists -/

theorem room_upd {s : St α} {l : Nat → List α} {ns : Nat → List Nat} {i : Nat} (g : GInv s ns) (hv : ∀ j < s.k, Vals s (ns j) (l j)) :
    ∀ {s' : St α}, GInv s' (upd ns i []) → s'.k = s.k → s'.cap = s.cap → s'.check = s.check → s'.dbg = s.dbg → (∀ j < s'.k, Vals s' (upd ns i [] j) (upd l i [] j)) →
      s'.free.length = room (cfgOf s) (upd l i []) := by
  intro s' g' h1 h2 h3 h4 hv'
  have := (free_room g' hv').1
  rw [this]; simp [cfgOf, h1, h2, h3, h4]

theorem assign_ok {s : St α} {l : Nat → List α} (h : Rep s l) {i : Nat} (hi : i < s.k) (vs : List α) (hd : ¬ (s.dbg = true ∧ s.cap < vs.length)) :
    Does s (assign s i vs) (upd l i (vs.take (room (cfgOf s) (upd l i [])))) (if vs.length ≤ room (cfgOf s) (upd l i []) then .ok else .err .noAlloc) := by
  obtain ⟨ns, g, hv⟩ := h
  obtain ⟨s1, e1, f1, sm1⟩ := initialise_ok (g.foc hi)
  have v1 : Vals s1 [] ([] : List α) := by simp [Vals]
  obtain ⟨g1, hv1⟩ := back_all g hv hi f1 sm1 v1
  have hfr := room_upd g hv g1 sm1.k sm1.cap sm1.check sm1.dbg hv1
  obtain ⟨s2, N, e2, f2, sm2, v2, _⟩ := appendAll_eq i vs f1
  rw [hfr] at e2 v2
  obtain ⟨g2, hv2⟩ := back_all g hv hi f2 (sm1.trans sm2) (l' := vs.take (room (cfgOf s) (upd l i []))) (by simpa using v2)
  refine ⟨s2, ?_, (sm1.trans sm2).cfg, _, g2, hv2⟩
  have hb : (s.dbg && decide (vs.length > s.cap)) = false := by
    rw [Bool.and_eq_false_iff]
    by_cases hd1 : s.dbg = true
    · right; exact decide_eq_false (fun x => hd ⟨hd1, x⟩)
    · left; simpa using hd1
  unfold assign
  rw [hb, if_neg (by simp)]
  simp only [e1, e2, bind, Except.bind]

theorem assign_dbg {s : St α} {i : Nat} (vs : List α) (hd : s.dbg = true ∧ s.cap < vs.length) : assign s i vs = .ok (s, .err .full) := by
  unfold assign; rw [hd.1, Bool.true_and, if_pos (by simpa using hd.2)]

theorem upd_self {β : Type} (l : Nat → β) (i : Nat) : upd l i (l i) = l := by
  funext j; by_cases e : j = i
  · subst e; simp
  · exact upd_other _ _ e

theorem walk_seg {s : St α} {t : Nat} {R : List Nat} : ∀ (k : Nat) {A M B : List Nat}, Foc s t (A ++ M ++ B) R → M.length < k →
    s.h.walk (nodeAt t B 0) (nodeAt t (M ++ B) 0) k = .ok M
  | 0, _, _, _, _, h => by omega
  | k + 1, A, [], B, i, _ => by simp [Links.walk]
  | k + 1, A, m :: M, B, i, h => by
    have i' : Foc s t (A ++ m :: (M ++ B)) R := by simpa using i
    have hne : m ≠ nodeAt t B 0 := by
      cases B with
      | nil => exact i.neT (by simp)
      | cons b B =>
        simp only [nodeAt, List.getElem?_cons_zero, Option.getD_some]
        rintro rfl
        have hnd := i'.nodup
        exact (List.nodup_cons.1 (List.nodup_append.1 hnd).2.1).1 (by simp)
    have := walk_seg k (A := A ++ [m]) (M := M) (B := B) (by simpa using i) (by simp at h; omega)
    show s.h.walk (nodeAt t B 0) m (k + 1) = _
    unfold Links.walk
    rw [if_neg hne]
    simp only [next_ok (i.valid (x := m) (by simp)), i'.nx_mid, this, bind, Except.bind]

/-- the range `[a, b)` of list `j`, by iteration -/
theorem range_ok {s : St α} {j : Nat} {ns R : List Nat} {l : List α} (f : Foc s (term j) ns R) (hv : Vals s ns l) {a b : Nat} (hab : a ≤ b) (hb : b ≤ l.length) :
    ∃ N, s.h.walk (nodeAt (term j) ns b) (nodeAt (term j) ns a) (s.cap + 1) = .ok N ∧ N.mapM (read s) = .ok ((l.drop a).take (b - a)) := by
  have hv' := hv
  rw [← List.take_append_drop a l] at hv'
  obtain ⟨A, B0, rfl, hA, hB⟩ := hv'.split
  rw [← List.take_append_drop (b - a) (l.drop a), List.drop_drop, show a + (b - a) = b by omega] at hB
  obtain ⟨M, B, rfl, hM, hBB⟩ := hB.split
  have lA : A.length = a := by rw [hA.len, List.length_take]; omega
  have lM : M.length = b - a := by rw [hM.len, List.length_take, List.length_drop]; omega
  have f2 : Foc s (term j) (A ++ M ++ B) R := by simpa using f
  have hw := walk_seg (s.cap + 1) f2 (by have := f2.len; simp only [List.length_append] at this; omega)
  refine ⟨M, ?_, mapM_read f (fun x hx => by simp [hx]) hM⟩
  have e1 : nodeAt (term j) (A ++ (M ++ B)) a = nodeAt (term j) (M ++ B) 0 := by rw [← lA, nodeAt_app0]
  have e2 : nodeAt (term j) (A ++ (M ++ B)) b = nodeAt (term j) B 0 := by
    rw [← List.append_assoc, show b = (A ++ M).length by simp only [List.length_append]; omega, nodeAt_app0]
  rw [e1, e2]; exact hw

theorem upd_comm {β : Type} (l : Nat → β) {i j : Nat} (h : i ≠ j) (x y : β) : upd (upd l i x) j y = upd (upd l j y) i x := by
  funext m
  by_cases e1 : m = i
  · subst e1; rw [upd_other _ _ h]; simp
  · by_cases e2 : m = j
    · subst e2; rw [upd_same, upd_other _ _ e1, upd_same]
    · rw [upd_other _ _ e2, upd_other _ _ e1, upd_other _ _ e1, upd_other _ _ e2]

/-- `splice` of a range of another list. -/
theorem spliceRange_ok {s : St α} {l : Nat → List α} (h : Rep s l) {i j p a b : Nat} (hi : i < s.k) (hj : j < s.k) (hij : i ≠ j) (hp : p ≤ (l i).length) (hab : a ≤ b) (hb : b ≤ (l j).length) :
    ∃ to first last, iter s i p = .ok to ∧ iter s j a = .ok first ∧ iter s j b = .ok last ∧
      Does s (spliceRange s to first last) (specStep (cfgOf s) l (.spliceRange i p j a b)).1 (specStep (cfgOf s) l (.spliceRange i p j a b)).2 := by
  obtain ⟨ns, g, hv⟩ := h
  have fi := g.foc hi
  have fj := g.foc hj
  have hfree := (free_room g hv).1
  have lj := (hv j hj).len
  obtain ⟨N, w1, w2⟩ := range_ok fj (hv j hj) hab hb
  obtain ⟨to, e1, s1, ni, e2, f1, sm1, v1⟩ := insertAll_foc fi (hv i hi) hp (((l j).drop a).take (b - a))
  obtain ⟨g1, hv1⟩ := back_all g hv hi f1 sm1 v1
  have ia := iter_ok fj (p := a) (by omega)
  have ib := iter_ok fj (p := b) (by omega)
  refine ⟨to, _, _, e1, ia, ib, ?_⟩
  have hlen : (((l j).drop a).take (b - a)).length = b - a := by rw [List.length_take, List.length_drop]; omega
  rw [hlen, hfree] at e2
  rw [hfree] at hv1
  by_cases hr : b - a ≤ room (cfgOf s) l
  · rw [if_pos hr] at e2
    have hj1 : j < s1.k := by rw [sm1.k]; exact hj
    have fj1 := g1.foc hj1
    have vj1 := hv1 j hj1
    rw [upd_other _ _ (Ne.symm hij)] at fj1 vj1
    rw [upd_other _ _ (Ne.symm hij)] at vj1
    obtain ⟨a', b', s2, nj, x1, x2, x3, f2, sm2, v2, _⟩ := eraseRange_foc fj1 vj1 hab hb
    rw [iter_ok fj1 (by omega)] at x1 x2
    cases x1; cases x2
    have hvj1' : ∀ m < s1.k, Vals s1 (upd ns i ni m) (upd l i ((l i).take p ++ (((l j).drop a).take (b - a)).take (room (cfgOf s) l) ++ (l i).drop p) m) := hv1
    obtain ⟨g2, hv2⟩ := back_all g1 hvj1' hj1 f2 sm2 v2
    have ht : (((l j).drop a).take (b - a)).take (room (cfgOf s) l) = ((l j).drop a).take (b - a) := List.take_of_length_le (by rw [hlen]; exact hr)
    rw [ht] at hv2
    refine ⟨s2, ?_, sm2.cfg.trans sm1.cfg, ?_⟩
    · simp only [spliceRange, w1, w2, e2, x3, bind, Except.bind, specStep, if_pos hr]
    · simp only [specStep, if_pos hr]; exact ⟨_, g2, hv2⟩
  · rw [if_neg hr] at e2
    refine ⟨s1, ?_, sm1.cfg, ?_⟩
    · simp only [spliceRange, w1, w2, e2, bind, Except.bind, specStep, if_neg hr]
    · simp only [specStep, if_neg hr]; exact ⟨_, g1, hv1⟩

theorem spliceOne_ok {s : St α} {l : Nat → List α} (h : Rep s l) {i j p a : Nat} (hi : i < s.k) (hj : j < s.k) (hij : i ≠ j) (hp : p ≤ (l i).length) (ha : a < (l j).length) :
    ∃ to from_, iter s i p = .ok to ∧ iter s j a = .ok from_ ∧
      Does s (spliceOne s to from_) (specStep (cfgOf s) l (.spliceOne i p j a)).1 (specStep (cfgOf s) l (.spliceOne i p j a)).2 := by
  obtain ⟨ns, g, hv⟩ := h
  have fi := g.foc hi
  have fj := g.foc hj
  have hfree := (free_room g hv).1
  have lj := (hv j hj).len
  have ia := iter_ok fj (p := a) (by omega)
  have hal : a < (ns j).length := by omega
  rw [nodeAt_lt hal] at ia
  have hval : s.val ((ns j)[a]) = .live ((l j)[a]) := by
    have h1 : ((ns j).map s.val)[a]? = ((l j).map Cell.live)[a]? := by rw [hv j hj]
    rw [List.getElem?_map, List.getElem?_map, List.getElem?_eq_getElem hal, List.getElem?_eq_getElem ha] at h1
    simpa using h1
  have hrd := fj.read (List.getElem_mem hal) hval
  by_cases hf : s.free = []
  · have hr : ¬ 0 < room (cfgOf s) l := by rw [← hfree, hf]; simp
    obtain ⟨A, B, _, _, _, _, hit⟩ := fi.at (hv i hi) hp
    refine ⟨_, _, hit, ia, s, ?_, rfl, ?_⟩
    · have hful := full_eq g.pl
      simp only [spliceOne, hrd, insert, hful, hf, decide_true, if_true, bind, Except.bind, specStep, if_neg hr]
    · simp only [specStep, if_neg hr]; exact ⟨ns, g, hv⟩
  · have hr : 0 < room (cfgOf s) l := by rw [← hfree]; exact List.length_pos_iff.2 hf
    obtain ⟨to, s1, n, ni, e1, e2, f1, sm1, v1, _⟩ := add_ok fi (hv i hi) hp hf ((l j)[a])
    obtain ⟨g1, hv1⟩ := back_all g hv hi f1 sm1 v1
    have hj1 : j < s1.k := by rw [sm1.k]; exact hj
    have fj1 := g1.foc hj1
    have vj1 := hv1 j hj1
    rw [upd_other _ _ (Ne.symm hij)] at fj1 vj1
    rw [upd_other _ _ (Ne.symm hij)] at vj1
    obtain ⟨x, s2, nj, q, x1, _, x3, f2, sm2, v2, _⟩ := erase_at fj1 vj1 ha
    rw [iter_ok fj1 (by omega), nodeAt_lt hal] at x1
    cases x1
    obtain ⟨g2, hv2⟩ := back_all g1 hv1 hj1 f2 sm2 v2
    refine ⟨to, _, e1, ia, s2, ?_, sm2.cfg.trans sm1.cfg, ?_⟩
    · have hful := full_eq g.pl
      simp only [spliceOne, hrd, insert, hful, hf, decide_false, Bool.false_eq_true, if_false, e2, x3, bind, Except.bind, specStep, if_pos hr]
    · have ht : ((l j).drop a).take 1 = [(l j)[a]] := by rw [List.drop_eq_getElem_cons (l := l j) (i := a) ha]; rfl
      simp only [specStep, if_pos hr, ht]
      refine ⟨_, g2, ?_⟩
      simpa using hv2

theorem nodeAt_head (t : Nat) {l : List Nat} (h : l ≠ []) : nodeAt t l 0 = l.head h := by
  cases l with
  | nil => exact absurd rfl h
  | cons a l => rfl

theorem moveAssign_ok {s : St α} {l : Nat → List α} (h : Rep s l) {i j : Nat} (hi : i < s.k) (hj : j < s.k) (hij : i ≠ j) :
    Does s (moveAssign s i j) (upd (upd l i (l j)) j []) .ok := by
  obtain ⟨ns, g, hv⟩ := h
  obtain ⟨s1, e1, f1, sm1⟩ := initialise_ok (g.foc hi)
  have v1 : Vals s1 [] ([] : List α) := by simp [Vals]
  obtain ⟨g1, hv1⟩ := back_all g hv hi f1 sm1 v1
  have hi1 : i < s1.k := by rw [sm1.k]; exact hi
  have hj1 : j < s1.k := by rw [sm1.k]; exact hj
  have fj := g1.foc hj1
  have vj := hv1 j hj1
  rw [upd_other _ _ (Ne.symm hij)] at fj vj
  rw [upd_other _ _ (Ne.symm hij)] at vj
  by_cases h0 : ns j = []
  · have hl0 : l j = [] := by
      have := vj.len; rw [h0] at this; exact List.eq_nil_of_length_eq_zero this.symm
    refine ⟨s1, ?_, sm1.cfg, _, g1, fun m hm => ?_⟩
    · simp only [moveAssign, if_neg hij, e1, empty_ok fj, h0, decide_true, if_true, bind, Except.bind]
    · have e : upd (upd l i (l j)) j [] = upd l i [] := by
        rw [hl0]
        funext m
        by_cases e2 : m = j
        · subst e2; rw [upd_same, upd_other _ _ (Ne.symm hij), hl0]
        · rw [upd_other _ _ e2]
      rw [e]; exact hv1 m hm
  · obtain ⟨x, L, hL⟩ := List.exists_cons_of_ne_nil h0
    have ci : Circle s1.h (term i) ([] ++ []) := by have := g1.circ i hi1; rw [upd_same] at this; exact this
    have hit : term i ≠ term j := by simp only [term]; omega
    have hbL : ∀ y ∈ ns j, s1.k < y := fun y hy => fj.bk hy
    have hti : term i ∉ ns j := fun y => by have := hbL _ y; simp only [term] at this; omega
    have htj : term j ∉ ns j := fun y => by have := hbL _ y; simp only [term] at this; omega
    have hchL : Ch s1.h (ns j) := by
      have := fj.circ.ch
      exact (Ch.tail (a := term j) (by simpa using this)).left
    obtain ⟨q1, q2, q3, q4, q5⟩ := ci.insertSeg (N := ns j) (f := (ns j).head h0) (e := (ns j).getLast h0) h0 rfl rfl hchL
      (by simp only [List.append_nil, List.cons_append, List.nil_append, List.nodup_cons]; exact ⟨hti, fj.nodup⟩) (fun y hy => fj.valid hy)
    have hq : nodeAt (term i) ([] ++ ([] : List Nat)) ([] : List Nat).length = term i := rfl
    have hpv : s1.h.pv (term i) = term i := by have := ci.last; simpa using this
    replace q1 : s1.h.valid (s1.h.pv (term i)) := q1
    replace q2 : s1.h.valid (term i) := q2
    replace q5 : Circle ((s1.h.joined (s1.h.pv (term i)) ((ns j).head h0)).joined ((ns j).getLast h0) (term i)) (term i) ([] ++ ns j ++ []) := q5
    rw [hpv] at q1 q5
    rw [List.nil_append, List.append_nil] at q5
    have hnx : s1.h.nx (term j) = (ns j).head h0 := by rw [fj.circ.first, nodeAt_head]
    have hpj : s1.h.pv (term j) = (ns j).getLast h0 := by rw [fj.circ.last, List.getLast_cons h0]
    have hhm : (ns j).head h0 ∈ ns j := List.head_mem _
    have hlm : (ns j).getLast h0 ∈ ns j := List.getLast_mem _
    have hjh : term j ≠ (ns j).head h0 := fun e => htj (e ▸ hhm)
    let h2 : Links := (s1.h.joined (term i) ((ns j).head h0)).joined ((ns j).getLast h0) (term i)
    let h3 : Links := h2.joined (term j) (term j)
    have hjv : s1.h.valid (term j) := fj.circ.tv
    have hrun : moveAssign s i j = .ok ({ s1 with h := h3 }, .ok) := by
      simp only [moveAssign, if_neg hij, e1, empty_ok fj, h0, decide_false, bind, Except.bind, next_ok hjv, hnx, join_ok q2 q3]
      simp only [Bool.false_eq_true, if_false]
      rw [prev_ok (by exact hjv)]
      have : (s1.h.joined (term i) ((ns j).head h0)).pv (term j) = (ns j).getLast h0 := by
        show upd s1.h.pv _ _ _ = _
        rw [upd_other _ _ hjh, hpj]
      simp only [this]
      rw [join_ok (by exact q4) (by exact q2)]
      simp only
      rw [join_ok (by exact hjv) (by exact hjv)]
    have n3 : ∀ y, y ≠ term i → y ≠ term j → y ≠ (ns j).getLast h0 → h3.nx y = s1.h.nx y := by
      intro y y1 y2 y3
      show upd (upd (upd s1.h.nx _ _) _ _) _ _ y = _
      rw [upd_other _ _ y2, upd_other _ _ y3, upd_other _ _ y1]
    have p3 : ∀ y, y ≠ term i → y ≠ term j → y ≠ (ns j).head h0 → h3.pv y = s1.h.pv y := by
      intro y y1 y2 y3
      show upd (upd (upd s1.h.pv _ _) _ _) _ _ y = _
      rw [upd_other _ _ y2, upd_other _ _ y1, upd_other _ _ y3]
    refine ⟨{ s1 with h := h3 }, hrun, sm1.cfg, upd (upd ns i (ns j)) j [], ⟨fun m hm => ?_, ?_⟩, fun m hm => ?_⟩
    · have hm' : m < s1.k := hm
      by_cases em : m = j
      · subst em; rw [upd_same]
        refine ⟨⟨by simp [h3, joined], by simp [h3, joined], trivial⟩, by simp, fun y hy => ?_⟩
        have : y = term m := by simpa using hy
        rw [this]; exact hjv
      · rw [upd_other _ _ em]
        by_cases ei : m = i
        · subst ei; rw [upd_same]
          refine circle_frame q5 rfl (fun y hy => ?_)
          have : y ≠ term j := by
            rintro rfl
            rcases List.mem_cons.1 hy with hy | hy
            · exact hit hy.symm
            · exact htj hy
          exact ⟨upd_other _ _ this, upd_other _ _ this⟩
        · rw [upd_other _ _ ei]
          have cm := g1.circ m hm'
          rw [upd_other _ _ ei] at cm
          refine circle_frame cm rfl (fun y hy => ?_)
          have hyo := fj.oth_ne (x := y) (by
            rcases List.mem_cons.1 hy with hy | hy
            · right; simp only [term] at hy ⊢; omega
            · left; exact mem_others.2 ⟨m, hm', em, by rw [upd_other _ _ ei]; exact hy⟩)
          have y1 : y ≠ term i := by
            rintro rfl
            rcases List.mem_cons.1 hy with hy | hy
            · simp only [term] at hy; omega
            · have := (g1.foc hm').bk (x := term i) (by rw [upd_other _ _ ei]; exact hy); simp only [term] at this; omega
          have y2 : y ≠ term j := by rintro rfl; exact hyo.1 (by simp)
          have yL : y ∉ ns j := fun z => hyo.1 (by simp [z])
          exact ⟨n3 y y1 y2 (fun e => yL (e ▸ hlm)), p3 y y1 y2 (fun e => yL (e ▸ hhm))⟩
    · refine (g1.pl.perm ?_).links rfl
      -- the same nodes, listed under another list
      have a1 := others_perm (upd ns i []) hi1
      have a2 := others_perm (upd (upd ns i (ns j)) j []) hi1
      rw [upd_same] at a1
      rw [upd_other _ _ hij, upd_same] at a2
      refine a1.trans (List.Perm.trans ?_ a2.symm)
      rw [List.nil_append]
      have hjm : j ∈ (List.range s1.k).filter (fun m => decide (m ≠ i)) := List.mem_filter.2 ⟨List.mem_range.2 hj1, by simpa using Ne.symm hij⟩
      have nd : ((List.range s1.k).filter (fun m => decide (m ≠ i))).Nodup := List.nodup_range.filter _
      have b1 := flatMap_perm (upd ns i []) j _ nd hjm
      have b2 := flatMap_perm (upd (upd ns i (ns j)) j []) j _ nd hjm
      rw [upd_other _ _ (Ne.symm hij)] at b1
      rw [upd_same, List.nil_append] at b2
      refine b1.trans (List.Perm.append_left _ ?_)
      refine List.Perm.trans ?_ b2.symm
      have : ∀ y ∈ ((List.range s1.k).filter (fun m => decide (m ≠ i))).filter (fun m => decide (m ≠ j)), upd ns i [] y = upd (upd ns i (ns j)) j [] y := by
        intro y hy
        have z1 := List.mem_filter.1 hy
        have z2 := List.mem_filter.1 z1.1
        have w1 : y ≠ j := by simpa using z1.2
        have w2 : y ≠ i := by simpa using z2.2
        rw [upd_other _ _ w1, upd_other _ _ w2, upd_other _ _ w2]
      rw [List.flatMap_def, List.flatMap_def, List.map_congr_left this]
    · have hm' : m < s1.k := hm
      show Vals s1 _ _
      by_cases em : m = j
      · subst em; rw [upd_same, upd_same]; simp [Vals]
      · rw [upd_other _ _ em, upd_other _ _ em]
        by_cases ei : m = i
        · subst ei; rw [upd_same, upd_same]; exact vj
        · have := hv1 m hm'
          rw [upd_other _ _ ei, upd_other _ _ ei] at this ⊢; exact this

theorem fullOf {s : St α} {l : Nat → List α} (h : Rep s l) : full s = decide (¬ 0 < room (cfgOf s) l) := by
  obtain ⟨ns, g, hv⟩ := h
  rw [full_eq g.pl, ← (free_room g hv).1]
  cases s.free <;> simp

theorem room_pos {s : St α} {ns : Nat → List Nat} {l : Nat → List α} (g : GInv s ns) (hv : ∀ i < s.k, Vals s (ns i) (l i)) : 0 < room (cfgOf s) l ↔ s.free ≠ [] := by
  rw [← (free_room g hv).1, List.length_pos_iff]

/-- One step. -/
theorem step_ok {s : St α} {l : Nat → List α} (h : Rep s l) (o : Op α) (hl : Legal (cfgOf s) l o) : Does s (step s o) (specStep (cfgOf s) l o).1 (specStep (cfgOf s) l o).2 := by
  have h' := h
  obtain ⟨ns, g, hv⟩ := h'
  have hrp := room_pos g hv
  have hfr := (free_room g hv).1
  cases o with
  | assign i vs =>
    have hi : i < s.k := hl
    by_cases hd : s.dbg = true ∧ s.cap < vs.length
    · have : specStep (cfgOf s) l (.assign i vs) = (l, .err .full) := if_pos hd
      rw [this]; simp only [step, assign_dbg vs hd]; exact Does.refl h
    · have : specStep (cfgOf s) l (.assign i vs) = (upd l i (vs.take (room (cfgOf s) (upd l i []))), if vs.length ≤ room (cfgOf s) (upd l i []) then .ok else .err .noAlloc) := if_neg hd
      rw [this]; exact assign_ok h hi vs hd
  | clear i =>
    refine lift h hl (fun ns R f hv _ => ?_)
    obtain ⟨s', e, f', sm⟩ := initialise_ok f
    exact ⟨s', [], by simp only [step, e, bind, Except.bind]; rfl, f', sm, by simp [Vals]⟩
  | resize i n v =>
    by_cases hn : s.cap < n
    · have : specStep (cfgOf s) l (.resize i n v) = (l, .err .full) := if_pos hn
      rw [this]
      have : step s (.resize i n v) = .ok (s, .err .full) := if_neg (by omega)
      rw [this]; exact Does.refl h
    · have e0 : specStep (cfgOf s) l (.resize i n v) =
          (upd l i (if n ≤ (l i).length then (l i).take n else l i ++ (List.replicate (n - (l i).length) v).take (room (cfgOf s) l)),
            if n ≤ (l i).length then .ok else if n - (l i).length ≤ room (cfgOf s) l then .ok else .err .full) := by
        have : specStep (cfgOf s) l (.resize i n v) = if n ≤ (l i).length then (upd l i ((l i).take n), .ok)
            else (upd l i (l i ++ (List.replicate (n - (l i).length) v).take (room (cfgOf s) l)), if n - (l i).length ≤ room (cfgOf s) l then .ok else .err .full) := if_neg hn
        rw [this]; split_ifs <;> rfl
      rw [e0]
      refine lift h hl (fun ns R f hv hr => ?_)
      have := resize_ok f hv n v (by omega)
      rw [hr] at this; exact this
  | pushFront i v =>
    have hi : i < s.k := hl
    by_cases hr : 0 < room (cfgOf s) l
    · have : specStep (cfgOf s) l (.pushFront i v) = (upd l i (v :: l i), .ok) := if_pos hr
      rw [this]
      exact lift h hi (fun ns R f hv hr' => pushFront_ok f hv (by rw [← List.length_pos_iff, hr']; exact hr) v)
    · have : specStep (cfgOf s) l (.pushFront i v) = (l, .err (if s.check then .full else .noAlloc)) := if_neg hr
      rw [this]
      simp only [step, (push_full (i := i) g.pl (by by_contra x; exact hr (hrp.2 x)) (g.circ i hi).tv v).1]; exact Does.refl h
  | pushBack i v =>
    have hi : i < s.k := hl
    by_cases hr : 0 < room (cfgOf s) l
    · have : specStep (cfgOf s) l (.pushBack i v) = (upd l i (l i ++ [v]), .ok) := if_pos hr
      rw [this]
      exact lift h hi (fun ns R f hv hr' => pushBack_ok f hv (by rw [← List.length_pos_iff, hr']; exact hr) v)
    · have : specStep (cfgOf s) l (.pushBack i v) = (l, .err (if s.check then .full else .noAlloc)) := if_neg hr
      rw [this]
      simp only [step, (push_full (i := i) g.pl (by by_contra x; exact hr (hrp.2 x)) (g.circ i hi).tv v).2]; exact Does.refl h
  | popFront i =>
    have hi : i < s.k := hl.1
    by_cases h0 : l i = []
    · have : specStep (cfgOf s) l (.popFront i) = (l, .err .empty) := if_pos h0
      rw [this]
      have hc : s.check = true := by rcases hl.2 with x | x; exact x; exact absurd h0 x
      simp only [step, (pop_empty (g.foc hi) (by rw [← h0]; exact hv i hi) hc).1]; exact Does.refl h
    · have : specStep (cfgOf s) l (.popFront i) = (upd l i (l i).tail, .ok) := if_neg h0
      rw [this]
      exact lift h hi (fun ns R f hv _ => popFront_ok f hv h0)
  | popBack i =>
    have hi : i < s.k := hl.1
    by_cases h0 : l i = []
    · have : specStep (cfgOf s) l (.popBack i) = (l, .err .empty) := if_pos h0
      rw [this]
      have hc : s.check = true := by rcases hl.2 with x | x; exact x; exact absurd h0 x
      simp only [step, (pop_empty (g.foc hi) (by rw [← h0]; exact hv i hi) hc).2]; exact Does.refl h
    · have : specStep (cfgOf s) l (.popBack i) = (upd l i (l i).dropLast, .ok) := if_neg h0
      rw [this]
      exact lift h hi (fun ns R f hv _ => popBack_ok f hv h0)
  | insert i p v =>
    obtain ⟨hi, hp⟩ := hl
    by_cases hr : 0 < room (cfgOf s) l
    · have : specStep (cfgOf s) l (.insert i p v) = (upd l i ((l i).take p ++ v :: (l i).drop p), .at p) := if_pos hr
      rw [this]
      refine lift h hi (fun ns R f hv hr' => ?_)
      have hf : s.free ≠ [] := by rw [← List.length_pos_iff, hr']; exact hr
      obtain ⟨q, s', n, ns', e1, e2, f', sm, v', hpos⟩ := add_ok f hv hp hf v
      refine ⟨s', ns', ?_, f', sm, v'⟩
      simp only [step, e1, insert, full_eq f.pl, hf, decide_false, Bool.false_eq_true, if_false, e2, hpos, bind, Except.bind]
    · have : specStep (cfgOf s) l (.insert i p v) = (l, .err .full) := if_neg hr
      rw [this]
      have hf : s.free = [] := by by_contra x; exact hr (hrp.2 x)
      obtain ⟨A, B, _, _, _, _, hit⟩ := (g.foc hi).at (hv i hi) hp
      simp only [step, hit, insert, full_eq g.pl, hf, decide_true, if_true, bind, Except.bind]
      exact Does.refl h
  | insertAll i p vs =>
    obtain ⟨hi, hp⟩ := hl
    refine lift h hi (fun ns R f hv hr' => ?_)
    obtain ⟨q, e, hd⟩ := insertAll_foc f hv hp vs
    rw [hr'] at hd
    simp only [step, e, bind, Except.bind]; exact hd
  | erase i p =>
    obtain ⟨hi, hp⟩ := hl
    refine lift h hi (fun ns R f hv hr' => ?_)
    obtain ⟨x, s', ns', q, e1, _, e2, f', sm, v', hpos⟩ := erase_at f hv hp
    refine ⟨s', ns', ?_, f', sm, v'⟩
    simp only [step, e1, e2, hpos, bind, Except.bind]; rfl
  | eraseRange i p q =>
    obtain ⟨hi, hpq, hq⟩ := hl
    refine lift h hi (fun ns R f hv hr' => ?_)
    obtain ⟨a, b, s', ns', e1, e2, e3, f', sm, v', hpos⟩ := eraseRange_foc f hv hpq hq
    refine ⟨s', ns', ?_, f', sm, v'⟩
    simp only [step, e1, e2, e3, hpos, bind, Except.bind]; rfl
  | removeIf i f0 =>
    exact lift h hl (fun ns R f hv _ => removeIf_ok f0 f hv)
  | sort i lt =>
    exact lift h hl.1 (fun ns R f hv _ => sort_ok f hv hl.2)
  | copyAssign i j =>
    obtain ⟨hi, hj⟩ := hl
    by_cases hij : i = j
    · have : specStep (cfgOf s) l (.copyAssign i j) = (l, .ok) := if_pos hij
      rw [this]; simp only [step, copyAssign, if_pos hij]; exact Does.refl h
    · have : specStep (cfgOf s) l (.copyAssign i j) = (upd l i ((l j).take (room (cfgOf s) (upd l i []))), if (l j).length ≤ room (cfgOf s) (upd l i []) then .ok else .err .noAlloc) := if_neg hij
      rw [this]
      simp only [step, copyAssign, if_neg hij, values_ok (g.foc hj) (hv j hj), bind, Except.bind]
      refine assign_ok h hi (l j) (fun x => ?_)
      have h1 := (g.foc hj).len; rw [(hv j hj).len] at h1; omega
  | moveAssign i j =>
    obtain ⟨hi, hj⟩ := hl
    by_cases hij : i = j
    · have : specStep (cfgOf s) l (.moveAssign i j) = (l, .ok) := if_pos hij
      rw [this]; simp only [step, moveAssign, if_pos hij]; exact Does.refl h
    · have : specStep (cfgOf s) l (.moveAssign i j) = (upd (upd l i (l j)) j [], .ok) := if_neg hij
      rw [this]; exact moveAssign_ok h hi hj hij
  | splice i p j =>
    obtain ⟨hi, hj, hij, hp⟩ := hl
    obtain ⟨to, first, last, e1, e2, e3, hd⟩ := spliceRange_ok h hi hj hij hp (Nat.zero_le _) (Nat.le_refl _)
    have fj := g.foc hj
    rw [(iter_first fj).1] at e2; cases e2
    rw [iter_end fj (hv j hj)] at e3; cases e3
    have es : specStep (cfgOf s) l (.splice i p j) = specStep (cfgOf s) l (.spliceRange i p j 0 (l j).length) := by
      simp only [specStep, List.drop_zero, Nat.sub_zero, List.take_length, List.take_zero, List.drop_length, List.append_nil]
    rw [es]
    simp only [step, e1, splice, (iter_first fj).2, bind, Except.bind]; exact hd
  | spliceRange i p j a b =>
    obtain ⟨hi, hj, hij, hp, hab, hb⟩ := hl
    obtain ⟨to, first, last, e1, e2, e3, hd⟩ := spliceRange_ok h hi hj hij hp hab hb
    simp only [step, e1, e2, e3, bind, Except.bind]; exact hd
  | spliceOne i p j a =>
    obtain ⟨hi, hj, hij, hp, ha⟩ := hl
    obtain ⟨to, x, e1, e2, hd⟩ := spliceOne_ok h hi hj hij hp ha
    simp only [step, e1, e2, bind, Except.bind]; exact hd

theorem Good.step {c : Cfg} {s : St α} {l : Nat → List α} (h : Good c s l) (o : Op α) (hl : Legal c l o) :
    ∃ s', SList.step s o = .ok (s', (specStep c l o).2) ∧ Good c s' (specStep c l o).1 := by
  obtain ⟨rfl, h⟩ := h; exact step_ok h o hl

theorem Good.shows {c : Cfg} {s : St α} {l : Nat → List α} (h : Good c s l) : Shows c s l := by
  obtain ⟨rfl, ns, g, hv⟩ := h
  have hk : ∀ {i}, i < (cfgOf s).k → i < s.k := fun h => h
  have htot := (free_room g hv).2
  refine ⟨fun i hi => values_ok (g.foc hi) (hv i hi), fun i hi => ?_, fun i hi => ?_, fun i hi => ?_, fun i hi v hv0 => ?_, fun i hi v hv0 => ?_, ?_, ?_, ?_, rfl, ?_⟩
  · have f := g.foc hi
    have hw := f.circ.walkBack (s.cap + 1) (ns i).length (Nat.le_refl _) (by have := f.len; omega)
    have hp : s.h.pv (term i) = if (ns i).length = 0 then term i else nodeAt (term i) (ns i) ((ns i).length - 1) := by
      have := f.circ.pv_at (Nat.le_refl (ns i).length); rwa [nodeAt_len (Nat.le_refl _)] at this
    rw [← hp, List.take_length] at hw
    simp only [backward, prev_ok f.circ.tv, hw, bind, Except.bind]
    exact mapM_read f (fun x hx => by simpa using hx) (by rw [Vals, List.map_reverse, hv i hi, List.map_reverse])
  · rw [size_ok (g.foc hi), (hv i hi).len]
  · rw [empty_ok (g.foc hi)]
    have : ns i = [] ↔ l i = [] := by rw [← List.length_eq_zero_iff, (hv i hi).len, List.length_eq_zero_iff]
    simp only [this]
  · obtain ⟨l0, e⟩ : ∃ l0, l i = v :: l0 := by
      cases hh : l i with
      | nil => rw [hh] at hv0; simp at hv0
      | cons x l0 => rw [hh] at hv0; exact ⟨l0, by simpa using hv0⟩
    have hvi := hv i hi
    rw [e] at hvi
    obtain ⟨x, N, e2, hx, _⟩ := hvi.cons_split
    have f := g.foc hi
    have : s.h.nx (term i) = x := by rw [f.circ.first, e2]; rfl
    simp only [front, next_ok f.circ.tv, this, bind, Except.bind]
    exact f.read (by simp [e2]) hx
  · obtain ⟨l0, e⟩ := List.getLast?_eq_some_iff.1 hv0
    have hvi := hv i hi
    rw [e] at hvi
    obtain ⟨A, B, e2, hA, hB⟩ := hvi.split
    obtain ⟨x, N, rfl, hx, hN⟩ := hB.cons_split
    have := hN.nil_split; subst this
    have f := g.foc hi
    rw [e2] at f
    have hp := f.circ.last
    have h2 : (term i :: (A ++ [x])).getLast (by simp) = x := getLast_cons_concat _ _ _ _
    rw [h2] at hp
    simp only [backv, prev_ok f.circ.tv, hp, bind, Except.bind]
    exact f.read (by simp) hx
  · show total s.k l ≤ s.cap
    omega
  · show full s = decide (total s.k l = s.cap)
    rw [full_eq g.pl]
    have : s.free = [] ↔ total s.k l = s.cap := by rw [← List.length_eq_zero_iff]; omega
    simp only [this]
  · show s.cap - (s.cap - s.free.length) = s.cap - total s.k l
    omega
  · show ((items s.k s.cap).map s.val).Perm (((List.range s.k).flatMap l).map Cell.live ++ List.replicate (s.cap - total s.k l) .raw)
    have h1 := (g.pl.part.map s.val).symm
    rw [List.map_append] at h1
    have h2 : s.free.map s.val = List.replicate (s.cap - total s.k l) .raw := by
      rw [List.eq_replicate_iff]
      refine ⟨by simp; omega, ?_⟩
      intro x hx
      obtain ⟨n, hn, rfl⟩ := List.mem_map.1 hx
      exact g.pl.raw n hn
    have h3 : ((List.range s.k).flatMap ns).map s.val = ((List.range s.k).flatMap l).map Cell.live := by
      rw [List.map_flatMap, List.map_flatMap, List.flatMap_def, List.flatMap_def]
      congr 1
      exact List.map_congr_left (fun i hi => hv i (List.mem_range.1 hi))
    rw [h2, h3] at h1; exact h1

theorem init_good (k cap : Nat) (check dbg : Bool) (junk : Nat → Nat × Nat) : Good ⟨k, cap, check, dbg⟩ (init (α := α) k cap check dbg junk) (fun _ => []) := by
  refine ⟨rfl, fun _ => [], ⟨fun i hi => ?_, ?_⟩, fun i hi => by simp [Vals]⟩
  · have hi' : i < k := hi
    refine ⟨⟨?_, ?_, trivial⟩, by simp, fun x hx => ?_⟩
    · show (if i + 1 ≤ k then i + 1 else _) = i + 1; rw [if_pos (by omega)]
    · show (if i + 1 ≤ k then i + 1 else _) = i + 1; rw [if_pos (by omega)]
    · have : x = i + 1 := by simpa using hx
      subst this; simp only [init, Links.valid]; omega
  · refine ⟨rfl, ?_, ?_, ?_⟩
    · have : (List.range k).flatMap (fun _ => ([] : List Nat)) = [] := by simp
      show (((List.range k).flatMap (fun _ => ([] : List Nat))) ++ items k cap).Perm (items k cap)
      rw [this]; exact List.Perm.refl _
    · intro n hn
      simp at hn
    · intro n _; rfl

/-! ## C107 -/

/-- **C107**: every legal history over `k` lists that share a pool of `cap` items runs without undefined behaviour, reports what ideal lists with a common room of `cap`
elements report, and every observation of every list and of the pool agrees with the ideal lists.  In particular an operation on one list leaves all others as they were
(`specStep` updates no other list). -/
theorem C107_shared_pool_refines {c : Cfg} (ops : List (Op α)) : ∀ {s : St α} {l : Nat → List α}, Good c s l → LegalRun c l ops →
    ∃ s', run s ops = .ok (s', (specRun c l ops).2) ∧ Good c s' (specRun c l ops).1 ∧ Shows c s' (specRun c l ops).1 := by
  induction ops with
  | nil => intro s l h _; exact ⟨s, rfl, h, h.shows⟩
  | cons o os ih =>
    intro s l h hl
    obtain ⟨s1, e1, g1⟩ := h.step o hl.1
    obtain ⟨s2, e2, g2, sh⟩ := ih g1 hl.2
    exact ⟨s2, by simp only [run, e1, e2, bind, Except.bind, specRun], g2, sh⟩

/-- ... starting from fresh lists. -/
theorem C107_fresh_lists {k cap : Nat} {check dbg : Bool} (junk : Nat → Nat × Nat) (ops : List (Op α)) (hl : LegalRun ⟨k, cap, check, dbg⟩ (fun _ => []) ops) :
    ∃ s', run (init k cap check dbg junk) ops = .ok (s', (specRun ⟨k, cap, check, dbg⟩ (fun _ => []) ops).2) ∧
      Shows ⟨k, cap, check, dbg⟩ s' (specRun ⟨k, cap, check, dbg⟩ (fun _ => []) ops).1 := by
  obtain ⟨s', e, _, sh⟩ := C107_shared_pool_refines ops (init_good k cap check dbg junk) hl
  exact ⟨s', e, sh⟩

/-- An element that one list gives up can be used by another: after clearing list `i` the other lists can grow by what it held. -/
theorem C107_clear_gives_room {c : Cfg} {l : Nat → List α} {i : Nat} (hi : i < c.k) (hle : total c.k l ≤ c.cap) :
    room c (specStep c l (.clear i)).1 = room c l + (l i).length := by
  have h1 := (others_perm l hi).length_eq
  have h2 := (others_perm (upd l i []) hi).length_eq
  have e2 : ((List.range c.k).filter (fun j => decide (j ≠ i))).flatMap (upd l i []) = ((List.range c.k).filter (fun j => decide (j ≠ i))).flatMap l := by
    rw [List.flatMap_def, List.flatMap_def]
    congr 1
    refine List.map_congr_left (fun x hx => ?_)
    have : x ≠ i := by simpa using (List.mem_filter.1 hx).2
    exact upd_other _ _ this
  rw [e2, upd_same] at h2
  simp only [List.length_append, List.length_nil] at h1 h2
  have t1 : total c.k l = ((List.range c.k).flatMap l).length := total_eq (fun _ _ => rfl)
  have t2 : total c.k (upd l i []) = ((List.range c.k).flatMap (upd l i [])).length := total_eq (fun _ _ => rfl)
  show c.cap - total c.k (upd l i []) = c.cap - total c.k l + _
  omega

/-- Moving a list into another of the same pool needs no room and never fails, whatever the pool holds. -/
theorem C107_move_never_fails {c : Cfg} {s : St α} {l : Nat → List α} (h : Good c s l) {i j : Nat} (hi : i < c.k) (hj : j < c.k) (hij : i ≠ j) :
    ∃ s', moveAssign s i j = .ok (s', .ok) ∧ values s' i = .ok (l j) ∧ values s' j = .ok [] ∧ ∀ m < c.k, m ≠ i → m ≠ j → values s' m = .ok (l m) := by
  obtain ⟨s', e, g⟩ := h.step (.moveAssign i j) ⟨hi, hj⟩
  have es : specStep c l (.moveAssign i j) = (upd (upd l i (l j)) j [], .ok) := if_neg hij
  rw [es] at e g
  have sh : Shows c s' (upd (upd l i (l j)) j []) := g.shows
  refine ⟨s', e, ?_, ?_, fun m hm h1 h2 => ?_⟩
  · have := sh.fwd i hi; rwa [upd_other _ _ hij, upd_same] at this
  · have := sh.fwd j hj; rwa [upd_same] at this
  · have := sh.fwd m hm; rwa [upd_other _ _ h2, upd_other _ _ h1] at this

/-- Finding: `splice` between two lists of the same full pool fails although no memory is needed: it copies before it erases (l.1419-1426, l.1496-1501). -/
theorem splice_full_pool_fails {c : Cfg} {s : St α} {l : Nat → List α} (h : Good c s l) {i j p : Nat} (hi : i < c.k) (hj : j < c.k) (hij : i ≠ j) (hp : p ≤ (l i).length)
    (hfull : total c.k l = c.cap) (hne : l j ≠ []) : ∃ s', step s (.splice i p j) = .ok (s', .err .full) := by
  obtain ⟨s', e, _⟩ := h.step (.splice i p j) ⟨hi, hj, hij, hp⟩
  have hr : room c l = 0 := by show c.cap - total c.k l = 0; omega
  have hlt : ¬ (l j).length ≤ room c l := by rw [hr]; have := List.length_pos_iff.2 hne; omega
  have es : (specStep c l (.splice i p j)).2 = .err .full := by simp only [specStep, if_neg hlt]
  rw [es] at e
  exact ⟨s', e⟩

/-! ### Non-vacuity -/

/-- Three lists and a pool of five: pushes to different lists, a full pool, a move, a splice, an assignment that fails half way. -/
def demo : List (Op Nat) :=
  [.pushBack 0 1, .pushBack 1 2, .pushFront 0 3, .insertAll 2 0 [4, 5], .pushBack 1 6, .popFront 2, .pushBack 1 7, .splice 0 1 1, .clear 2, .splice 0 1 1, .moveAssign 2 0,
   .assign 1 [8, 9, 10, 11], .spliceOne 1 0 2 1, .sort 2 (fun a b => decide (a < b)), .removeIf 1 (fun a => a == 9), .copyAssign 0 2]

/-- what the four lists hold at the end, and what was reported -/
def demoRes : List (List Nat) × List Out :=
  match run (init (α := Nat) 3 5 true true (fun _ => (0, 0))) demo with
  | .ok (s, r) => ((List.range 3).map (fun i => (values s i).toOption.getD []), r)
  | .error _ => ([], [])

def demoOut : List Out :=
  [.ok, .ok, .ok, .ok, .err .full, .ok, .ok, .err .full, .ok, .err .full, .ok, .err .noAlloc, .err .full, .ok, .ok, .err .noAlloc]

/-- (the failed splice at step ten left a copy of `2` in both lists, so `2` is in list 2 at the end although list 1 kept it until it was assigned) -/
example : demoRes = ([[1], [8], [1, 2, 3]], demoOut) := by decide +kernel
example : (specRun ⟨3, 5, true, true⟩ (fun _ => []) demo).2 = demoOut := by decide +kernel

example : LegalRun ⟨3, 5, true, true⟩ (fun _ => []) demo := by
  refine ⟨?_, ?_, ?_, ?_, ?_, ?_, ?_, ?_, ?_, ?_, ?_, ?_, ?_, ⟨by decide, ?_⟩, ?_, ?_, trivial⟩
  all_goals first
    | exact ⟨fun a => by simp, fun a b c => by simp; omega, fun a b c => by simp; omega⟩
    | (simp only [Legal]; decide +kernel)

end Etl.SList
