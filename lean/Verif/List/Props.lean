import Verif.List.Two
import Mathlib.Tactic.SplitIfs

/-!
# Properties of `etl::list` (C12)
-/
namespace Etl.DList
open Links
variable {α : Type}

/-! ## Specification: a list of at most `cap` elements -/

/-- What is fixed for a list object: capacity, compile-time options, `is_trivially_destructible<T>`. -/
structure Cfg where
  cap : Nat
  check : Bool
  dbg : Bool
  triv : Bool

/-- The elements `[j, k)` moved in front of element `i`. -/
def moved (l : List α) (i j k : Nat) : List α :=
  if i ≤ j then l.take i ++ (l.drop j).take (k - j) ++ (l.drop i).take (j - i) ++ l.drop k
  else l.take j ++ (l.drop k).take (i - k) ++ (l.drop j).take (k - j) ++ l.drop i

/-- `unique` of a list: of each run, keep the first. -/
def uniqueOf (eq : α → α → Bool) : List α → List α
  | [] => []
  | a :: l => uniq eq a l

/-- Effect of an operation on the contents, and what it reports. -/
def specStep (c : Cfg) (l : List α) : Op α → List α × Out
  | .assign vs => if vs.length ≤ c.cap then (vs, .ok) else if c.dbg then (l, .err .full) else (vs.take c.cap, .err .noAlloc)
  | .clear => ([], .ok)
  | .resize k v => if k ≤ c.cap then (l.take k ++ List.replicate (k - l.length) v, .ok) else (l, .err .full)
  | .pushFront v => if l.length < c.cap then (v :: l, .ok) else (l, .err (if c.check then .full else .noAlloc))
  | .pushBack v => if l.length < c.cap then (l ++ [v], .ok) else (l, .err (if c.check then .full else .noAlloc))
  | .popFront => if l = [] then (l, .err .empty) else (l.tail, .ok)
  | .popBack => if l = [] then (l, .err .empty) else (l.dropLast, .ok)
  | .insert i v => if l.length < c.cap then (l.take i ++ v :: l.drop i, .at i) else (l, .err .full)
  | .insertAll i vs => (l.take i ++ vs.take (c.cap - l.length) ++ l.drop i, if l.length + vs.length ≤ c.cap then .ok else .err .full)
  | .erase i => (l.eraseIdx i, .at i)
  | .eraseRange i j => (l.take i ++ l.drop j, .at i)
  | .removeIf f => (l.filter (fun x => !f x), .ok)
  | .unique eq => (uniqueOf eq l, .ok)
  | .reverse => (l.reverse, .ok)
  | .sort lt => (isort lt l, .ok)
  | .moveOne i j => (moved l i j (j + 1), .ok)
  | .moveRange i j k => if j < i ∧ i < k then (l, .err .iterator) else (moved l i j k, .ok)

/-- Preconditions: iterators are valid, the comparison is a strict weak order, `pop` on an empty list only with `ETL_CHECK_PUSH_POP`.
A self-splice of a range may not have the target inside (checked in debug builds) and the range may not be empty unless it starts at the
target (see `selfsplice_empty_range_broken`). -/
def Legal (c : Cfg) (l : List α) : Op α → Prop
  | .assign _ | .clear | .resize _ _ | .pushFront _ | .pushBack _ | .removeIf _ | .unique _ | .reverse => True
  | .popFront | .popBack => c.check = true ∨ l ≠ []
  | .insert i _ | .insertAll i _ => i ≤ l.length
  | .erase i => i < l.length
  | .eraseRange i j => i ≤ j ∧ j ≤ l.length
  | .sort lt => StrictWeak lt
  | .moveOne i j => i ≤ l.length ∧ j < l.length
  | .moveRange i j k => i ≤ l.length ∧ j ≤ k ∧ k ≤ l.length ∧ (j < k ∨ i = j) ∧ (c.dbg = true ∨ i ≤ j ∨ k ≤ i)

/-- Effect of an operation on a pair of lists. -/
def specStep2 (ca cb : Cfg) (l : List α × List α) : Op2 α → (List α × List α) × Out
  | .fst o => (((specStep ca l.1 o).1, l.2), (specStep ca l.1 o).2)
  | .snd o => ((l.1, (specStep cb l.2 o).1), (specStep cb l.2 o).2)
  | .copy => (((specStep ca l.1 (.assign l.2)).1, l.2), (specStep ca l.1 (.assign l.2)).2)
  | .splice i => if l.1.length + l.2.length ≤ ca.cap then ((l.1.take i ++ l.2 ++ l.1.drop i, []), .ok)
      else ((l.1.take i ++ l.2.take (ca.cap - l.1.length) ++ l.1.drop i, l.2), .err .full)
  | .spliceRange i j k => if l.1.length + (k - j) ≤ ca.cap then ((l.1.take i ++ (l.2.drop j).take (k - j) ++ l.1.drop i, l.2.take j ++ l.2.drop k), .ok)
      else ((l.1.take i ++ ((l.2.drop j).take (k - j)).take (ca.cap - l.1.length) ++ l.1.drop i, l.2), .err .full)
  | .spliceOne i j => if l.1.length < ca.cap then ((l.1.take i ++ (l.2.drop j).take 1 ++ l.1.drop i, l.2.eraseIdx j), .ok) else (l, .err .full)
  | .merge lt => if l.2 ≠ [] ∧ ca.dbg = true ∧ ¬ (isSorted lt l.2 = true ∧ isSorted lt l.1 = true) then (l, .err .unsorted)
      else if l.2 = [] then (l, .ok) else ((isort lt (l.1 ++ l.2), []), .ok)
  | .moveAssign => ((l.2, []), .ok)

/-- Preconditions of the operations on two lists: a merge is of sorted lists (checked in debug builds) that fit; a move fits. -/
def Legal2 (ca cb : Cfg) (l : List α × List α) : Op2 α → Prop
  | .fst o => Legal ca l.1 o
  | .snd o => Legal cb l.2 o
  | .copy => True
  | .splice i => i ≤ l.1.length
  | .spliceRange i j k => i ≤ l.1.length ∧ j ≤ k ∧ k ≤ l.2.length
  | .spliceOne i j => i ≤ l.1.length ∧ j < l.2.length
  | .merge lt => StrictWeak lt ∧ l.1.length + l.2.length ≤ ca.cap ∧ (ca.dbg = true ∨ SortedBy lt l.1 ∧ SortedBy lt l.2)
  | .moveAssign => l.2.length ≤ ca.cap

def specRun (ca cb : Cfg) (l : List α × List α) : List (Op2 α) → (List α × List α) × List Out
  | [] => (l, [])
  | o :: os =>
    let (l', e) := specStep2 ca cb l o
    let (l'', es) := specRun ca cb l' os
    (l'', e :: es)

def LegalRun (ca cb : Cfg) (l : List α × List α) : List (Op2 α) → Prop
  | [] => True
  | o :: os => Legal2 ca cb l o ∧ LegalRun ca cb (specStep2 ca cb l o).1 os

/-! ## What a user sees -/

/-- All values by forward iteration, `begin()` to `end()`. -/
def forward (s : St α) : Res (List α) := do
  let ns ← s.h.walk T (← s.h.next T) (s.cap + 1)
  ns.mapM (read s)
/-- All values by backward iteration from `end()`. -/
def backward (s : St α) : Res (List α) := do
  let ns ← s.h.walkBack T (← s.h.prev T) (s.cap + 1)
  ns.mapM (read s)

/-- `front()`, l.746; `back()`, l.768 (the list is not empty). -/
def front (s : St α) : Res α := do read s (← s.h.next T)
def backv (s : St α) : Res α := do read s (← s.h.prev T)

/-- Every observation of the list agrees with `l`; the nodes taken from the pool are exactly `size()` many and exactly these hold live values. -/
structure Shows (c : Cfg) (s : St α) (l : List α) : Prop where
  fwd : forward s = .ok l
  bwd : backward s = .ok l.reverse
  size : size s = l.length
  le : l.length ≤ c.cap
  empty : empty s = .ok (decide (l = []))
  full : full s = decide (l.length = c.cap)
  avail : available s = c.cap - l.length
  front : ∀ v, l.head? = some v → front s = .ok v
  back : ∀ v, l.getLast? = some v → backv s = .ok v
  nodes : c.cap - s.free.length = l.length
  live : ((items c.cap).map s.val).Perm (l.map Cell.live ++ List.replicate (c.cap - l.length) .raw)

/-! ## Refinement -/

def cfgOf (s : St α) : Cfg := ⟨s.cap, s.check, s.dbg, s.triv⟩

def Good (c : Cfg) (s : St α) (l : List α) : Prop := cfgOf s = c ∧ ∃ ns, Inv s ns ∧ Vals s ns l

theorem Same.cfg {s s' : St α} (h : Same s s') : cfgOf s' = cfgOf s := by
  obtain ⟨h1, h2, h3, h4⟩ := h; simp [cfgOf, h1, h2, h3, h4]

theorem Good.mk' {c : Cfg} {s s' : St α} {ns : List Nat} {l : List α} (hc : cfgOf s = c) (sm : Same s s') (i : Inv s' ns) (v : Vals s' ns l) : Good c s' l :=
  ⟨by rw [sm.cfg]; exact hc, ns, i, v⟩

section Steps
variable {s : St α} {l : List α}

/-- Splitting at a valid position. -/
theorem Good.at (h : ∃ ns, Inv s ns ∧ Vals s ns l) {i : Nat} (hi : i ≤ l.length) :
    ∃ A B, Inv s (A ++ B) ∧ Vals s A (l.take i) ∧ Vals s B (l.drop i) ∧ A.length = i ∧ B.length = l.length - i ∧ iter s i = .ok (nodeAt T B 0) := by
  obtain ⟨ns, inv, hv⟩ := h
  rw [← List.take_append_drop i l] at hv
  obtain ⟨A, B, rfl, h1, h2⟩ := hv.split
  have hA : A.length = i := by rw [h1.len, List.length_take]; omega
  have hB : B.length = l.length - i := by rw [h2.len, List.length_drop]
  refine ⟨A, B, inv, h1, h2, hA, hB, ?_⟩
  rw [iter_ok inv (by simp; omega), ← hA, nodeAt_app0]

theorem Good.fullb (h : ∃ ns, Inv s ns ∧ Vals s ns l) : full s = decide (l.length = s.cap) := by
  obtain ⟨ns, inv, hv⟩ := h
  have h1 := inv.pl.full_len; rw [hv.len] at h1
  cases hf : full s with
  | true => rw [hf] at h1; exact (decide_eq_true (h1.1 rfl)).symm
  | false => rw [hf] at h1; exact (decide_eq_false (fun x => by simpa using h1.2 x)).symm
theorem Good.emptyb (h : ∃ ns, Inv s ns ∧ Vals s ns l) : empty s = .ok (decide (l = [])) := by
  obtain ⟨ns, inv, hv⟩ := h
  rw [empty_ok inv]
  have : ns = [] ↔ l = [] := by rw [← List.length_eq_zero_iff, hv.len, List.length_eq_zero_iff]
  simp only [this]
theorem Good.le (h : ∃ ns, Inv s ns ∧ Vals s ns l) : l.length ≤ s.cap := by
  obtain ⟨ns, inv, hv⟩ := h; rw [← hv.len]; exact inv.len
theorem Good.sz (h : ∃ ns, Inv s ns ∧ Vals s ns l) : DList.size s = l.length := by
  obtain ⟨ns, inv, hv⟩ := h; rw [inv.pl.size, hv.len]

/-- The form in which each operation is proved. -/
abbrev Does (s : St α) (r : Res (St α × Out)) (l' : List α) (o : Out) : Prop :=
  ∃ s', r = .ok (s', o) ∧ Same s s' ∧ ∃ ns, Inv s' ns ∧ Vals s' ns l'

theorem pushAny_ok (h : ∃ ns, Inv s ns ∧ Vals s ns l) {i : Nat} (hi : i ≤ l.length) {p : Nat} (hp : iter s i = .ok p) (v : α) (hc : l.length < s.cap) :
    ∃ s' n, full s = false ∧ addAt s p v = .ok (s', some n) ∧ Same s s' ∧ ∃ ns, Inv s' ns ∧ Vals s' ns (l.take i ++ v :: l.drop i) := by
  obtain ⟨A, B, inv, hA, hB, lA, lB, hit⟩ := Good.at h hi
  rw [hp] at hit; cases hit
  obtain ⟨s', n, e, i', sm, v1, v2⟩ := addAt_ok' inv (by omega) v
  refine ⟨s', n, full_false inv.pl (by simp; omega), e, sm, A ++ n :: B, i', ?_⟩
  rw [Vals, List.map_append, List.map_cons, List.map_append, List.map_cons, v1]
  rw [hA.congr (fun y hy => v2 y (by simp [hy])), hB.congr (fun y hy => v2 y (by simp [hy]))]

theorem pushAny_full (h : ∃ ns, Inv s ns ∧ Vals s ns l) (p : Nat) (v : α) (hc : ¬ l.length < s.cap) : full s = true ∧ addAt s p v = .ok (s, none) := by
  have hle := Good.le h
  obtain ⟨ns, inv, hv⟩ := h
  have hf := full_true inv.pl (by rw [hv.len]; omega)
  exact ⟨hf, addAt_full (inv.pl.full_iff.1 hf) p v⟩

theorem iter_zero (h : ∃ ns, Inv s ns ∧ Vals s ns l) : ∃ p, s.h.next T = .ok p ∧ iter s 0 = .ok p := by
  obtain ⟨ns, inv, hv⟩ := h
  exact ⟨s.h.nx T, next_ok inv.circ.tv, by simp [iter, next_ok inv.circ.tv, fwd, bind, Except.bind]⟩
theorem iter_end (h : ∃ ns, Inv s ns ∧ Vals s ns l) : iter s l.length = .ok T := by
  obtain ⟨A, B, inv, hA, hB, lA, lB, hit⟩ := Good.at h (Nat.le_refl _)
  have : B = [] := List.eq_nil_of_length_eq_zero (by omega)
  subst this; exact hit

theorem pushFront_ok (h : ∃ ns, Inv s ns ∧ Vals s ns l) (v : α) : Does s (pushFront s v) (specStep (cfgOf s) l (.pushFront v)).1 (specStep (cfgOf s) l (.pushFront v)).2 := by
  obtain ⟨p, e1, e2⟩ := iter_zero h
  by_cases hc : l.length < s.cap
  · obtain ⟨s', n, hf, e, sm, g⟩ := pushAny_ok h (Nat.zero_le _) e2 v hc
    exact ⟨s', by simp [pushFront, hf, e1, e, specStep, cfgOf, hc, bind, Except.bind], sm, by simpa [specStep, cfgOf, hc] using g⟩
  · obtain ⟨hf, e⟩ := pushAny_full h p v hc
    refine ⟨s, ?_, Same.refl s, by simpa [specStep, cfgOf, hc] using h⟩
    cases hk : s.check <;> simp [pushFront, hf, hk, e1, e, specStep, cfgOf, hc, bind, Except.bind]

theorem pushBack_ok (h : ∃ ns, Inv s ns ∧ Vals s ns l) (v : α) : Does s (pushBack s v) (specStep (cfgOf s) l (.pushBack v)).1 (specStep (cfgOf s) l (.pushBack v)).2 := by
  by_cases hc : l.length < s.cap
  · obtain ⟨s', n, hf, e, sm, g⟩ := pushAny_ok h (Nat.le_refl _) (iter_end h) v hc
    exact ⟨s', by simp [pushBack, hf, e, specStep, cfgOf, hc, bind, Except.bind], sm, by simpa [specStep, cfgOf, hc] using g⟩
  · obtain ⟨hf, e⟩ := pushAny_full h T v hc
    refine ⟨s, ?_, Same.refl s, by simpa [specStep, cfgOf, hc] using h⟩
    cases hk : s.check <;> simp [pushBack, hf, hk, e, specStep, cfgOf, hc, bind, Except.bind]

theorem insert_ok (h : ∃ ns, Inv s ns ∧ Vals s ns l) {i : Nat} (hi : i ≤ l.length) (v : α) :
    Does s (step s (.insert i v)) (specStep (cfgOf s) l (.insert i v)).1 (specStep (cfgOf s) l (.insert i v)).2 := by
  have hle := Good.le h
  obtain ⟨A, B, inv, hA, hB, lA, lB, hit⟩ := Good.at h hi
  by_cases hc : l.length < s.cap
  · obtain ⟨s', n, e, i', sm, v1, v2⟩ := addAt_ok' inv (by omega) v
    have hff : full s = false := full_false inv.pl (by simp; omega)
    have hpos := position_ok i' (p := i) (by simp; omega)
    rw [← lA, nodeAt_mid, lA] at hpos
    refine ⟨s', ?_, sm, A ++ n :: B, i', ?_⟩
    · simp [step, hit, insert, hff, e, hpos, specStep, cfgOf, hc, bind, Except.bind]
    · simp only [specStep, cfgOf, hc, if_true]
      rw [Vals, List.map_append, List.map_cons, List.map_append, List.map_cons, v1]
      rw [hA.congr (fun y hy => v2 y (by simp [hy])), hB.congr (fun y hy => v2 y (by simp [hy]))]
  · have hff : full s = true := full_true inv.pl (by simp; omega)
    refine ⟨s, ?_, Same.refl s, ?_⟩
    · simp [step, hit, insert, hff, specStep, cfgOf, hc, bind, Except.bind]
    · simpa only [specStep, cfgOf, hc, if_false] using h

/-- `insertAll` at a node -/
theorem insertAllAt_ok {A B : List Nat} {la lb : List α} (inv : Inv s (A ++ B)) (hA : Vals s A la) (hB : Vals s B lb) (vs : List α) :
    Does s (insertAll s (nodeAt T B 0) vs) (la ++ vs.take (s.cap - (la.length + lb.length)) ++ lb) (if la.length + lb.length + vs.length ≤ s.cap then .ok else .err .full) := by
  obtain ⟨s', N, e, i', sm, v1, v2⟩ := insertAll_ok vs inv
  rw [hA.len, hB.len] at e v1
  refine ⟨s', e, sm, _, i', ?_⟩
  exact ((hA.congr (fun y hy => v2 y (by simp [hy]))).append v1).append (hB.congr (fun y hy => v2 y (by simp [hy])))

theorem insertAllOp_ok (h : ∃ ns, Inv s ns ∧ Vals s ns l) {i : Nat} (hi : i ≤ l.length) (vs : List α) :
    Does s (step s (.insertAll i vs)) (specStep (cfgOf s) l (.insertAll i vs)).1 (specStep (cfgOf s) l (.insertAll i vs)).2 := by
  obtain ⟨A, B, inv, hA, hB, lA, lB, hit⟩ := Good.at h hi
  obtain ⟨s', e, sm, g⟩ := insertAllAt_ok inv hA hB vs
  have hl : (l.take i).length + (l.drop i).length = l.length := by simp; omega
  rw [hl] at e g
  exact ⟨s', by simp only [step, hit, e, bind, Except.bind, specStep, cfgOf]; rfl, sm, g⟩

theorem erase1_ok (h : ∃ ns, Inv s ns ∧ Vals s ns l) {i : Nat} (hi : i < l.length) :
    ∃ s' A x B, Inv s (A ++ x :: B) ∧ s.val x = .live l[i] ∧ iter s i = .ok x ∧ erase s x = .ok (s', nodeAt T B 0) ∧ removeNode s x = .ok s' ∧ Same s s' ∧ A.length = i ∧ Inv s' (A ++ B) ∧ Vals s' (A ++ B) (l.eraseIdx i) := by
  obtain ⟨A, B, inv, hA, hB, lA, lB, hit⟩ := Good.at h (Nat.le_of_lt hi)
  rw [List.drop_eq_getElem_cons hi] at hB
  obtain ⟨x, N, rfl, hx, hN⟩ := hB.cons_split
  obtain ⟨s', e1, i1, sm, v1⟩ := erase_ok inv
  obtain ⟨s'', e2, _⟩ := removeNode_ok inv
  have hss : s'' = s' := by
    have hq := inv.circ.pv_at (i := A.length + 1) (by simp)
    have e3 : nodeAt T (A ++ x :: N) (A.length + 1) = nodeAt T N 0 := by rw [nodeAt_append]; simp [nodeAt]
    rw [e3] at hq
    simp only [Nat.add_one_ne_zero, if_false, Nat.add_sub_cancel, nodeAt_mid] at hq
    have hqv : s.h.valid (nodeAt T N 0) := valid_at (A := A ++ [x]) (by simpa using inv)
    simp only [erase, next_ok (inv.valid (x := x) (by simp)), inv.nx_mid, prev_ok hqv, hq, e2, bind, Except.bind] at e1
    cases e1; rfl
  subst hss
  refine ⟨s'', A, x, N, inv, hx, hit, e1, e2, sm, lA, i1, ?_⟩
  rw [List.eraseIdx_eq_take_drop_succ]
  exact (hA.congr (fun y hy => v1 y (by simp [hy]))).append (hN.congr (fun y hy => v1 y (by simp [hy])))

theorem popFront_ok (h : ∃ ns, Inv s ns ∧ Vals s ns l) (hl : s.check = true ∨ l ≠ []) : Does s (popFront s) (specStep (cfgOf s) l .popFront).1 (specStep (cfgOf s) l .popFront).2 := by
  by_cases hc : l = []
  · refine ⟨s, ?_, Same.refl s, ?_⟩
    · simp [popFront, Good.emptyb h, hc, hl.resolve_right (by simp [hc]), specStep, bind, Except.bind]
    · subst hc; simpa [specStep] using h
  · have hp : 0 < l.length := List.length_pos_iff.2 hc
    obtain ⟨s', A, x, B, inv, hx, hit, e1, e2, sm, lA, i', v'⟩ := erase1_ok h hp
    obtain ⟨p, q1, q2⟩ := iter_zero h
    rw [hit] at q2; cases q2
    refine ⟨s', ?_, sm, A ++ B, i', ?_⟩
    · simp [popFront, Good.emptyb h, hc, specStep, bind, Except.bind, q1, e2]
    · simpa [specStep, hc] using v'

theorem popBack_ok (h : ∃ ns, Inv s ns ∧ Vals s ns l) (hl : s.check = true ∨ l ≠ []) : Does s (popBack s) (specStep (cfgOf s) l .popBack).1 (specStep (cfgOf s) l .popBack).2 := by
  by_cases hc : l = []
  · refine ⟨s, ?_, Same.refl s, ?_⟩
    · simp [popBack, Good.emptyb h, hc, hl.resolve_right (by simp [hc]), specStep, bind, Except.bind]
    · subst hc; simpa [specStep] using h
  · have hp : 0 < l.length := List.length_pos_iff.2 hc
    obtain ⟨s', A, x, B, inv, hx, hit, e1, e2, sm, lA, i', v'⟩ := erase1_ok h (i := l.length - 1) (by omega)
    have hB : B = [] := by
      have := Good.sz h; rw [inv.pl.size] at this; simp at this
      exact List.eq_nil_of_length_eq_zero (by omega)
    subst hB
    have hpv := inv.circ.last
    have : (T :: (A ++ [x])).getLast (by simp) = x := getLast_cons_concat _ _ _ _
    rw [this] at hpv
    refine ⟨s', ?_, sm, A ++ [], i', ?_⟩
    · simp [popBack, Good.emptyb h, hc, specStep, bind, Except.bind, prev_ok inv.circ.tv, hpv, e2]
    · rw [List.eraseIdx_length_sub_one] at v'
      simpa [specStep, hc] using v'

theorem eraseOp_ok (h : ∃ ns, Inv s ns ∧ Vals s ns l) {i : Nat} (hi : i < l.length) :
    Does s (step s (.erase i)) (specStep (cfgOf s) l (.erase i)).1 (specStep (cfgOf s) l (.erase i)).2 := by
  obtain ⟨s', A, x, B, inv, hx, hit, e1, e2, sm, lA, i', v'⟩ := erase1_ok h hi
  refine ⟨s', ?_, sm, _, i', v'⟩
  have hpos := position_ok i' (p := i) (by simp; omega)
  rw [← lA, nodeAt_app0, lA] at hpos
  simp [step, hit, e1, hpos, specStep, bind, Except.bind]

theorem eraseRange1_ok (h : ∃ ns, Inv s ns ∧ Vals s ns l) {i j : Nat} (hij : i ≤ j) (hj : j ≤ l.length) :
    ∃ s' A B p q, iter s i = .ok p ∧ iter s j = .ok q ∧ q = nodeAt T B 0 ∧ eraseRange s p q = .ok s' ∧ Same s s' ∧ A.length = i ∧ Inv s' (A ++ B) ∧ Vals s' (A ++ B) (l.take i ++ l.drop j) := by
  obtain ⟨ns, inv, hv⟩ := h
  have hsplit : l = l.take i ++ (l.drop i).take (j - i) ++ l.drop j := by
    have : l.drop j = (l.drop i).drop (j - i) := by rw [List.drop_drop]; congr 1; omega
    rw [this, List.append_assoc, List.take_append_drop, List.take_append_drop]
  have hv' := hv
  rw [hsplit] at hv'
  obtain ⟨AM, B, rfl, h1, hB⟩ := hv'.split
  obtain ⟨A, M, rfl, hA, hM⟩ := h1.split
  have lA : A.length = i := by rw [hA.len, List.length_take]; omega
  have lM : M.length = j - i := by rw [hM.len, List.length_take, List.length_drop]; omega
  have lB : B.length = l.length - j := by rw [hB.len, List.length_drop]
  obtain ⟨s', e, i', sm, v1⟩ := eraseRange_ok inv
  have hnb : nodeAt T (A ++ M ++ B) (A.length + M.length) = nodeAt T B 0 := by
    rw [← List.length_append, nodeAt_app0]
  refine ⟨s', A, B, nodeAt T (A ++ M ++ B) A.length, nodeAt T (A ++ M ++ B) (A.length + M.length), ?_, ?_, hnb, e, sm, lA, i', ?_⟩
  · rw [iter_ok inv (by simp; omega), lA]
  · rw [iter_ok inv (by simp; omega), lA, lM]; congr 2; omega
  · exact (hA.congr (fun y hy => v1 y (by simp [hy]))).append (hB.congr (fun y hy => v1 y (by simp [hy])))

theorem eraseRangeOp_ok (h : ∃ ns, Inv s ns ∧ Vals s ns l) {i j : Nat} (hij : i ≤ j) (hj : j ≤ l.length) :
    Does s (step s (.eraseRange i j)) (specStep (cfgOf s) l (.eraseRange i j)).1 (specStep (cfgOf s) l (.eraseRange i j)).2 := by
  obtain ⟨s', A, B, p, q, h1, h2, h3, e, sm, lA, i', v'⟩ := eraseRange1_ok h hij hj
  refine ⟨s', ?_, sm, _, i', v'⟩
  have hpos := position_ok i' (p := i) (by simp; omega)
  rw [← lA, nodeAt_app0, lA, ← h3] at hpos
  simp [step, h1, h2, e, hpos, specStep, bind, Except.bind]

theorem clear_ok (h : ∃ ns, Inv s ns ∧ Vals s ns l) : ∃ s', initialise s = .ok s' ∧ Same s s' ∧ Inv s' [] := by
  obtain ⟨ns, inv, hv⟩ := h
  obtain ⟨s', e, i', sm⟩ := initialise_ok inv
  exact ⟨s', e, sm, i'⟩

theorem clearOp_ok (h : ∃ ns, Inv s ns ∧ Vals s ns l) : Does s (clear s) [] .ok := by
  obtain ⟨s', e, sm, i'⟩ := clear_ok h
  exact ⟨s', by simp [clear, e, bind, Except.bind], sm, [], i', rfl⟩

theorem assign_ok (h : ∃ ns, Inv s ns ∧ Vals s ns l) (vs : List α) :
    Does s (assign s vs) (specStep (cfgOf s) l (.assign vs)).1 (specStep (cfgOf s) l (.assign vs)).2 := by
  obtain ⟨s1, e1, sm1, i1⟩ := clear_ok h
  obtain ⟨s2, N, e2, i2, sm2, v1, _⟩ := appendAll_ok vs i1
  simp only [sm1.1, List.length_nil, Nat.zero_add, Nat.sub_zero] at e2 v1
  by_cases hc : vs.length ≤ s.cap
  · refine ⟨s2, ?_, sm1.trans sm2, N, by simpa using i2, ?_⟩
    · have : decide (vs.length > s.cap) = false := decide_eq_false (by omega)
      simp [assign, this, e1, e2, bind, Except.bind, specStep, cfgOf, hc]
    · rw [List.take_of_length_le hc] at v1
      simpa only [specStep, cfgOf, hc, if_true] using v1
  · have hd : decide (vs.length > s.cap) = true := decide_eq_true (by omega)
    cases hk : s.dbg with
    | true =>
      refine ⟨s, ?_, Same.refl s, ?_⟩
      · simp [assign, hd, hk, specStep, cfgOf, hc]
      · simpa [specStep, cfgOf, hc, hk] using h
    | false =>
      refine ⟨s2, ?_, sm1.trans sm2, N, by simpa using i2, ?_⟩
      · simp [assign, hk, e1, e2, bind, Except.bind, specStep, cfgOf, hc]
      · simpa [specStep, cfgOf, hc, hk] using v1

theorem resize_ok (h : ∃ ns, Inv s ns ∧ Vals s ns l) (k : Nat) (v : α) :
    Does s (resize s k v) (specStep (cfgOf s) l (.resize k v)).1 (specStep (cfgOf s) l (.resize k v)).2 := by
  have hsz := Good.sz h
  have hle := Good.le h
  unfold resize
  by_cases hc : k ≤ s.cap
  · simp only [hc, if_true, specStep, cfgOf, hsz]
    by_cases h0 : k = 0
    · subst h0
      simpa using clearOp_ok h
    · rw [if_neg h0]
      by_cases h1 : k < l.length
      · rw [if_pos h1]
        obtain ⟨s', A, B, p, q, g1, g2, g3, e, sm, lA, i', v'⟩ := eraseRange1_ok h (Nat.le_of_lt h1) (Nat.le_refl _)
        have hback : back s.h T (l.length - k) = .ok p := by
          obtain ⟨ns, inv, hv⟩ := h
          have := back_ok inv (l.length - k) ns.length (by rw [hv.len]; omega) (Nat.le_refl _)
          rw [nodeAt_len (Nat.le_refl _), hv.len] at this
          rw [this]
          rw [iter_ok inv (by rw [hv.len]; omega)] at g1
          cases g1; congr 2; omega
        have hq : q = T := by have := iter_end h; rw [this] at g2; cases g2; rfl
        subst hq
        refine ⟨s', ?_, sm, A ++ B, i', ?_⟩
        · simp [hback, e, bind, Except.bind]
        · rw [List.drop_length] at v'
          rw [show k - l.length = 0 by omega]; simpa using v'
      · rw [if_neg h1]
        by_cases h2 : k > l.length
        · rw [if_pos h2]
          obtain ⟨A, B, inv, hA, hB, lA, lB, hit⟩ := Good.at h (Nat.le_refl _)
          have hB0 : B = [] := List.eq_nil_of_length_eq_zero (by omega)
          subst hB0
          obtain ⟨s', e, sm, g⟩ := insertAllAt_ok inv hA hB (List.replicate (k - l.length) v)
          rw [show nodeAt T ([] : List Nat) 0 = T from rfl] at e
          refine ⟨s', ?_, sm, ?_⟩
          · rw [e]; simp; omega
          · have ht : (List.replicate (k - l.length) v).take (s.cap - (l.length + 0)) = List.replicate (k - l.length) v := List.take_of_length_le (by simp; omega)
            simp only [List.take_length, List.drop_length, List.length_nil, List.append_nil] at g
            rw [ht] at g
            rw [List.take_of_length_le (by omega)]
            exact g
        · rw [if_neg h2]
          have : k = l.length := by omega
          subst this
          exact ⟨s, rfl, Same.refl s, by simpa using h⟩
  · simp only [hc, if_false, specStep, cfgOf]
    exact ⟨s, rfl, Same.refl s, h⟩

theorem removeIf_ok (h : ∃ ns, Inv s ns ∧ Vals s ns l) (f : α → Bool) : Does s (removeIf f s) (l.filter (fun x => !f x)) .ok := by
  have hle := Good.le h
  obtain ⟨ns, inv, hv⟩ := h
  obtain ⟨s', B, e, i', sm, v', _⟩ := removeLoop_ok f (s.cap + 1) (A := []) (B := ns) (by simpa using inv) hv (by omega)
  refine ⟨s', ?_, sm, B, by simpa using i', v'⟩
  simp only [removeIf, next_ok inv.circ.tv, inv.circ.first, e, bind, Except.bind]

theorem unique_ok (h : ∃ ns, Inv s ns ∧ Vals s ns l) (eq : α → α → Bool) : Does s (unique eq s) (uniqueOf eq l) .ok := by
  have hle := Good.le h
  have hem := Good.emptyb h
  cases l with
  | nil => exact ⟨s, by simp [unique, hem, bind, Except.bind], Same.refl s, by simpa [uniqueOf] using h⟩
  | cons a l =>
    obtain ⟨ns, inv, hv⟩ := h
    obtain ⟨p, N, rfl, hp, hN⟩ := hv.cons_split
    obtain ⟨s', B, e, i', sm, v', _⟩ := uniqueLoop_ok eq (s.cap + 1) (A := []) (by simpa using inv) hp hN (by simp at hle; omega)
    refine ⟨s', ?_, sm, B, by simpa using i', v'⟩
    have h1 : s.h.nx T = p := inv.circ.first
    have h2 : s.h.nx p = nodeAt T N 0 := Inv.nx_mid (A := []) (by simpa using inv)
    simp [unique, hem, next_ok inv.circ.tv, h1, next_ok (inv.valid (x := p) (by simp)), h2, e, bind, Except.bind]

theorem reverse_ok (h : ∃ ns, Inv s ns ∧ Vals s ns l) : Does s (reverse s) l.reverse .ok := by
  have hsz := Good.sz h
  unfold reverse
  rw [hsz]
  by_cases h2 : l.length < 2
  · rw [if_pos h2]
    have : l.reverse = l := by
      rcases l with _ | ⟨a, _ | ⟨b, l⟩⟩
      · rfl
      · rfl
      · exact absurd h2 (by simp)
    exact ⟨s, rfl, Same.refl s, by rw [this]; exact h⟩
  · rw [if_neg h2]
    obtain ⟨ns, inv, hv⟩ := h
    have hnd := List.nodup_cons.1 inv.circ.nd
    obtain ⟨h', e, hl, s1, _⟩ := reverseLoop_ok (s.cap + 2) (M := ns) (h := s.h) (by simpa using inv.circ.ch.fw.tail)
      (List.nodup_append.2 ⟨hnd.2, by simp, fun a ha b hb => by rw [List.mem_singleton.1 hb]; rintro rfl; exact hnd.1 ha⟩)
      (fun x hx => inv.circ.ok x (by simp at hx ⊢; tauto)) (by have := inv.len; omega)
    have hc := inv.circ.reversed (h' := h') hl (fun x hx => s1 x (by simp at hx ⊢; tauto))
    refine ⟨{ s with h := h' }, ?_, ⟨rfl, rfl, rfl, rfl⟩, ns.reverse, ⟨hc, (inv.pl.links hl).perm (List.reverse_perm ns).symm⟩, ?_⟩
    · simp only [next_ok inv.circ.tv, inv.circ.first, e, bind, Except.bind]
    · show ns.reverse.map s.val = _
      rw [List.map_reverse, hv, List.map_reverse]

theorem sort_ok (h : ∃ ns, Inv s ns ∧ Vals s ns l) {lt : α → α → Bool} (ho : StrictWeak lt) : Does s (sort lt s) (isort lt l) .ok := by
  have hsz := Good.sz h
  unfold sort
  rw [hsz]
  by_cases h2 : l.length < 2
  · rw [if_pos h2]
    have : isort lt l = l := by
      rcases l with _ | ⟨a, _ | ⟨b, l⟩⟩
      · rfl
      · rfl
      · exact absurd h2 (by simp)
    exact ⟨s, rfl, Same.refl s, by rw [this]; exact h⟩
  · rw [if_neg h2]
    obtain ⟨ns, inv, hv⟩ := h
    obtain ⟨d, l0, rfl⟩ : ∃ d l0, l = d :: l0 := by
      cases l with
      | nil => simp at h2
      | cons d l0 => exact ⟨d, l0, rfl⟩
    let vf : Nat → α := fun n => match s.val n with | .live v => v | _ => d
    have hvf : ∀ x ∈ ns, s.val x = .live (vf x) := by
      intro x hx
      have : s.val x ∈ ns.map s.val := List.mem_map_of_mem hx
      rw [hv] at this
      obtain ⟨v, _, e⟩ := List.mem_map.1 this
      simp only [vf, ← e]
    have hmap : ns.map vf = d :: l0 := by
      have : ns.map s.val = (ns.map vf).map Cell.live := by rw [List.map_map]; exact List.map_congr_left hvf
      rw [hv] at this
      exact ((List.map_inj_right (fun _ _ h => live_inj h)).1 this).symm
    have hne : ns ≠ [] := by rintro rfl; simp at hmap
    obtain ⟨h', l', e, hl, hc, hs, _⟩ := sortLinks_ok (cmp := cmpNodes lt s) (ho.comap vf) inv.circ hne (fun x hx y hy => by
      simp [cmpNodes, inv.read hx (hvf x hx), inv.read hy (hvf y hy), bind, Except.bind]) (by have := inv.len; rw [inv.pl.lim]; omega)
    refine ⟨{ s with h := h' }, by simp [e, bind, Except.bind], ⟨rfl, rfl, rfl, rfl⟩, l', ⟨hc, (inv.pl.links hl).perm hs.perm.symm⟩, ?_⟩
    have h3 := (IsStableSort.map ho vf hs).eq_isort ho
    rw [hmap] at h3
    rw [← h3]
    show l'.map s.val = (l'.map vf).map Cell.live
    rw [List.map_map]
    exact List.map_congr_left (fun x hx => hvf x (hs.perm.mem_iff.1 hx))

theorem split3 {i j : Nat} (l : List α) (hij : i ≤ j) : l = l.take i ++ (l.drop i).take (j - i) ++ l.drop j := by
  have : l.drop j = (l.drop i).drop (j - i) := by rw [List.drop_drop]; congr 1; omega
  rw [this, List.append_assoc, List.take_append_drop, List.take_append_drop]

/-- Relinking a non-empty range in front of a node outside it. -/
theorem moveAt_ok (h : ∃ ns, Inv s ns ∧ Vals s ns l) {i j k : Nat} (hi : i ≤ l.length) (hjk : j < k) (hk : k ≤ l.length) (ho : i < j ∨ k ≤ i) :
    ∃ h' p q r, iter s i = .ok p ∧ iter s j = .ok q ∧ iter s k = .ok r ∧ moveLinks s.h p q r = .ok h' ∧ ∃ ns, Inv { s with h := h' } ns ∧ Vals { s with h := h' } ns (moved l i j k) := by
  obtain ⟨ns, inv, hv⟩ := h
  have hv' := hv
  by_cases hij : i < j
  · have e1 : l = l.take i ++ (l.drop i).take (j - i) ++ ((l.drop j).take (k - j) ++ l.drop k) := by
      have h3 := split3 l (Nat.le_of_lt hij)
      have h4 := split3 (i := 0) (j := k - j) (l.drop j) (Nat.zero_le _)
      simp only [List.take_zero, List.drop_zero, List.nil_append, List.drop_drop, Nat.sub_zero, Nat.add_zero] at h4
      rw [show j + (k - j) = k by omega] at h4
      rw [← h4]; exact h3
    rw [e1] at hv'
    obtain ⟨PX, MB, rfl, g1, g2⟩ := hv'.split
    obtain ⟨P, X, rfl, hP, hX⟩ := g1.split
    obtain ⟨M, B, rfl, hM, hB⟩ := g2.split
    have lP : P.length = i := by rw [hP.len, List.length_take]; omega
    have lX : X.length = j - i := by rw [hX.len, List.length_take, List.length_drop]; omega
    have lM : M.length = k - j := by rw [hM.len, List.length_take, List.length_drop]; omega
    have lB : B.length = l.length - k := by rw [hB.len, List.length_drop]
    have hMne : M ≠ [] := by rintro rfl; simp at lM; omega
    obtain ⟨h', e, hl, hc⟩ := moveLinks_ok (A := P ++ X) (M := M) (B := B) (P := P) (Q := X ++ B) (by simpa using inv.circ) hMne (by simp)
    have hpi : nodeAt T (P ++ X ++ (M ++ B)) i = nodeAt T (X ++ B) 0 := by
      rw [← lP]; simp only [List.append_assoc]; rw [nodeAt_app0]
      obtain ⟨x, X', rfl⟩ := List.exists_cons_of_ne_nil (l := X) (by rintro rfl; simp at lX; omega)
      rfl
    have hpj : nodeAt T (P ++ X ++ (M ++ B)) j = M.head hMne := by
      rw [show j = (P ++ X).length by simp; omega, nodeAt_app0]
      obtain ⟨m, M', rfl⟩ := List.exists_cons_of_ne_nil hMne
      rfl
    have hpk : nodeAt T (P ++ X ++ (M ++ B)) k = nodeAt T B 0 := by
      rw [show k = (P ++ X ++ M).length by simp; omega, ← List.append_assoc, nodeAt_app0]
    refine ⟨h', nodeAt T (X ++ B) 0, M.head hMne, nodeAt T B 0, by rw [← hpi]; exact iter_ok inv (by simp; omega), by rw [← hpj]; exact iter_ok inv (by simp; omega), by rw [← hpk]; exact iter_ok inv (by simp; omega), e, P ++ M ++ (X ++ B), ⟨hc, (inv.pl.links hl).perm ?_⟩, ?_⟩
    · simp only [List.append_assoc]
      exact (List.perm_append_comm_assoc X M B).append_left P
    · show (P ++ M ++ (X ++ B)).map s.val = _
      have := (hP.append hM).append (hX.append hB)
      rw [Vals] at this
      rw [this, moved, if_pos (Nat.le_of_lt hij)]; simp
  · have hki : k ≤ i := by omega
    have e1 : l = l.take j ++ (l.drop j).take (k - j) ++ ((l.drop k).take (i - k) ++ l.drop i) := by
      have h3 := split3 l (Nat.le_of_lt hjk)
      have h4 := split3 (i := 0) (j := i - k) (l.drop k) (Nat.zero_le _)
      simp only [List.take_zero, List.drop_zero, List.nil_append, List.drop_drop, Nat.sub_zero, Nat.add_zero] at h4
      rw [show k + (i - k) = i by omega] at h4
      rw [← h4]; exact h3
    rw [e1] at hv'
    obtain ⟨PX, MB, rfl, g1, g2⟩ := hv'.split
    obtain ⟨P, M, rfl, hP, hM⟩ := g1.split
    obtain ⟨X, B, rfl, hX, hB⟩ := g2.split
    have lP : P.length = j := by rw [hP.len, List.length_take]; omega
    have lX : X.length = i - k := by rw [hX.len, List.length_take, List.length_drop]; omega
    have lM : M.length = k - j := by rw [hM.len, List.length_take, List.length_drop]; omega
    have lB : B.length = l.length - i := by rw [hB.len, List.length_drop]
    have hMne : M ≠ [] := by rintro rfl; simp at lM; omega
    obtain ⟨h', e, hl, hc⟩ := moveLinks_ok (A := P) (M := M) (B := X ++ B) (P := P ++ X) (Q := B) (by simpa using inv.circ) hMne (by simp)
    have hpi : nodeAt T (P ++ M ++ (X ++ B)) i = nodeAt T B 0 := by
      rw [show i = (P ++ M ++ X).length by simp; omega, ← List.append_assoc, nodeAt_app0]
    have hpj : nodeAt T (P ++ M ++ (X ++ B)) j = M.head hMne := by
      rw [← lP]; simp only [List.append_assoc]; rw [nodeAt_app0]
      obtain ⟨m, M', rfl⟩ := List.exists_cons_of_ne_nil hMne
      rfl
    have hpk : nodeAt T (P ++ M ++ (X ++ B)) k = nodeAt T (X ++ B) 0 := by
      rw [show k = (P ++ M).length by simp; omega, nodeAt_app0]
    refine ⟨h', nodeAt T B 0, M.head hMne, nodeAt T (X ++ B) 0, by rw [← hpi]; exact iter_ok inv (by simp; omega), by rw [← hpj]; exact iter_ok inv (by simp; omega), by rw [← hpk]; exact iter_ok inv (by simp; omega), e, P ++ X ++ M ++ B, ⟨hc, (inv.pl.links hl).perm ?_⟩, ?_⟩
    · simp only [List.append_assoc]
      exact (List.perm_append_comm_assoc M X B).append_left P
    · show (P ++ X ++ M ++ B).map s.val = _
      have := ((hP.append hX).append hM).append hB
      rw [Vals] at this
      rw [this, moved, if_neg (by omega)]

theorem moved_same (l : List α) {i j k : Nat} (hjk : j ≤ k) (h : i = j ∨ i = k) : moved l i j k = l := by
  have h3 := split3 l hjk
  unfold moved
  by_cases h1 : i = j
  · subst h1; simp only [Nat.le_refl, if_true, Nat.sub_self, List.take_zero, List.append_nil]; exact h3.symm
  · have h2 : i = k := by omega
    subst h2; rw [if_neg (by omega)]; simp only [Nat.sub_self, List.take_zero, List.append_nil]; exact h3.symm

theorem iter_eq (h : ∃ ns, Inv s ns ∧ Vals s ns l) {i j p q : Nat} (hi : i ≤ l.length) (hj : j ≤ l.length) (h1 : iter s i = .ok p) (h2 : iter s j = .ok q) : p = q ↔ i = j := by
  obtain ⟨ns, inv, hv⟩ := h
  rw [iter_ok inv (by rw [hv.len]; exact hi)] at h1
  rw [iter_ok inv (by rw [hv.len]; exact hj)] at h2
  cases h1; cases h2
  exact nodeAt_inj inv (by rw [hv.len]; exact hi) (by rw [hv.len]; exact hj)

theorem iter_ex (h : ∃ ns, Inv s ns ∧ Vals s ns l) {i : Nat} (hi : i ≤ l.length) : ∃ p, iter s i = .ok p := by
  obtain ⟨A, B, inv, hA, hB, lA, lB, hit⟩ := Good.at h hi
  exact ⟨_, hit⟩

theorem moveOneOp_ok (h : ∃ ns, Inv s ns ∧ Vals s ns l) {i j : Nat} (hi : i ≤ l.length) (hj : j < l.length) :
    Does s (step s (.moveOne i j)) (moved l i j (j + 1)) .ok := by
  by_cases hij : i = j
  · subst hij
    obtain ⟨p, hp⟩ := iter_ex h hi
    refine ⟨s, ?_, Same.refl s, by rw [moved_same l (by omega) (Or.inl rfl)]; exact h⟩
    simp [step, hp, moveOne, bind, Except.bind]
  · obtain ⟨h', p, q, r, h1, h2, h3, e, g⟩ := moveAt_ok h hi (Nat.lt_succ_self j) hj (by omega)
    refine ⟨{ s with h := h' }, ?_, ⟨rfl, rfl, rfl, rfl⟩, g⟩
    have hpq : q ≠ p := fun x => hij ((iter_eq h hi (Nat.le_of_lt hj) h1 h2).1 x.symm)
    obtain ⟨A, B, inv, hA, hB, lA, lB, hit⟩ := Good.at h (Nat.le_of_lt hj)
    rw [List.drop_eq_getElem_cons hj] at hB
    obtain ⟨x, N, rfl, hx, hN⟩ := hB.cons_split
    rw [h2] at hit
    have hqx : q = x := by cases hit; rfl
    subst hqx
    have hr : r = s.h.nx q := by
      have := h3
      rw [iter_ok inv (by simp; omega), ← lA, Nat.succ_eq_add_one, nodeAt_append] at this
      rw [inv.nx_mid]
      cases this; rfl
    have hpr : s.h.pv r = q := by
      have := inv.circ.pv_at (i := A.length + 1) (by simp)
      rw [if_neg (by omega), Nat.add_sub_cancel, nodeAt_mid] at this
      rw [hr, inv.nx_mid]
      rw [nodeAt_append] at this; exact this
    have hrv : s.h.valid r := by rw [hr, inv.nx_mid]; exact valid_at (A := A ++ [q]) (by simpa using inv)
    have hqv := inv.valid (x := q) (by simp)
    simp only [step, h1, h2, bind, Except.bind, moveOne]
    rw [if_neg hpq]
    simp only [moveLinks, prev_ok hrv, prev_ok hqv, bind, Except.bind] at e
    simp only [prev_ok hqv, next_ok hqv, ← hr]
    rw [hpr] at e
    cases e1 : s.h.join (s.h.pv q) r with
    | error u => rw [e1] at e; cases e
    | ok h1' =>
      rw [e1] at e; simp only at e ⊢
      cases e2 : h1'.prev p with
      | error u => rw [e2] at e; cases e
      | ok r' =>
        rw [e2] at e; simp only at e ⊢
        cases e3 : h1'.join r' q with
        | error u => rw [e3] at e; cases e
        | ok h2' => rw [e3] at e; simp only at e ⊢; simp only [e]

theorem moveRangeOp_ok (h : ∃ ns, Inv s ns ∧ Vals s ns l) {i j k : Nat} (hi : i ≤ l.length) (hjk : j ≤ k) (hk : k ≤ l.length) (hne : j < k ∨ i = j) (hd : s.dbg = true ∨ i ≤ j ∨ k ≤ i) :
    Does s (step s (.moveRange i j k)) (specStep (cfgOf s) l (.moveRange i j k)).1 (specStep (cfgOf s) l (.moveRange i j k)).2 := by
  obtain ⟨p, hp⟩ := iter_ex h hi
  obtain ⟨q, hq⟩ := iter_ex h (show j ≤ l.length by omega)
  obtain ⟨r, hr⟩ := iter_ex h hk
  have e1 := iter_eq h (show j ≤ l.length by omega) hi hq hp
  have e2 := iter_eq h hk hi hr hp
  by_cases h0 : i = j ∨ i = k
  · refine ⟨s, ?_, Same.refl s, ?_⟩
    · have : q = p ∨ r = p := h0.elim (fun x => Or.inl (e1.2 x.symm)) (fun x => Or.inr (e2.2 x.symm))
      have h5 : ¬ (j < i ∧ i < k) := by omega
      simp [step, hp, hq, hr, moveRange, this, specStep, h5, bind, Except.bind]
    · have h5 : ¬ (j < i ∧ i < k) := by omega
      simp only [specStep, h5, if_false]
      rw [moved_same l hjk h0]; exact h
  · have h0' : ¬ (q = p ∨ r = p) := fun x => h0 (x.elim (fun y => Or.inl (e1.1 y).symm) (fun y => Or.inr (e2.1 y).symm))
    have hck : (if s.dbg then inRange s.h p q r (s.cap + 1) else Except.ok false) = Except.ok (decide (s.dbg = true ∧ j < i ∧ i < k)) := by
      cases hdb : s.dbg with
      | false => simp
      | true =>
        have hle := Good.le h
        obtain ⟨ns, inv, hv⟩ := h
        have hl := hv.len
        have := inRange_ok inv (to := i) (last := k) (by omega) (by omega) (s.cap + 1) j hjk (by omega)
        rw [iter_ok inv (by omega)] at hp hq hr
        cases hp; cases hq; cases hr
        simp only [if_true, true_and, this]
        congr 1
        have : (j ≤ i ∧ i < k) ↔ (j < i ∧ i < k) := by omega
        simp only [this]
    by_cases hin : j < i ∧ i < k
    · have hdb : s.dbg = true := hd.resolve_right (by omega)
      refine ⟨s, ?_, Same.refl s, by simpa only [specStep, hin, and_self, if_true] using h⟩
      have : decide (s.dbg = true ∧ j < i ∧ i < k) = true := decide_eq_true ⟨hdb, hin⟩
      rw [this] at hck
      simp only [step, hp, hq, hr, moveRange, bind, Except.bind]
      rw [if_neg h0', hck]
      simp [specStep, hin]
    · obtain ⟨h', p', q', r', g1, g2, g3, e, g⟩ := moveAt_ok h hi (show j < k by omega) hk (by omega)
      rw [hp] at g1; rw [hq] at g2; rw [hr] at g3
      cases g1; cases g2; cases g3
      refine ⟨{ s with h := h' }, ?_, ⟨rfl, rfl, rfl, rfl⟩, by simpa only [specStep, hin, if_false] using g⟩
      have : decide (s.dbg = true ∧ j < i ∧ i < k) = false := decide_eq_false (fun x => hin x.2)
      rw [this] at hck
      simp only [step, hp, hq, hr, moveRange, bind, Except.bind]
      rw [if_neg h0', hck]
      simp [specStep, hin, e]

theorem step_ok (h : ∃ ns, Inv s ns ∧ Vals s ns l) (o : Op α) (hl : Legal (cfgOf s) l o) :
    Does s (step s o) (specStep (cfgOf s) l o).1 (specStep (cfgOf s) l o).2 := by
  cases o with
  | assign vs => exact assign_ok h vs
  | clear => exact clearOp_ok h
  | resize k v => exact resize_ok h k v
  | pushFront v => exact pushFront_ok h v
  | pushBack v => exact pushBack_ok h v
  | popFront => exact popFront_ok h hl
  | popBack => exact popBack_ok h hl
  | insert i v => exact insert_ok h hl v
  | insertAll i vs => exact insertAllOp_ok h hl vs
  | erase i => exact eraseOp_ok h hl
  | eraseRange i j => exact eraseRangeOp_ok h hl.1 hl.2
  | removeIf f => exact removeIf_ok h f
  | unique eq => exact unique_ok h eq
  | reverse => exact reverse_ok h
  | sort lt => exact sort_ok h hl
  | moveOne i j => exact moveOneOp_ok h hl.1 hl.2
  | moveRange i j k => exact moveRangeOp_ok h hl.1 hl.2.1 hl.2.2.1 hl.2.2.2.1 hl.2.2.2.2

theorem Good.step {c : Cfg} (h : Good c s l) (o : Op α) (hl : Legal c l o) :
    ∃ s', step s o = .ok (s', (specStep c l o).2) ∧ Good c s' (specStep c l o).1 := by
  obtain ⟨rfl, g⟩ := h
  obtain ⟨s', e, sm, g'⟩ := step_ok g o hl
  exact ⟨s', e, sm.cfg, g'⟩
end Steps

/-! ### Two lists -/

section Two
variable {a b : St α} {la lb : List α}

theorem spliceRange_ok (ha : ∃ ns, Inv a ns ∧ Vals a ns la) (hb : ∃ ns, Inv b ns ∧ Vals b ns lb) {i j k : Nat} (hi : i ≤ la.length) (hjk : j ≤ k) (hk : k ≤ lb.length) {p q r : Nat}
    (hp : iter a i = .ok p) (hq : iter b j = .ok q) (hr : iter b k = .ok r) :
    ∃ a' b', spliceRange a p b q r = .ok (a', b', if la.length + (k - j) ≤ a.cap then .ok else .err .full) ∧ Same a a' ∧ Same b b' ∧
      (∃ ns, Inv a' ns ∧ Vals a' ns (la.take i ++ ((lb.drop j).take (k - j)).take (a.cap - la.length) ++ la.drop i)) ∧
      (∃ ns, Inv b' ns ∧ Vals b' ns (if la.length + (k - j) ≤ a.cap then lb.take j ++ lb.drop k else lb)) := by
  obtain ⟨b1, A1, B1, q', r', hq', hr', hr1, eb, smb, _, ib1, vb1⟩ := eraseRange1_ok hb hjk hk
  rw [hq] at hq'; rw [hr] at hr'
  cases hq'; cases hr'
  obtain ⟨A, B, inv, hA, hB, lA, lB, hit⟩ := Good.at ha hi
  rw [hp] at hit; cases hit
  have hlb := Good.le hb
  have hb' := hb
  obtain ⟨ns, invb, hvb⟩ := hb'
  have hvb' := hvb
  rw [split3 lb hjk] at hvb'
  obtain ⟨UM, W, rfl, g1, hW⟩ := hvb'.split
  obtain ⟨U, M, rfl, hU, hM⟩ := g1.split
  have lU : U.length = j := by rw [hU.len, List.length_take]; omega
  have lM : M.length = k - j := by rw [hM.len, List.length_take, List.length_drop]; omega
  have lW : W.length = lb.length - k := by rw [hW.len, List.length_drop]
  have hqq : q = nodeAt T (M ++ W) 0 := by
    rw [iter_ok invb (by simp; omega), ← lU, List.append_assoc, nodeAt_app0] at hq; cases hq; rfl
  have hrr : r = nodeAt T W 0 := by
    rw [iter_ok invb (by simp; omega), show k = (U ++ M).length by simp; omega, nodeAt_app0] at hr; cases hr; rfl
  have hw := walk_seg (b.cap + 1) invb (by omega)
  have hmm := mapM_read invb (B := M) (fun x hx => by simp [hx]) hM
  obtain ⟨a1, ea, sma, ga⟩ := insertAllAt_ok inv hA hB ((lb.drop j).take (k - j))
  have hl1 : (la.take i).length + (la.drop i).length = la.length := by simp; omega
  have hl2 : ((lb.drop j).take (k - j)).length = k - j := by rw [← hM.len]; exact lM
  rw [hl1, hl2] at ea
  rw [hl1] at ga
  by_cases hc : la.length + (k - j) ≤ a.cap
  · refine ⟨a1, b1, ?_, sma, smb, ga, by simp only [hc, if_true]; exact ⟨_, ib1, vb1⟩⟩
    simp only [spliceRange, bind, Except.bind]
    rw [← hqq, ← hrr] at hw
    simp only [hw, hmm, ea, hc, if_true, eb]
  · refine ⟨a1, b, ?_, sma, Same.refl b, ga, by simp only [hc, if_false]; exact hb⟩
    simp only [spliceRange, bind, Except.bind]
    rw [← hqq, ← hrr] at hw
    simp only [hw, hmm, ea, hc, if_false]

theorem spliceOne_ok (ha : ∃ ns, Inv a ns ∧ Vals a ns la) (hb : ∃ ns, Inv b ns ∧ Vals b ns lb) {i j : Nat} (hi : i ≤ la.length) (hj : j < lb.length) {p q : Nat}
    (hp : iter a i = .ok p) (hq : iter b j = .ok q) :
    ∃ a' b', spliceOne a p b q = .ok (a', b', if la.length < a.cap then .ok else .err .full) ∧ Same a a' ∧ Same b b' ∧
      (∃ ns, Inv a' ns ∧ Vals a' ns (if la.length < a.cap then la.take i ++ (lb.drop j).take 1 ++ la.drop i else la)) ∧
      (∃ ns, Inv b' ns ∧ Vals b' ns (if la.length < a.cap then lb.eraseIdx j else lb)) := by
  obtain ⟨b1, A, x, B, invb, hx, hit, e1, e2, smb, lA, ib', vb'⟩ := erase1_ok hb hj
  rw [hq] at hit; cases hit
  have hread := invb.read (x := q) (by simp) hx
  by_cases hc : la.length < a.cap
  · obtain ⟨a1, n, hf, ea, sma, ga⟩ := pushAny_ok ha hi hp lb[j] hc
    refine ⟨a1, b1, ?_, sma, smb, ?_, by simp only [hc, if_true]; exact ⟨_, ib', vb'⟩⟩
    · simp [spliceOne, hread, insert, hf, ea, e1, hc, bind, Except.bind]
    · simp only [hc, if_true]
      have : (lb.drop j).take 1 = [lb[j]] := by rw [List.drop_eq_getElem_cons hj]; rfl
      rw [this]; simpa using ga
  · obtain ⟨hf, _⟩ := pushAny_full ha p lb[j] hc
    refine ⟨a, b, ?_, Same.refl a, Same.refl b, by simp only [hc, if_false]; exact ha, by simp only [hc, if_false]; exact hb⟩
    simp [spliceOne, hread, insert, hf, hc, bind, Except.bind]

theorem merge_ok {lt : α → α → Bool} (ho : StrictWeak lt) (ha : ∃ ns, Inv a ns ∧ Vals a ns la) (hb : ∃ ns, Inv b ns ∧ Vals b ns lb) (hc : la.length + lb.length ≤ a.cap) (hne : lb ≠ [])
    (hsa : SortedBy lt la) (hsb : SortedBy lt lb) :
    ∃ a' b', merge lt a b = .ok (a', b', .ok) ∧ Same a a' ∧ Same b b' ∧ (∃ ns, Inv a' ns ∧ Vals a' ns (isort lt (la ++ lb))) ∧ (∃ ns, Inv b' ns ∧ Vals b' ns []) := by
  have hemp := Good.emptyb hb
  have hleb := Good.le hb
  obtain ⟨b1, eb, smb, ib1⟩ := clear_ok hb
  obtain ⟨ns, inv, hv⟩ := ha
  obtain ⟨ms, invb, hvb⟩ := hb
  have hl := hv.len
  obtain ⟨a1, A', B', Y', la', lb', wy', e, i1, sm1, v1, v2, ⟨YA', hY⟩, v3, hfin, hcont⟩ :=
    mergeLoop_ok (lt := lt) (b := b) (a.cap + b.cap + 2) (a := a) (A := []) (B := ns) (YA := []) (Y := ms) (la := []) (lb := la) (wy := lb) (by simpa using inv) rfl hv (by simpa using invb) hvb
      (by simp; omega) (by split_ifs <;> omega)
  simp only [List.nil_append] at hY hcont
  rw [mrg_eq_isort ho hsa hsb] at hcont
  have invb' : Inv b (YA' ++ Y' ++ []) := by rw [List.append_nil, ← hY]; exact invb
  have hlen := congrArg List.length hcont
  rw [(isort_perm lt _).length_eq] at hlen
  simp only [List.length_append] at hlen
  -- the rest
  have hrest : ∃ a2, mergeRest a1 b (nodeAt T B' 0) (nodeAt T Y' 0) = .ok (a2, .ok) ∧ Same a1 a2 ∧ ∃ ns, Inv a2 ns ∧ Vals a2 ns (isort lt (la ++ lb)) := by
    unfold mergeRest
    by_cases h0 : lb' = []
    · subst h0
      have hB := v2.nil_split; subst hB
      by_cases hw : wy' = []
      · subst hw
        have hY0 := v3.nil_split; subst hY0
        refine ⟨a1, by simp [nodeAt], Same.refl _, A' ++ [], i1, ?_⟩
        rw [← hcont]; simpa using v1
      · have hyne : nodeAt T Y' 0 ≠ T := by
          obtain ⟨w, wr, rfl⟩ := List.exists_cons_of_ne_nil hw
          obtain ⟨y, N, rfl, _, _⟩ := v3.cons_split
          exact invb'.neT (by simp [nodeAt])
        have hwk := walk_seg (b.cap + 1) (A := YA') (M := Y') (B := []) invb' (by have := invb'.len; simp at this; omega)
        simp only [List.append_nil] at hwk
        rw [show nodeAt T ([] : List Nat) 0 = T from rfl] at hwk
        have hmm := mapM_read invb' (B := Y') (fun x hx => by simp [hx]) v3
        obtain ⟨a2, e2, sm2, g2⟩ := insertAllAt_ok i1 v1 v2 wy'
        simp only [List.length_nil, Nat.add_zero] at hlen e2 g2
        rw [if_pos (by rw [sm1.1]; omega)] at e2
        refine ⟨a2, ?_, sm2, ?_⟩
        · rw [if_pos ⟨rfl, hyne⟩]
          simp only [hwk, hmm, bind, Except.bind]
          exact e2
        · rw [List.take_of_length_le (by rw [sm1.1]; omega)] at g2
          rw [← hcont]; simpa using g2
    · have hw := hfin.resolve_left h0
      subst hw
      have hY0 := v3.nil_split; subst hY0
      refine ⟨a1, ?_, Same.refl _, A' ++ B', i1, ?_⟩
      · rw [if_neg (fun x => x.2 rfl)]
      · rw [← hcont]; simpa using v1.append v2
  obtain ⟨a2, e2, sm2, g2⟩ := hrest
  refine ⟨a2, b1, ?_, sm1.trans sm2, smb, g2, [], ib1, rfl⟩
  have hsrt : (isSorted lt lb && isSorted lt la) = true := by rw [Bool.and_eq_true, isSorted_iff ho, isSorted_iff ho]; exact ⟨hsb, hsa⟩
  simp [merge, hemp, hne, values_ok inv hv, values_ok invb hvb, hsrt, next_ok inv.circ.tv, next_ok invb.circ.tv, inv.circ.first, invb.circ.first, e, e2, eb, bind, Except.bind]

theorem moveAssign_ok (ha : ∃ ns, Inv a ns ∧ Vals a ns la) (hb : ∃ ns, Inv b ns ∧ Vals b ns lb) (hc : lb.length ≤ a.cap) :
    ∃ a' b', moveAssign a b = .ok (a', b', .ok) ∧ Same a a' ∧ Same b b' ∧ (∃ ns, Inv a' ns ∧ Vals a' ns lb) ∧ (∃ ns, Inv b' ns ∧ Vals b' ns []) := by
  have hemp := Good.emptyb hb
  have hleb := Good.le hb
  obtain ⟨a1, ea, sma, ia1⟩ := clear_ok ha
  by_cases h0 : lb = []
  · subst h0
    exact ⟨a1, b, by simp [moveAssign, ea, hemp, bind, Except.bind], sma, Same.refl b, ⟨[], ia1, rfl⟩, hb⟩
  · obtain ⟨ms, invb, hvb⟩ := hb
    obtain ⟨a2, b2, N, e, i2, sm2, v2, _, ib2, smb2⟩ := moveAll_ok (b.cap + 1) (A := []) (YA := []) (Y := ms) ia1 (by simpa using invb) hvb (by rw [sma.1]; simpa using hc) (by omega)
    obtain ⟨b3, eb3, ib3, smb3⟩ := initialise_ok ib2
    refine ⟨a2, b3, ?_, sma.trans sm2, smb2.trans smb3, ⟨N, by simpa using i2, v2⟩, [], ib3, rfl⟩
    simp [moveAssign, ea, hemp, h0, next_ok invb.circ.tv, invb.circ.first, e, eb3, bind, Except.bind]

/-- `splice(to, ilist&&)` puts the elements of the other list in *reverse* order (`to` is not advanced past the inserted element). -/
theorem splice_rvalue_reverses (ha : ∃ ns, Inv a ns ∧ Vals a ns la) (hb : ∃ ns, Inv b ns ∧ Vals b ns lb) {i : Nat} (hi : i ≤ la.length) {p : Nat} (hp : iter a i = .ok p)
    (hc : la.length + lb.length ≤ a.cap) :
    ∃ a' b', spliceMove a p b = .ok (a', b', .ok) ∧ (∃ ns, Inv a' ns ∧ Vals a' ns (la.take i ++ lb.reverse ++ la.drop i)) ∧ (∃ ns, Inv b' ns ∧ Vals b' ns []) := by
  have hleb := Good.le hb
  obtain ⟨A, B, inv, hA, hB, lA, lB, hit⟩ := Good.at ha hi
  rw [hp] at hit; cases hit
  obtain ⟨ms, invb, hvb⟩ := hb
  obtain ⟨a2, b2, N, e, i2, sm2, v2, v3, ib2, smb2⟩ := spliceMoveLoop_ok (b.cap + 1) (YA := []) (Y := ms) inv (by simpa using invb) hvb (by omega) (by omega)
  obtain ⟨b3, eb3, ib3, smb3, _⟩ := eraseRange_ok (A := []) (M := ms) (B := []) (s := b2) (by simpa using ib2)
  simp only [List.nil_append, List.append_nil, List.length_nil, Nat.zero_add] at eb3 ib3 ib2
  rw [nodeAt_len (Nat.le_refl _)] at eb3
  refine ⟨a2, b3, ?_, ⟨_, i2, ?_⟩, [], ib3, rfl⟩
  · simp [spliceMove, next_ok invb.circ.tv, invb.circ.first, e, next_ok ib2.circ.tv, ib2.circ.first, eb3, bind, Except.bind]
  · exact ((hA.congr (fun y hy => v3 y (by simp [hy]))).append v2).append (hB.congr (fun y hy => v3 y (by simp [hy])))
end Two

theorem Good2.step {ca cb : Cfg} {a b : St α} {l : List α × List α} (ha : Good ca a l.1) (hb : Good cb b l.2) (o : Op2 α) (hl : Legal2 ca cb l o) :
    ∃ a' b', step2 (a, b) o = .ok ((a', b'), (specStep2 ca cb l o).2) ∧ Good ca a' (specStep2 ca cb l o).1.1 ∧ Good cb b' (specStep2 ca cb l o).1.2 := by
  obtain ⟨la, lb⟩ := l
  cases o with
  | fst o =>
    obtain ⟨a', e, g⟩ := ha.step o hl
    exact ⟨a', b, by simp [step2, e, specStep2, bind, Except.bind], g, hb⟩
  | snd o =>
    obtain ⟨b', e, g⟩ := hb.step o hl
    exact ⟨a, b', by simp [step2, e, specStep2, bind, Except.bind], ha, g⟩
  | copy =>
    obtain ⟨a', e, g⟩ := ha.step (.assign lb) trivial
    have hv : values b = .ok lb := by obtain ⟨_, ns, i, v⟩ := hb; exact values_ok i v
    have e : assign a lb = _ := e
    exact ⟨a', b, by simp [step2, hv, e, specStep2, bind, Except.bind], g, hb⟩
  | splice i =>
    obtain ⟨rfl, ga⟩ := ha; obtain ⟨rfl, gb⟩ := hb
    obtain ⟨p, hp⟩ := iter_ex ga hl
    obtain ⟨q, hq1, hq2⟩ := iter_zero gb
    obtain ⟨a', b', e, sma, smb, g1, g2⟩ := spliceRange_ok ga gb hl (Nat.zero_le _) (Nat.le_refl _) hp hq2 (iter_end gb)
    have hst : ∀ o, spliceRange a p b q T = .ok (a', b', o) → step2 (a, b) (.splice i) = .ok ((a', b'), o) := by
      intro o ho; simp [step2, hp, splice, hq1, ho, bind, Except.bind]
    simp only [Nat.sub_zero, List.drop_zero, List.take_length, List.take_zero, List.drop_length, List.append_nil] at e g1 g2
    simp only [specStep2, cfgOf]
    by_cases hc : la.length + lb.length ≤ a.cap
    · simp only [hc, if_true] at e g2 ⊢
      rw [List.take_of_length_le (l := lb) (by omega)] at g1
      exact ⟨a', b', hst _ e, ⟨sma.cfg, g1⟩, ⟨smb.cfg, g2⟩⟩
    · simp only [hc, if_false] at e g2 ⊢
      exact ⟨a', b', hst _ e, ⟨sma.cfg, g1⟩, ⟨smb.cfg, g2⟩⟩
  | spliceRange i j k =>
    obtain ⟨rfl, ga⟩ := ha; obtain ⟨rfl, gb⟩ := hb
    obtain ⟨hi, hjk, hk⟩ := hl
    obtain ⟨p, hp⟩ := iter_ex ga hi
    obtain ⟨q, hq⟩ := iter_ex gb (show j ≤ lb.length from Nat.le_trans hjk hk)
    obtain ⟨r, hr⟩ := iter_ex gb hk
    obtain ⟨a', b', e, sma, smb, g1, g2⟩ := spliceRange_ok ga gb hi hjk hk hp hq hr
    have hst : ∀ o, spliceRange a p b q r = .ok (a', b', o) → step2 (a, b) (.spliceRange i j k) = .ok ((a', b'), o) := by
      intro o ho; simp [step2, hp, hq, hr, ho, bind, Except.bind]
    simp only [specStep2, cfgOf]
    by_cases hc : la.length + (k - j) ≤ a.cap
    · simp only [hc, if_true] at e g2 ⊢
      have hkj : k - j ≤ a.cap - la.length := by omega
      simp only at g1
      rw [List.take_of_length_le (l := List.take (k - j) (List.drop j lb)) (Nat.le_trans (List.length_take_le _ _) hkj)] at g1
      exact ⟨a', b', hst _ e, ⟨sma.cfg, g1⟩, ⟨smb.cfg, g2⟩⟩
    · simp only [hc, if_false] at e g2 ⊢
      exact ⟨a', b', hst _ e, ⟨sma.cfg, g1⟩, ⟨smb.cfg, g2⟩⟩
  | spliceOne i j =>
    obtain ⟨rfl, ga⟩ := ha; obtain ⟨rfl, gb⟩ := hb
    obtain ⟨hi, hj⟩ := hl
    obtain ⟨p, hp⟩ := iter_ex ga hi
    obtain ⟨q, hq⟩ := iter_ex gb (Nat.le_of_lt hj)
    obtain ⟨a', b', e, sma, smb, g1, g2⟩ := spliceOne_ok ga gb hi hj hp hq
    have hst : ∀ o, spliceOne a p b q = .ok (a', b', o) → step2 (a, b) (.spliceOne i j) = .ok ((a', b'), o) := by
      intro o ho; simp [step2, hp, hq, ho, bind, Except.bind]
    simp only [specStep2, cfgOf]
    by_cases hc : la.length < a.cap
    · simp only [hc, if_true] at e g1 g2 ⊢
      exact ⟨a', b', hst _ e, ⟨sma.cfg, g1⟩, ⟨smb.cfg, g2⟩⟩
    · simp only [hc, if_false] at e g1 g2 ⊢
      exact ⟨a', b', hst _ e, ⟨sma.cfg, g1⟩, ⟨smb.cfg, g2⟩⟩
  | merge lt =>
    obtain ⟨rfl, ga⟩ := ha; obtain ⟨rfl, gb⟩ := hb
    obtain ⟨ho, hc, hs⟩ := hl
    have hemp := Good.emptyb gb
    by_cases h0 : lb = []
    · subst h0
      refine ⟨a, b, ?_, by simpa [specStep2] using ⟨rfl, ga⟩, by simpa [specStep2] using ⟨rfl, gb⟩⟩
      simp [step2, merge, hemp, specStep2, bind, Except.bind]
    · by_cases hsrt : SortedBy lt la ∧ SortedBy lt lb
      · obtain ⟨a', b', e, sma, smb, g1, g2⟩ := merge_ok ho ga gb hc h0 hsrt.1 hsrt.2
        have hn : ¬ (lb ≠ [] ∧ (cfgOf a).dbg = true ∧ ¬ (isSorted lt lb = true ∧ isSorted lt la = true)) := by
          rw [isSorted_iff ho, isSorted_iff ho]; exact fun x => x.2.2 ⟨hsrt.2, hsrt.1⟩
        simp only [specStep2]
        rw [if_neg hn, if_neg h0]
        exact ⟨a', b', by simp [step2, e, bind, Except.bind], ⟨sma.cfg, g1⟩, ⟨smb.cfg, g2⟩⟩
      · have hdb : a.dbg = true := hs.resolve_right hsrt
        have hn : lb ≠ [] ∧ (cfgOf a).dbg = true ∧ ¬ (isSorted lt lb = true ∧ isSorted lt la = true) := by
          rw [isSorted_iff ho, isSorted_iff ho]; exact ⟨h0, hdb, fun x => hsrt ⟨x.2, x.1⟩⟩
        simp only [specStep2]
        rw [if_pos hn]
        refine ⟨a, b, ?_, ⟨rfl, ga⟩, ⟨rfl, gb⟩⟩
        have hb0 : (isSorted lt lb && isSorted lt la) = false := by
          rw [Bool.eq_false_iff]; intro x; exact hn.2.2 (by simpa [Bool.and_eq_true] using x)
        have va : values a = .ok la := by obtain ⟨ns, i, v⟩ := ga; exact values_ok i v
        have vb : values b = .ok lb := by obtain ⟨ns, i, v⟩ := gb; exact values_ok i v
        simp only [step2, merge, hemp, h0, va, vb, hdb, hb0, bind, Except.bind]
        simp
  | moveAssign =>
    obtain ⟨rfl, ga⟩ := ha; obtain ⟨rfl, gb⟩ := hb
    obtain ⟨a', b', e, sma, smb, g1, g2⟩ := moveAssign_ok ga gb hl
    exact ⟨a', b', by simp [step2, e, specStep2, bind, Except.bind], ⟨sma.cfg, g1⟩, ⟨smb.cfg, g2⟩⟩

theorem Good.shows {c : Cfg} {s : St α} {l : List α} (h : Good c s l) : Shows c s l := by
  obtain ⟨rfl, g⟩ := h
  have hle := Good.le g
  have hsz := Good.sz g
  have hem := Good.emptyb g
  have hfu := Good.fullb g
  obtain ⟨ns, inv, hv⟩ := g
  have hlen := hv.len
  have hpl := inv.pl.len
  refine ⟨values_ok inv hv, ?_, hsz, hle, hem, hfu, by simp [available, hsz, cfgOf], ?_, ?_, by simp only [cfgOf]; omega, ?_⟩
  · have hw := inv.circ.walkBack (s.cap + 1) ns.length (Nat.le_refl _) (by have := inv.len; omega)
    have hp : s.h.pv T = if ns.length = 0 then T else nodeAt T ns (ns.length - 1) := by
      have := inv.circ.pv_at (Nat.le_refl ns.length); rwa [nodeAt_len (Nat.le_refl _)] at this
    rw [← hp, List.take_length] at hw
    simp only [backward, prev_ok inv.circ.tv, hw, bind, Except.bind]
    exact mapM_read inv (fun x hx => by simpa using hx) (by rw [Vals, List.map_reverse, hv, List.map_reverse])
  · intro v hv0
    obtain ⟨l0, rfl⟩ : ∃ l0, l = v :: l0 := by
      cases l with
      | nil => simp at hv0
      | cons x l0 => exact ⟨l0, by simpa using hv0⟩
    obtain ⟨x, N, rfl, hx, _⟩ := hv.cons_split
    have : s.h.nx T = x := inv.circ.first
    simp only [front, next_ok inv.circ.tv, this, bind, Except.bind]
    exact inv.read (by simp) hx
  · intro v hv0
    obtain ⟨l0, rfl⟩ := List.getLast?_eq_some_iff.1 hv0
    obtain ⟨A, B, rfl, hA, hB⟩ := hv.split
    obtain ⟨x, N, rfl, hx, hN⟩ := hB.cons_split
    have := hN.nil_split; subst this
    have hp := inv.circ.last
    have h2 : (T :: (A ++ [x])).getLast (by simp) = x := getLast_cons_concat _ _ _ _
    rw [h2] at hp
    simp only [backv, prev_ok inv.circ.tv, hp, bind, Except.bind]
    exact inv.read (by simp) hx
  · simp only [cfgOf]
    have h1 := (inv.pl.part.map s.val).symm
    rw [List.map_append, hv] at h1
    have h2 : s.free.map s.val = List.replicate (s.cap - l.length) .raw := by
      rw [List.eq_replicate_iff]
      refine ⟨by simp; omega, ?_⟩
      intro x hx
      obtain ⟨n, hn, rfl⟩ := List.mem_map.1 hx
      exact inv.pl.raw n hn
    rw [h2] at h1; exact h1

theorem init_good (cap : Nat) (check dbg triv : Bool) (junk : Nat → Nat × Nat) : Good ⟨cap, check, dbg, triv⟩ (init (α := α) cap check dbg triv junk) [] := by
  refine ⟨rfl, [], ⟨⟨⟨by simp [init], by simp [init], trivial⟩, by simp, ?_⟩, ⟨rfl, by simp [init], by simp, by simp [init]⟩⟩, rfl⟩
  intro x hx
  have : x = T := by simpa using hx
  subst this; simp [init, Links.valid, T]

/-- **C12**: every legal history over two lists (each with any capacity and options) runs without undefined behaviour, reports what the ideal lists report, and every
observation of both lists - forward and backward traversal, size, front, back, nodes in use - agrees with the ideal lists. -/
theorem C12_list_refines {ca cb : Cfg} (ops : List (Op2 α)) : ∀ {a b : St α} {l : List α × List α}, Good ca a l.1 → Good cb b l.2 → LegalRun ca cb l ops →
    ∃ a' b', run2 (a, b) ops = .ok ((a', b'), (specRun ca cb l ops).2) ∧ Good ca a' (specRun ca cb l ops).1.1 ∧ Good cb b' (specRun ca cb l ops).1.2
      ∧ Shows ca a' (specRun ca cb l ops).1.1 ∧ Shows cb b' (specRun ca cb l ops).1.2 := by
  induction ops with
  | nil => intro a b l ha hb _; exact ⟨a, b, rfl, ha, hb, ha.shows, hb.shows⟩
  | cons o os ih =>
    intro a b l ha hb hl
    obtain ⟨a1, b1, e1, g1, g2⟩ := Good2.step ha hb o hl.1
    obtain ⟨a2, b2, e2, q1, q2, q3, q4⟩ := ih g1 g2 hl.2
    exact ⟨a2, b2, by simp only [run2, e1, e2, bind, Except.bind]; rfl, q1, q2, q3, q4⟩

/-- The same from fresh lists. -/
theorem C12_list_from_fresh (ca cb : Cfg) (ja jb : Nat → Nat × Nat) (ops : List (Op2 α)) (hl : LegalRun ca cb ([], []) ops) :
    ∃ a b, run2 (init ca.cap ca.check ca.dbg ca.triv ja, init cb.cap cb.check cb.dbg cb.triv jb) ops = .ok ((a, b), (specRun ca cb ([], []) ops).2) ∧
      Shows ca a (specRun ca cb ([], []) ops).1.1 ∧ Shows cb b (specRun ca cb ([], []) ops).1.2 := by
  obtain ⟨a, b, e, _, _, h1, h2⟩ := C12_list_refines (ca := ca) (cb := cb) (l := ([], [])) ops (init_good _ _ _ _ ja) (init_good _ _ _ _ jb) hl
  exact ⟨a, b, e, h1, h2⟩

/-- Sorting is specified by insertion sort; that it is *the* stable sort is `isort_stable` and `IsStableSort.unique`. -/
theorem C12_sort_is_stable {c : Cfg} {s : St α} {l : List α} (h : Good c s l) {lt : α → α → Bool} (ho : StrictWeak lt) :
    ∃ s' l', sort lt s = .ok (s', .ok) ∧ forward s' = .ok l' ∧ IsStableSort lt l l' := by
  obtain ⟨s', e, g⟩ := h.step (.sort lt) ho
  exact ⟨s', _, e, g.shows.fwd, isort_stable ho l⟩

/-- Self-splice of an empty range that is not at the target corrupts the list: with `[a, b, c]`, `splice(end(), l, begin(), begin())` makes all elements unreachable while `size()` is still 3. -/
theorem selfsplice_empty_range_broken (a b c : Nat) :
    (do let (s, _) ← step (init 3 true true false fun _ => (0, 0)) (.assign [a, b, c])
        let (s, _) ← step s (.moveRange 3 0 0)
        let l ← forward s
        .ok (l, size s)) = Except.ok (([] : List Nat), 3) := by rfl

/-! ## Non-vacuity -/

def exA : Cfg := ⟨5, true, true, false⟩
def exB : Cfg := ⟨3, false, false, true⟩
def exOps : List (Op2 Nat) :=
  [.fst (.assign [3, 1, 2]), .snd (.pushBack 7), .snd (.pushFront 5), .fst (.sort (fun x y => decide (x < y))), .merge (fun x y => decide (x < y)),
   .fst (.reverse), .fst (.erase 1), .fst (.insert 1 9), .fst (.pushBack 4), .fst .popFront, .snd (.assign [8, 8]), .spliceRange 1 0 1, .fst (.moveOne 0 3), .fst (.moveRange 4 0 2), .snd (.unique (· == ·)), .moveAssign, .copy]

theorem ltNat : StrictWeak (fun x y : Nat => decide (x < y)) where
  irrefl a := by simp
  trans a b c h1 h2 := by simp at *; omega
  incomp a b c h1 h2 h3 h4 := by simp at *; omega

example : LegalRun exA exB ([], []) exOps := by
  refine ⟨trivial, trivial, trivial, ltNat, ⟨ltNat, by decide, Or.inl rfl⟩, trivial, ?_⟩
  simp only [LegalRun, Legal2, Legal, and_true, true_and]
  decide

example : (specRun exA exB ([], []) exOps).1 = ([], []) := by decide
example : (specRun exA exB ([], []) (exOps.take 14)).1 = ([8, 3, 2, 9, 1], [8]) := by decide
example : (do let (s, _) ← run2 (init 5 true true false (fun _ => (0, 0)), init 3 false false true fun _ => (9, 9)) (exOps.take 14); forward s.1) = .ok [8, 3, 2, 9, 1] := by rfl

end Etl.DList
