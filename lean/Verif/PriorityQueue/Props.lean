import Verif.Algo.Heap
/-!
# C19: priority_queue (include/etl/priority_queue.h)
-/
namespace Etl.PriorityQueue
open Etl.Rng Etl.Algo

variable {α : Type}

/-! ## Model -/

/-- `ipriority_queue`: the container (an `etl::vector` of capacity `cap`, whose own refinement is C09) and its contents. -/
structure PQ (α : Type) where
  cap : Nat
  items : List α
  deriving DecidableEq, Repr

inductive Op (α : Type) where
  | push (v : α)      -- push(const&), push(&&), emplace
  | pop
  | popInto           -- returns the value assigned to `destination`
  | top
  | assign (l : List α)
  | clear
  | size | empty | full | available
  deriving Repr

inductive Out (α : Type) where
  | done
  | thrown            -- etl::priority_queue_full raised through ETL_ASSERT
  | val (v : α)
  | num (n : Nat)
  | flag (b : Bool)
  deriving DecidableEq, Repr

/-- `push`, priority_queue.h:154-163, 172-181, `emplace` 191-200: append, then `push_heap`. -/
def push (lt : α → α → Bool) (q : PQ α) (v : α) : Res (PQ α × Out α) :=
  if q.items.length = q.cap then .ok (q, .thrown)
  else match pushHeap lt (q.items ++ [v]) (q.items.length + 1) with
    | .error u => .error u
    | .ok a => .ok ({ q with items := a }, .done)

/-- `pop`, priority_queue.h:308-314: `pop_heap`, then `pop_back`. -/
def pop (lt : α → α → Bool) (q : PQ α) : Res (PQ α) :=
  match popHeap lt q.items q.items.length with
  | .error u => .error u
  | .ok a => .ok { q with items := a.dropLast }

/-- `pop_into`, priority_queue.h:320-324: the top is moved to the destination, leaving the moved-from value `junk t` in its place. -/
def popInto (lt : α → α → Bool) (junk : α → α) (q : PQ α) : Res (PQ α × Out α) :=
  match rd q.items 0 with
  | .error u => .error u
  | .ok t => match pop lt { q with items := q.items.set 0 (junk t) } with
    | .error u => .error u
    | .ok q => .ok (q, .val t)

/-- `assign(first, last)`, priority_queue.h:290-302 (also `clone`, 415-418, and the range constructor).  The check that the range fits exists in
debug builds only; the model treats a longer range as undefined. -/
def assign (lt : α → α → Bool) (q : PQ α) (l : List α) : Res (PQ α) :=
  if l.length > q.cap then .error .outOfBounds
  else match makeHeap lt l with
    | .error u => .error u
    | .ok a => .ok { q with items := a }

/-- One member call.  `junk` is what a moved-from element becomes. -/
def step (lt : α → α → Bool) (junk : α → α) (q : PQ α) : Op α → Res (PQ α × Out α)
  | .push v => push lt q v
  | .pop => match pop lt q with
    | .error u => .error u
    | .ok q => .ok (q, .done)
  | .popInto => popInto lt junk q
  | .top => match rd q.items 0 with                                    -- priority_queue.h:134-146
    | .error u => .error u
    | .ok t => .ok (q, .val t)
  | .assign l => match assign lt q l with
    | .error u => .error u
    | .ok q => .ok (q, .done)
  | .clear => .ok ({ q with items := [] }, .done)                      -- 371-374
  | .size => .ok (q, .num q.items.length)                              -- 329-332
  | .empty => .ok (q, .flag (q.items.length = 0))                      -- 346-349
  | .full => .ok (q, .flag (q.items.length = q.cap))                   -- 355-358
  | .available => .ok (q, .num (q.cap - q.items.length))               -- 364-367

def run (lt : α → α → Bool) (junk : α → α) : PQ α → List (Op α) → Res (PQ α × List (Out α))
  | q, [] => .ok (q, [])
  | q, o :: os => match step lt junk q o with
    | .error u => .error u
    | .ok (q, x) => match run lt junk q os with
      | .error u => .error u
      | .ok (q, xs) => .ok (q, x :: xs)

/-- `move(other)`, priority_queue.h:424-431, used by the move constructor and assignment: the value moved into `push` leaves `junk` behind, then
`other.pop()`. -/
def moveFrom (lt : α → α → Bool) (junk : α → α) : Nat → PQ α → PQ α → Res (PQ α × PQ α)
  | 0, _, _ => .error .diverge
  | fuel + 1, q, other =>
    if other.items.length = 0 then .ok (q, other)
    else match rd other.items 0 with
      | .error u => .error u
      | .ok t => match push lt q t with
        | .error u => .error u
        | .ok (q, _) => match pop lt { other with items := other.items.set 0 (junk t) } with
          | .error u => .error u
          | .ok other => moveFrom lt junk fuel q other

/-! ## Specification: a bounded multiset, represented by any list of its elements -/

/-- `t` is a maximal element of `m` -/
def IsMax (lt : α → α → Bool) (m : List α) (t : α) : Prop := t ∈ m ∧ ∀ x ∈ m, lt t x = false

/-- What a call may do to the multiset `m`, and what it returns. -/
inductive Spec (lt : α → α → Bool) (cap : Nat) : List α → Op α → Out α → List α → Prop
  | push {m m' : List α} {v : α} : m.length < cap → m'.Perm (v :: m) → Spec lt cap m (.push v) .done m'
  | pushFull {m : List α} {v : α} : m.length = cap → Spec lt cap m (.push v) .thrown m
  | pop {m m' : List α} {t : α} : IsMax lt m t → m.Perm (t :: m') → Spec lt cap m .pop .done m'
  | popInto {m m' : List α} {t : α} : IsMax lt m t → m.Perm (t :: m') → Spec lt cap m .popInto (.val t) m'
  | top {m : List α} {t : α} : IsMax lt m t → Spec lt cap m .top (.val t) m
  | assign {m m' l : List α} : m'.Perm l → Spec lt cap m (.assign l) .done m'
  | clear {m : List α} : Spec lt cap m .clear .done []
  | size {m : List α} : Spec lt cap m .size (.num m.length) m
  | empty {m : List α} {b : Bool} : (b = true ↔ m = []) → Spec lt cap m .empty (.flag b) m
  | full {m : List α} {b : Bool} : (b = true ↔ m.length = cap) → Spec lt cap m .full (.flag b) m
  | available {m : List α} : Spec lt cap m .available (.num (cap - m.length)) m

inductive SpecRun (lt : α → α → Bool) (cap : Nat) : List α → List (Op α) → List (Out α) → List α → Prop
  | nil {m : List α} : SpecRun lt cap m [] [] m
  | cons {m m1 m2 : List α} {o : Op α} {x : Out α} {os : List (Op α)} {xs : List (Out α)} : Spec lt cap m o x m1 → SpecRun lt cap m1 os xs m2 → SpecRun lt cap m (o :: os) (x :: xs) m2

/-- The documented preconditions, in terms of the number of elements: no `top`/`pop` on an empty queue, no `assign` of too long a range. -/
def legal (cap : Nat) : Nat → List (Op α) → Bool
  | _, [] => true
  | n, .push _ :: os => legal cap (if n < cap then n + 1 else n) os
  | n, .pop :: os => decide (0 < n) && legal cap (n - 1) os
  | n, .popInto :: os => decide (0 < n) && legal cap (n - 1) os
  | n, .top :: os => decide (0 < n) && legal cap n os
  | _, .assign l :: os => decide (l.length ≤ cap) && legal cap l.length os
  | _, .clear :: os => legal cap 0 os
  | n, _ :: os => legal cap n os

/-! ## Proofs -/

/-- representation invariant -/
structure Inv (lt : α → α → Bool) (q : PQ α) : Prop where
  heap : IsHeap lt q.items q.items.length
  bound : q.items.length ≤ q.cap

theorem push_spec {lt : α → α → Bool} (sw : StrictWeak lt) {q : PQ α} (h : Inv lt q) (v : α) (hn : q.items.length < q.cap) :
    ∃ q', push lt q v = .ok (q', .done) ∧ Inv lt q' ∧ q'.cap = q.cap ∧ q'.items.Perm (v :: q.items) := by
  unfold push
  rw [if_neg (by omega)]
  obtain ⟨b, e1, e2, e3, _⟩ := pushHeap_spec sw (q.items ++ [v]) (q.items.length + 1) (by omega) (by simp) (by
    intro i x y h1 h2 hx hy
    rw [List.getElem?_append_left (by omega)] at hx hy
    exact h.heap i x y h1 (by omega) hx hy)
  rw [e1]
  have hl : b.length = q.items.length + 1 := by have := e2.length_eq; simpa using this
  exact ⟨_, rfl, ⟨by simp only; rw [hl]; exact e3, by simp only; omega⟩, rfl, e2.trans List.perm_append_comm⟩

theorem pop_spec {lt : α → α → Bool} (sw : StrictWeak lt) {q : PQ α} (h : Inv lt q) {t : α} {r : List α} (hq : q.items = t :: r) (j : α) :
    ∃ q', pop lt { q with items := q.items.set 0 j } = .ok q' ∧ Inv lt q' ∧ q'.cap = q.cap ∧ q'.items.Perm r := by
  have h0 : 0 < q.items.length := by rw [hq]; simp
  have hset : q.items.set 0 j = j :: r := by rw [hq]; rfl
  unfold pop
  simp only
  obtain ⟨b, e1, e2, e3, e4, e5, _⟩ := popHeap_spec' sw (q.items.set 0 j) (q.items.set 0 j).length (by simpa using h0) (Nat.le_refl _) (by
    intro i x y h1 h2 h3 hx hy
    simp only [List.length_set] at h2
    rw [List.getElem?_set_ne (by omega)] at hx hy
    exact h.heap i x y h1 h2 hx hy)
  rw [e1]
  simp only
  rw [hset] at e2 e3 e4 e5
  simp only [List.length_cons, Nat.add_sub_cancel, List.getElem?_cons_zero] at e3 e4 e5
  have hb : b = b.dropLast ++ [j] := by
    have hne : b ≠ [] := by intro hb; rw [hb] at e5; simp at e5
    have hlast : b.getLast hne = j := by
      have := List.getLast_eq_getElem hne
      rw [this]
      have := e4
      rw [List.getElem?_eq_getElem (by omega)] at this
      simp only [e5, Nat.add_sub_cancel]
      exact Option.some.inj this
    rw [← hlast]; exact (List.dropLast_concat_getLast hne).symm
  have hperm : b.dropLast.Perm r := by
    have : (b.dropLast ++ [j]).Perm (j :: r) := hb ▸ e2
    exact (List.perm_cons j).1 (List.perm_append_comm.trans this)
  refine ⟨_, rfl, ⟨?_, ?_⟩, rfl, hperm⟩
  · simp only
    rw [List.length_dropLast, e5, Nat.add_sub_cancel]
    intro i x y h1 h2 hx hy
    rw [hb] at e3
    have l1 : b.dropLast.length = r.length := hperm.length_eq
    apply e3 i x y h1 h2
    · rw [List.getElem?_append_left (by omega)]; exact hx
    · rw [List.getElem?_append_left (by omega)]; exact hy
  · simp only
    have l1 : b.dropLast.length = r.length := hperm.length_eq
    have := h.bound
    rw [hq] at this
    simp at this
    omega

theorem top_max {lt : α → α → Bool} (sw : StrictWeak lt) {q : PQ α} (h : Inv lt q) {t : α} {r : List α} (hq : q.items = t :: r) : IsMax lt q.items t := by
  refine ⟨by rw [hq]; simp, ?_⟩
  intro x hx
  obtain ⟨i, hi, rfl⟩ := List.getElem_of_mem hx
  exact heap_top sw (Nat.le_refl _) h.heap (by rw [hq]; rfl) i _ hi (List.getElem?_eq_getElem hi)

theorem IsMax.perm {lt : α → α → Bool} {m m' : List α} {t : α} (h : IsMax lt m t) (hp : m.Perm m') : IsMax lt m' t :=
  ⟨hp.mem_iff.1 h.1, fun x hx => h.2 x (hp.mem_iff.2 hx)⟩

/-- one step, from any state satisfying the invariant -/
theorem step_spec {lt : α → α → Bool} (sw : StrictWeak lt) (junk : α → α) {q : PQ α} {m : List α} (h : Inv lt q) (hm : q.items.Perm m) (o : Op α) (os : List (Op α))
    (hl : legal q.cap m.length (o :: os) = true) :
    ∃ q' x m', step lt junk q o = .ok (q', x) ∧ Spec lt q.cap m o x m' ∧ Inv lt q' ∧ q'.cap = q.cap ∧ q'.items.Perm m' ∧ legal q.cap m'.length os = true := by
  have hlen := hm.length_eq
  have nonempty : 0 < m.length → ∃ t r, q.items = t :: r := by
    intro h0
    cases hq : q.items with
    | nil => rw [hq] at hlen; simp at hlen; omega
    | cons t r => exact ⟨t, r, rfl⟩
  cases o with
  | push v =>
    by_cases hf : q.items.length = q.cap
    · refine ⟨q, .thrown, m, ?_, .pushFull (by omega), h, rfl, hm, ?_⟩
      · show push lt q v = _
        unfold push; rw [if_pos hf]
      · simp only [legal] at hl; rwa [if_neg (by omega)] at hl
    · have hb := h.bound
      obtain ⟨q', e1, e2, e3, e4⟩ := push_spec sw h v (by omega)
      refine ⟨q', .done, v :: m, e1, .push (by omega) (.refl _), e2, e3, e4.trans (hm.cons v), ?_⟩
      simp only [legal] at hl; rw [if_pos (by omega)] at hl; simpa using hl
  | pop =>
    simp only [legal, Bool.and_eq_true, decide_eq_true_eq] at hl
    obtain ⟨t, r, hq⟩ := nonempty hl.1
    obtain ⟨q', e1, e2, e3, e4⟩ := pop_spec sw h hq t
    have hs : q.items.set 0 t = q.items := by rw [hq]; rfl
    rw [hs] at e1
    have hmr : m.Perm (t :: r) := hm.symm.trans (by rw [hq])
    refine ⟨q', .done, r, ?_, .pop ((top_max sw h hq).perm hm) hmr, e2, e3, e4, ?_⟩
    · have e1' : pop lt q = .ok q' := e1
      simp only [step, e1']
    · rw [hmr.length_eq] at hl; simpa using hl.2
  | popInto =>
    simp only [legal, Bool.and_eq_true, decide_eq_true_eq] at hl
    obtain ⟨t, r, hq⟩ := nonempty hl.1
    obtain ⟨q', e1, e2, e3, e4⟩ := pop_spec sw h hq (junk t)
    have hmr : m.Perm (t :: r) := hm.symm.trans (by rw [hq])
    refine ⟨q', .val t, r, ?_, .popInto ((top_max sw h hq).perm hm) hmr, e2, e3, e4, ?_⟩
    · show popInto lt junk q = _
      unfold popInto
      rw [show rd q.items 0 = .ok t by rw [rd_ok, hq]; rfl]
      simp only [e1]
    · rw [hmr.length_eq] at hl; simpa using hl.2
  | top =>
    simp only [legal, Bool.and_eq_true, decide_eq_true_eq] at hl
    obtain ⟨t, r, hq⟩ := nonempty hl.1
    refine ⟨q, .val t, m, ?_, .top ((top_max sw h hq).perm hm), h, rfl, hm, hl.2⟩
    simp only [step]
    rw [show rd q.items 0 = .ok t by rw [rd_ok, hq]; rfl]
  | assign l =>
    simp only [legal, Bool.and_eq_true, decide_eq_true_eq] at hl
    obtain ⟨b, e1, e2, e3⟩ := makeHeap_spec sw l
    refine ⟨{ q with items := b }, .done, b, ?_, .assign e2, ⟨e3, ?_⟩, rfl, .refl _, ?_⟩
    · simp only [step, assign]; rw [if_neg (by omega), e1]
    · have := e2.length_eq; simp only; omega
    · rw [e2.length_eq]; exact hl.2
  | clear => exact ⟨{ q with items := [] }, .done, [], rfl, .clear, ⟨fun i x y _ h => by simp at h, by simp⟩, rfl, .refl _, hl⟩
  | size => exact ⟨q, .num q.items.length, m, rfl, by rw [hlen]; exact .size, h, rfl, hm, hl⟩
  | empty =>
    refine ⟨q, _, m, rfl, .empty ?_, h, rfl, hm, hl⟩
    simp only [decide_eq_true_eq]; rw [hlen, List.length_eq_zero_iff]
  | full =>
    refine ⟨q, _, m, rfl, .full ?_, h, rfl, hm, hl⟩
    simp only [decide_eq_true_eq]; rw [hlen]
  | available => exact ⟨q, .num (q.cap - q.items.length), m, rfl, by rw [hlen]; exact .available, h, rfl, hm, hl⟩

theorem run_spec {lt : α → α → Bool} (sw : StrictWeak lt) (junk : α → α) (os : List (Op α)) {q : PQ α} {m : List α} (h : Inv lt q) (hm : q.items.Perm m)
    (hl : legal q.cap m.length os = true) :
    ∃ q' xs m', run lt junk q os = .ok (q', xs) ∧ SpecRun lt q.cap m os xs m' ∧ Inv lt q' ∧ q'.cap = q.cap ∧ q'.items.Perm m' := by
  induction os generalizing q m with
  | nil => exact ⟨q, [], m, rfl, .nil, h, rfl, hm⟩
  | cons o os ih =>
    obtain ⟨q1, x, m1, e1, e2, e3, e4, e5, e6⟩ := step_spec sw junk h hm o os hl
    obtain ⟨q2, xs, m2, f1, f2, f3, f4, f5⟩ := ih e3 e5 (by rw [e4]; exact e6)
    refine ⟨q2, x :: xs, m2, ?_, .cons e2 (by rw [← e4]; exact f2), f3, f4.trans e4, f5⟩
    simp only [run, e1, f1]

/-- C19.  For every strict weak ordering, capacity and history of calls meeting the documented preconditions, starting from an empty queue:
no undefined behaviour occurs, and the results are those of an ideal bounded multiset whose `top`/`pop` use a maximal element; a push
reports full exactly when `cap` elements are held.  Whatever value a moved-from element takes (`junk`), the result is the same. -/
theorem C19_priority_queue {lt : α → α → Bool} (sw : StrictWeak lt) (junk : α → α) (cap : Nat) (os : List (Op α)) (hl : legal cap 0 os = true) :
    ∃ q xs m, run lt junk ⟨cap, []⟩ os = .ok (q, xs) ∧ SpecRun lt cap [] os xs m ∧ q.items.Perm m ∧ q.items.length ≤ cap := by
  obtain ⟨q, xs, m, e1, e2, e3, e4, e5⟩ := run_spec sw junk os (q := ⟨cap, []⟩) (m := []) ⟨fun i x y _ h => by simp at h, by simp⟩ (.refl _) hl
  exact ⟨q, xs, m, e1, e2, e5, by have := e3.bound; rw [e4] at this; exact this⟩

/-- C19, draining: in the specification, popping everything yields a non-increasing permutation of the content. -/
theorem C19_drain {lt : α → α → Bool} (sw : StrictWeak lt) (cap : Nat) : ∀ (m : List α) (xs : List (Out α)) (m' : List α),
    SpecRun lt cap m (List.replicate m.length .popInto) xs m' → ∃ vs, xs = vs.map .val ∧ vs.Perm m ∧ SortedBy (fun a b => lt b a) vs ∧ m' = [] := by
  intro m
  induction hn : m.length generalizing m with
  | zero =>
    intro xs m' h
    have : m = [] := List.length_eq_zero_iff.1 hn
    subst this
    cases h
    exact ⟨[], rfl, .refl _, .nil, rfl⟩
  | succ n ih =>
    intro xs m' h
    rw [List.replicate_succ] at h
    cases h with
    | cons h1 h2 =>
      cases h1 with
      | popInto hmax hp =>
        rename_i m1 ys t
        have hlen : m1.length = n := by have := hp.length_eq; simp at this; omega
        obtain ⟨vs, e1, e2, e3, e4⟩ := ih m1 hlen _ _ h2
        refine ⟨t :: vs, by rw [e1]; rfl, (e2.cons t).trans hp.symm, ?_, e4⟩
        refine List.Pairwise.cons ?_ e3
        intro b hb
        exact hmax.2 b (hp.mem_iff.2 (List.mem_cons_of_mem _ (e2.mem_iff.1 hb)))

/-- C19, move construction / assignment: all elements are transferred and the source is left empty, whatever moved-from elements look like. -/
theorem C19_move {lt : α → α → Bool} (sw : StrictWeak lt) (junk : α → α) : ∀ (fuel : Nat) (q other : PQ α), Inv lt q → Inv lt other → other.items.length < fuel →
    q.items.length + other.items.length ≤ q.cap →
    ∃ q' o', moveFrom lt junk fuel q other = .ok (q', o') ∧ Inv lt q' ∧ q'.items.Perm (other.items ++ q.items) ∧ o'.items = [] := by
  intro fuel
  induction fuel with
  | zero => intro q other _ _ h; omega
  | succ fuel ih =>
    intro q other h1 h2 hf hc
    rw [moveFrom]
    cases ho : other.items with
    | nil => exact ⟨q, other, by simp, h1, by simp, ho⟩
    | cons t r =>
      rw [ho] at hc hf
      simp only [List.length_cons] at hc hf
      rw [if_neg (by simp)]
      rw [show rd (t :: r) 0 = .ok t from rfl]
      obtain ⟨q1, e1, e2, e3, e4⟩ := push_spec sw h1 t (by omega)
      obtain ⟨o1, f1, f2, f3, f4⟩ := pop_spec sw h2 ho (junk t)
      simp only [e1]
      rw [ho] at f1
      simp only [f1]
      have l1 := e4.length_eq
      have l2 := f4.length_eq
      simp only [List.length_cons] at l1
      obtain ⟨q', o', g1, g2, g3, g4⟩ := ih q1 o1 e2 f2 (by omega) (by omega)
      refine ⟨q', o', g1, g2, g3.trans ?_, g4⟩
      refine (f4.append e4).trans ?_
      exact List.perm_middle

/-! ## Non-vacuity and findings -/

def nlt (a b : Nat) : Bool := decide (a < b)

example : legal 3 0 [.push 4, .push 9, .push 1, .push 5, .full, .top, .popInto, .popInto, .size, .popInto, (.empty : Op Nat)] = true := by rfl
example : run nlt (fun _ => 0) ⟨3, []⟩ [.push 4, .push 9, .push 1, .push 5, .full, .top, .popInto, .popInto, .size, .popInto, .empty] =
    .ok (⟨3, []⟩, [.done, .done, .done, .thrown, .flag true, .val 9, .val 9, .val 4, .num 1, .val 1, .flag true]) := by rfl

/-- Finding: `pop()` is documented to do nothing on an empty queue, but it dereferences outside the container. -/
theorem pop_empty_undefined (lt : α → α → Bool) (junk : α → α) (cap : Nat) : step lt junk ⟨cap, []⟩ .pop = .error .outOfBounds := rfl

end Etl.PriorityQueue
