import Verif.Common.Rng
import Verif.Common.Order
import Mathlib.Tactic.ByContra
/-!
# C21: binary searches (include/etl/algorithm.h)
-/
namespace Etl.Algo
open Etl.Rng

variable {α β : Type}

/-! ## Model -/

/-- The loop shared by `lower_bound` (algorithm.h:384-402) and `upper_bound` (algorithm.h:424-442): `goRight x` is `compare(*itr, value)`
respectively `!compare(value, *itr)`.  `fuel` bounds the number of iterations; running out means the loop does not terminate. -/
def boundLoop (a : List α) (goRight : α → Bool) : Nat → Nat → Nat → Res Nat
  | 0, first, count => if count = 0 then .ok first else .error .diverge
  | fuel + 1, first, count =>
    if count = 0 then .ok first
    else
      let step := count / 2
      match rd a (first + step) with
      | .error u => .error u
      | .ok x => if goRight x then boundLoop a goRight fuel (first + step + 1) (count - (step + 1)) else boundLoop a goRight fuel first step

/-- `lower_bound(first, last, value, compare)`, algorithm.h:373-403; iterators are positions in the list. -/
def lowerBound (a : List α) (first last : Nat) (v : β) (cmp : α → β → Bool) : Res Nat := boundLoop a (fun x => cmp x v) (last - first) first (last - first)

/-- `upper_bound`, algorithm.h:418-445. -/
def upperBound (a : List α) (first last : Nat) (v : β) (cmp : β → α → Bool) : Res Nat := boundLoop a (fun x => !cmp v x) (last - first) first (last - first)

/-- `equal_range`, algorithm.h:460-467. -/
def equalRange (a : List α) (first last : Nat) (v : β) (cmp1 : α → β → Bool) (cmp2 : β → α → Bool) : Res (Nat × Nat) :=
  match lowerBound a first last v cmp1 with
  | .error u => .error u
  | .ok l => match upperBound a first last v cmp2 with
    | .error u => .error u
    | .ok r => .ok (l, r)

/-- `binary_search`, algorithm.h:483-490. -/
def binarySearch (a : List α) (first last : Nat) (v : β) (cmp1 : α → β → Bool) (cmp2 : β → α → Bool) : Res Bool :=
  match lowerBound a first last v cmp1 with
  | .error u => .error u
  | .ok l =>
    if l = last then .ok false
    else match rd a l with
      | .error u => .error u
      | .ok x => .ok (!cmp2 v x)

/-- `binary_find(begin, end, value, predicate, equality)`, algorithm.h:2522-2541. -/
def binaryFind (a : List α) (first last : Nat) (v : β) (cmp : α → β → Bool) (eq : α → β → Bool) : Res Nat :=
  match lowerBound a first last v cmp with
  | .error u => .error u
  | .ok l =>
    if l = last then .ok last
    else match rd a l with
      | .error u => .error u
      | .ok x => if eq x v then .ok l else .ok last

/-! ## Proofs -/

/-- Whatever the contents, the loop terminates and reads only the range; when the predicate is true on a prefix of the range only, the
result is the end of that prefix. -/
theorem boundLoop_spec (a : List α) (p : α → Bool) : ∀ (fuel first count : Nat), count ≤ fuel → first + count ≤ a.length →
    ∃ r, boundLoop a p fuel first count = .ok r ∧ first ≤ r ∧ r ≤ first + count ∧
      (∀ x, r < first + count → a[r]? = some x → (∀ i j y z, first ≤ i → i ≤ j → j < first + count → a[i]? = some y → a[j]? = some z → p z = true → p y = true) → p x = false) ∧
      ((∀ i j y z, first ≤ i → i ≤ j → j < first + count → a[i]? = some y → a[j]? = some z → p z = true → p y = true) → ∀ i x, first ≤ i → i < r → a[i]? = some x → p x = true) := by
  intro fuel
  induction fuel with
  | zero =>
    intro first count hf hl
    have : count = 0 := by omega
    subst this
    exact ⟨first, rfl, Nat.le_refl _, by omega, fun _ h => by omega, fun _ i x h1 h2 => by omega⟩
  | succ fuel ih =>
    intro first count hf hl
    rw [boundLoop]
    by_cases h0 : count = 0
    · subst h0
      exact ⟨first, rfl, Nat.le_refl _, by omega, fun _ h => by omega, fun _ i x h1 h2 => by omega⟩
    · rw [if_neg h0]
      have hlt : first + count / 2 < a.length := by omega
      simp only [rd_lt hlt]
      have hm : a[first + count / 2]? = some a[first + count / 2] := List.getElem?_eq_getElem hlt
      cases hp : p a[first + count / 2]
      · simp only [Bool.false_eq_true, if_false]
        obtain ⟨r, e, h1, h2, h3, h4⟩ := ih first (count / 2) (by omega) (by omega)
        refine ⟨r, e, h1, by omega, ?_, ?_⟩
        · intro x hr hx hpart
          by_cases hr2 : r < first + count / 2
          · exact h3 x hr2 hx (fun i j y z a1 a2 a3 => hpart i j y z a1 a2 (by omega))
          · have : r = first + count / 2 := by omega
            subst this
            rw [hm] at hx; cases hx; exact hp
        · intro hpart i x hi1 hi2 hx
          exact h4 (fun i j y z a1 a2 a3 => hpart i j y z a1 a2 (by omega)) i x hi1 hi2 hx
      · simp only [if_true]
        obtain ⟨r, e, h1, h2, h3, h4⟩ := ih (first + count / 2 + 1) (count - (count / 2 + 1)) (by omega) (by omega)
        refine ⟨r, e, by omega, by omega, ?_, ?_⟩
        · intro x hr hx hpart
          exact h3 x (by omega) hx (fun i j y z a1 a2 a3 => hpart i j y z (by omega) a2 (by omega))
        · intro hpart i x hi1 hi2 hx
          by_cases hi : i ≤ first + count / 2
          · exact hpart i (first + count / 2) x _ hi1 hi (by omega) hx hm hp
          · exact h4 (fun i j y z a1 a2 a3 => hpart i j y z (by omega) a2 (by omega)) i x (by omega) hi2 hx

/-! ## Specification -/

/-- `r` splits `[first, last)` of `a` into elements satisfying `p` and elements not satisfying it. -/
structure IsBoundary (a : List α) (p : α → Bool) (first last r : Nat) : Prop where
  lo : first ≤ r
  hi : r ≤ last
  left : ∀ i x, first ≤ i → i < r → a[i]? = some x → p x = true
  right : ∀ i x, r ≤ i → i < last → a[i]? = some x → p x = false

theorem IsBoundary.unique {a : List α} {p : α → Bool} {first last r s : Nat} (hl : last ≤ a.length) (h1 : IsBoundary a p first last r) (h2 : IsBoundary a p first last s) : r = s := by
  have key : ∀ {r s : Nat}, IsBoundary a p first last r → IsBoundary a p first last s → ¬ r < s := by
    intro r s h1 h2 hlt
    have hs := h2.hi
    have hr : r < a.length := by omega
    have e := List.getElem?_eq_getElem hr
    have a1 := h2.left r _ h1.lo hlt e
    have a2 := h1.right r _ (Nat.le_refl _) (by omega) e
    rw [a1] at a2; cases a2
  have := key h1 h2
  have := key h2 h1
  omega

/-- the range is partitioned by `p`: no true after a false -/
def Partitioned (a : List α) (p : α → Bool) (first last : Nat) : Prop :=
  ∀ i j y z, first ≤ i → i ≤ j → j < last → a[i]? = some y → a[j]? = some z → p z = true → p y = true

/-- C21: no read outside `[first, last)` and termination, for every content and every predicate, even an inconsistent one. -/
theorem C21_bounds_safe (a : List α) (first last : Nat) (hfl : first ≤ last) (hl : last ≤ a.length) (v : β) (c1 : α → β → Bool) (c2 : β → α → Bool) :
    (∃ r, lowerBound a first last v c1 = .ok r ∧ first ≤ r ∧ r ≤ last) ∧ (∃ r, upperBound a first last v c2 = .ok r ∧ first ≤ r ∧ r ≤ last) := by
  obtain ⟨r, e, h1, h2, _⟩ := boundLoop_spec a (fun x => c1 x v) (last - first) first (last - first) (Nat.le_refl _) (by omega)
  obtain ⟨s, e', h1', h2', _⟩ := boundLoop_spec a (fun x => !c2 v x) (last - first) first (last - first) (Nat.le_refl _) (by omega)
  exact ⟨⟨r, e, h1, by omega⟩, ⟨s, e', h1', by omega⟩⟩

theorem boundLoop_boundary (a : List α) (p : α → Bool) (first last : Nat) (hfl : first ≤ last) (hl : last ≤ a.length) (hp : Partitioned a p first last) :
    ∃ r, boundLoop a p (last - first) first (last - first) = .ok r ∧ IsBoundary a p first last r := by
  obtain ⟨r, e, h1, h2, h3, h4⟩ := boundLoop_spec a p (last - first) first (last - first) (Nat.le_refl _) (by omega)
  have hp' : ∀ i j y z, first ≤ i → i ≤ j → j < first + (last - first) → a[i]? = some y → a[j]? = some z → p z = true → p y = true :=
    fun i j y z x1 x2 x3 => hp i j y z x1 x2 (by omega)
  refine ⟨r, e, h1, by omega, h4 hp', ?_⟩
  intro i x hi1 hi2 hx
  cases hpx : p x
  · rfl
  · have hr : r < a.length := by omega
    have er := List.getElem?_eq_getElem hr
    have a1 := h3 _ (by omega) er hp'
    have a2 := hp' r i _ x h1 hi1 (by omega) er hx hpx
    rw [a1] at a2; cases a2

/-- C21: on a range partitioned by `compare(element, value)`, `lower_bound` returns the partition point. -/
theorem C21_lower_bound (a : List α) (first last : Nat) (hfl : first ≤ last) (hl : last ≤ a.length) (v : β) (cmp : α → β → Bool)
    (hp : Partitioned a (fun x => cmp x v) first last) : ∃ r, lowerBound a first last v cmp = .ok r ∧ IsBoundary a (fun x => cmp x v) first last r :=
  boundLoop_boundary a _ first last hfl hl hp

/-- C21: on a range partitioned by `!compare(value, element)`, `upper_bound` returns the partition point. -/
theorem C21_upper_bound (a : List α) (first last : Nat) (hfl : first ≤ last) (hl : last ≤ a.length) (v : β) (cmp : β → α → Bool)
    (hp : Partitioned a (fun x => !cmp v x) first last) : ∃ r, upperBound a first last v cmp = .ok r ∧ IsBoundary a (fun x => !cmp v x) first last r :=
  boundLoop_boundary a _ first last hfl hl hp

/-- a sorted list is partitioned by both predicates -/
theorem sorted_partitioned {lt : α → α → Bool} (h : StrictWeak lt) {a : List α} (hs : SortedBy lt a) (v : α) (first last : Nat) :
    Partitioned a (fun x => lt x v) first last ∧ Partitioned a (fun x => !lt v x) first last := by
  have key : ∀ (i j : Nat) (y z : α), i ≤ j → a[i]? = some y → a[j]? = some z → lt z y = false := by
    intro i j y z hij hy hz
    by_cases he : i = j
    · subst he; rw [hy] at hz; cases hz; exact h.irrefl _
    · obtain ⟨hi, ey⟩ := List.getElem?_eq_some_iff.1 hy
      obtain ⟨hj, ez⟩ := List.getElem?_eq_some_iff.1 hz
      rw [← ey, ← ez]
      exact List.pairwise_iff_getElem.1 hs i j hi hj (by omega)
  constructor
  · intro i j y z _ h2 _ hy hz hlt
    exact h.lt_of_le_of_lt (key i j y z h2 hy hz) hlt
  · intro i j y z _ h2 _ hy hz hlt
    simp only [Bool.not_eq_true'] at hlt ⊢
    exact h.le_trans (key i j y z h2 hy hz) hlt

/-- C21 on a sorted range: `equal_range` returns exactly the positions of the elements equivalent to the value. -/
theorem C21_equal_range {lt : α → α → Bool} (h : StrictWeak lt) (a : List α) (hs : SortedBy lt a) (v : α) :
    ∃ l r, equalRange a 0 a.length v lt lt = .ok (l, r) ∧ l ≤ r ∧ r ≤ a.length ∧
      (∀ i x, a[i]? = some x → (equivBy lt x v = true ↔ l ≤ i ∧ i < r)) ∧
      (∀ i x, a[i]? = some x → (lt x v = true ↔ i < l)) ∧ (∀ i x, a[i]? = some x → (lt v x = true ↔ r ≤ i)) := by
  obtain ⟨p1, p2⟩ := sorted_partitioned h hs v 0 a.length
  obtain ⟨l, el, hl⟩ := C21_lower_bound a 0 a.length (by omega) (Nat.le_refl _) v lt p1
  obtain ⟨r, er, hr⟩ := C21_upper_bound a 0 a.length (by omega) (Nat.le_refl _) v lt p2
  have b1 : ∀ i x, a[i]? = some x → (lt x v = true ↔ i < l) := by
    intro i x hx
    have hi : i < a.length := (List.getElem?_eq_some_iff.1 hx).1
    constructor
    · intro hlt
      by_contra hc
      have := hl.right i x (by omega) hi hx
      rw [hlt] at this; cases this
    · intro hi'; exact hl.left i x (by omega) hi' hx
  have b2 : ∀ i x, a[i]? = some x → (lt v x = true ↔ r ≤ i) := by
    intro i x hx
    have hi : i < a.length := (List.getElem?_eq_some_iff.1 hx).1
    constructor
    · intro hlt
      by_contra hc
      have := hr.left i x (by omega) (by omega) hx
      rw [hlt] at this; cases this
    · intro hi'
      have := hr.right i x hi' hi hx
      simpa using this
  refine ⟨l, r, by unfold equalRange; rw [el]; simp only [er], ?_, hr.hi, ?_, b1, b2⟩
  · by_contra hc
    have hi : r < a.length := by have := hl.hi; omega
    have e := List.getElem?_eq_getElem hi
    have x1 := (b1 r _ e).2 (by omega)
    have x2 := (b2 r _ e).2 (Nat.le_refl _)
    have := h.asymm x1
    rw [x2] at this; cases this
  · intro i x hx
    have c1 := b1 i x hx
    have c2 := b2 i x hx
    unfold equivBy
    simp only [Bool.and_eq_true, Bool.not_eq_true']
    constructor
    · rintro ⟨x1, x2⟩
      constructor
      · by_contra hc; rw [c1.2 (by omega)] at x1; cases x1
      · by_contra hc; rw [c2.2 (by omega)] at x2; cases x2
    · rintro ⟨x1, x2⟩
      constructor
      · cases hh : lt x v
        · rfl
        · exact absurd (c1.1 hh) (by omega)
      · cases hh : lt v x
        · rfl
        · exact absurd (c2.1 hh) (by omega)

/-- C21 on a sorted range: `binary_search` says whether an equivalent element exists. -/
theorem C21_binary_search {lt : α → α → Bool} (h : StrictWeak lt) (a : List α) (hs : SortedBy lt a) (v : α) :
    ∃ b, binarySearch a 0 a.length v lt lt = .ok b ∧ (b = true ↔ ∃ x ∈ a, equivBy lt x v = true) := by
  obtain ⟨l, r, e, h1, h2, h3, h4, h5⟩ := C21_equal_range h a hs v
  have el : lowerBound a 0 a.length v lt = .ok l := by
    unfold equalRange at e
    split at e
    · cases e
    · split at e
      · cases e
      · cases e; assumption
  unfold binarySearch
  rw [el]
  simp only
  by_cases hl : l = a.length
  · rw [if_pos hl]
    refine ⟨false, rfl, ?_⟩
    simp only [Bool.false_eq_true, false_iff, not_exists, not_and]
    intro x hx hq
    obtain ⟨i, hi, rfl⟩ := List.getElem_of_mem hx
    have := (h3 i _ (List.getElem?_eq_getElem hi)).1 hq
    omega
  · rw [if_neg hl]
    have hll : l < a.length := by omega
    rw [rd_lt hll]
    have e := List.getElem?_eq_getElem hll
    refine ⟨_, rfl, ?_⟩
    constructor
    · intro hb
      refine ⟨a[l], List.getElem_mem hll, (h3 l _ e).2 ⟨Nat.le_refl _, ?_⟩⟩
      by_contra hc
      have := (h5 l _ e).2 (by omega)
      rw [this] at hb; simp at hb
    · rintro ⟨x, hx, hq⟩
      obtain ⟨i, hi, rfl⟩ := List.getElem_of_mem hx
      have := (h3 i _ (List.getElem?_eq_getElem hi)).1 hq
      cases hh : lt v a[l]
      · rfl
      · exact absurd ((h5 l _ e).1 hh) (by omega)

/-- C21 on a sorted range: `binary_find` returns the first position equivalent to the value, or the end. -/
theorem C21_binary_find {lt : α → α → Bool} (h : StrictWeak lt) (a : List α) (hs : SortedBy lt a) (v : α) :
    ∃ r, binaryFind a 0 a.length v lt (equivBy lt) = .ok r ∧
      ((∃ x, a[r]? = some x ∧ equivBy lt x v = true ∧ ∀ i y, i < r → a[i]? = some y → equivBy lt y v = false) ∨ (r = a.length ∧ ∀ x ∈ a, equivBy lt x v = false)) := by
  obtain ⟨l, r, e, h1, h2, h3, h4, h5⟩ := C21_equal_range h a hs v
  have el : lowerBound a 0 a.length v lt = .ok l := by
    unfold equalRange at e
    split at e
    · cases e
    · split at e
      · cases e
      · cases e; assumption
  have none : (∀ i, ¬ (l ≤ i ∧ i < r)) → ∀ x ∈ a, equivBy lt x v = false := by
    intro hn x hx
    obtain ⟨i, hi, rfl⟩ := List.getElem_of_mem hx
    cases hq : equivBy lt a[i] v
    · rfl
    · exact absurd ((h3 i _ (List.getElem?_eq_getElem hi)).1 hq) (hn i)
  unfold binaryFind
  rw [el]
  simp only
  by_cases hl : l = a.length
  · rw [if_pos hl]
    exact ⟨a.length, rfl, .inr ⟨rfl, none (fun i hi => by omega)⟩⟩
  · rw [if_neg hl]
    have hll : l < a.length := by omega
    rw [rd_lt hll]
    have e := List.getElem?_eq_getElem hll
    simp only
    cases hq : equivBy lt a[l] v
    · refine ⟨a.length, rfl, .inr ⟨rfl, none (fun i hi => ?_)⟩⟩
      have := (h3 l _ e).2 ⟨Nat.le_refl _, by omega⟩
      rw [hq] at this; cases this
    · refine ⟨l, rfl, .inl ⟨a[l], e, hq, ?_⟩⟩
      intro i y hi hy
      cases hh : equivBy lt y v
      · rfl
      · exact absurd ((h3 i _ hy).1 hh) (by omega)

/-! ## Non-vacuity -/

example : equalRange [1, 3, 3, 3, 7, 9] 0 6 3 (fun a b => decide (a < b)) (fun a b => decide (a < b)) = .ok (1, 4) := by rfl
example : lowerBound [1, 3, 3, 3, 7, 9] 0 6 8 (fun a b => decide (a < b)) = .ok 5 := by rfl
example : binarySearch [1, 3, 3, 3, 7, 9] 0 6 4 (fun a b => decide (a < b)) (fun a b => decide (a < b)) = .ok false := by rfl
example : SortedBy (fun a b : Nat => decide (a < b)) [1, 3, 3, 3, 7, 9] := by unfold SortedBy; decide

end Etl.Algo
