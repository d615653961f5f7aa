import Verif.Algo.Sort
import Mathlib.Data.List.Count
/-!
# C49: the other range algorithms of include/etl/algorithm.h

A one-pass loop `while (first != last) { ...; ++first; }` over an input range is structural recursion on the list of its elements, and the
returned iterator is a position counted from `first`.  Output iterators are the list of values written, in order; bounded destinations
(`copy_s` and friends) and in-place algorithms use the list-as-range of `Common/Rng.lean`, where an access outside is undefined.
-/
namespace Etl.Algo
open Etl.Rng

variable {α β γ : Type}

/-! ## Model: searching -/

/-- `find_if`, algorithm.h:506-519; `find` (527-540) with `p x = (x == value)`; `find_if_not` (1714-1729) and `partition_point` (1909-1924) with
the negated predicate. -/
def findIf (p : α → Bool) : List α → Nat
  | [] => 0
  | x :: xs => if p x then 0 else findIf p xs + 1

/-- `all_of`, `any_of`, `none_of`, algorithm.h:1993-2029. -/
def allOf (p : α → Bool) (l : List α) : Bool := findIf (fun x => !p x) l == l.length
def anyOf (p : α → Bool) (l : List α) : Bool := !(findIf p l == l.length)
def noneOf (p : α → Bool) (l : List α) : Bool := findIf p l == l.length

/-- `count_if`, algorithm.h:614-630, and `count` (590-606): the loop with its counter `n`. -/
def countIf (p : α → Bool) : List α → Nat → Nat
  | [], n => n
  | x :: xs, n => countIf p xs (if p x then n + 1 else n)

/-- four iterator `equal` with predicate, algorithm.h:735-750 (715-730 with `==`). -/
def equal4 (p : α → β → Bool) : List α → List β → Bool
  | x :: xs, y :: ys => if !p x y then false else equal4 p xs ys
  | xs, ys => xs.isEmpty && ys.isEmpty

/-- `lexicographical_compare`, algorithm.h:758-780. -/
def lexCompare (lt : α → α → Bool) : List α → List α → Bool
  | x :: xs, y :: ys => if lt x y then true else if lt y x then false else lexCompare lt xs ys
  | xs, ys => xs.isEmpty && !ys.isEmpty

/-- the inner loop of `search`, algorithm.h:1121-1140: `some true` the pattern is exhausted, `some false` the range is, `none` a mismatch. -/
def searchInner (cmp : α → β → Bool) : List α → List β → Option Bool
  | _, [] => some true
  | [], _ :: _ => some false
  | x :: xs, s :: ss => if !cmp x s then none else searchInner cmp xs ss

/-- `search`, algorithm.h:1114-1144, on the elements from `first` on; `none` would be the range running out without either return, which the
inner loop excludes. -/
def search (cmp : α → β → Bool) (pat : List β) : List α → Nat
  | [] => 0
  | x :: xs => match searchInner cmp (x :: xs) pat with
    | some true => 0
    | some false => xs.length + 1
    | none => search cmp pat xs + 1

/-- the loop of `find_end`, algorithm.h:1408-1423; `b` is the start of the remaining search, `result` the last match. -/
def findEndLoop (cmp : α → β → Bool) (pat : List β) (a : List α) : Nat → Nat → Nat → Res Nat
  | 0, _, _ => .error .diverge
  | fuel + 1, b, result =>
    let r := b + search cmp pat (a.drop b)
    if r = a.length then .ok result else findEndLoop cmp pat a fuel (r + 1) r

/-- `find_end`, algorithm.h:1398-1426. -/
def findEnd (cmp : α → β → Bool) (pat : List β) (a : List α) : Res Nat :=
  if pat.isEmpty then .ok a.length else findEndLoop cmp pat a (a.length + 1) 0 a.length

/-- `min_element`, algorithm.h:1447-1470: `i` is the position of the head of the remaining list, `(m, mv)` the current choice. -/
def minLoop (lt : α → α → Bool) : List α → Nat → Nat → α → Nat
  | [], _, m, _ => m
  | x :: xs, i, m, mv => if lt x mv then minLoop lt xs (i + 1) i x else minLoop lt xs (i + 1) m mv
def minElement (lt : α → α → Bool) : List α → Nat
  | [] => 0
  | x :: xs => minLoop lt xs 1 0 x

/-- `max_element`, algorithm.h:1495-1518. -/
def maxLoop (lt : α → α → Bool) : List α → Nat → Nat → α → Nat
  | [], _, m, _ => m
  | x :: xs, i, m, mv => if !lt x mv then maxLoop lt xs (i + 1) i x else maxLoop lt xs (i + 1) m mv
def maxElement (lt : α → α → Bool) : List α → Nat
  | [] => 0
  | x :: xs => maxLoop lt xs 1 0 x

/-- `minmax_element`, algorithm.h:1543-1573. -/
def minmaxLoop (lt : α → α → Bool) : List α → Nat → Nat → α → Nat → α → Nat × Nat
  | [], _, m, _, k, _ => (m, k)
  | x :: xs, i, m, mv, k, kv =>
    minmaxLoop lt xs (i + 1) (if lt x mv then i else m) (if lt x mv then x else mv) (if lt kv x then i else k) (if lt kv x then x else kv)
def minmaxElement (lt : α → α → Bool) : List α → Nat × Nat
  | [] => (0, 0)
  | x :: xs => minmaxLoop lt xs 1 0 x 0 x

/-- `is_sorted_until`, algorithm.h:1655-1677 (1626-1647 with `<`), `is_sorted` 1699-1705. -/
def sortedLoop (lt : α → α → Bool) : α → List α → Nat
  | _, [] => 0
  | b, x :: xs => if lt x b then 0 else sortedLoop lt x xs + 1
def isSortedUntil (lt : α → α → Bool) : List α → Nat
  | [] => 0
  | x :: xs => sortedLoop lt x xs + 1
def isSorted (lt : α → α → Bool) (l : List α) : Bool := isSortedUntil lt l == l.length

/-- the loop of `is_permutation`, algorithm.h:1749-1765 (1818-1830 for four iterators): `done` are the elements before `i`. -/
def isPermLoop [BEq α] (l2 : List α) : List α → List α → Bool
  | _, [] => true
  | done, x :: xs =>
    if findIf (fun y => y == x) done == done.length then
      let n := countIf (fun y => y == x) l2 0
      if n == 0 || !(countIf (fun y => y == x) (x :: xs) 0 == n) then false else isPermLoop l2 (done ++ [x]) xs
    else isPermLoop l2 (done ++ [x]) xs

/-- three iterator `is_permutation`, algorithm.h:1739-1768; the second range is as long as the first, a shorter one is read past its end. -/
def isPerm3 [BEq α] (l1 l2 : List α) : Res Bool := if l2.length < l1.length then .error .outOfBounds else .ok (isPermLoop (l2.take l1.length) [] l1)

/-- four iterator `is_permutation`, algorithm.h:1810-1833. -/
def isPerm4 [BEq α] (l1 l2 : List α) : Bool := isPermLoop l2 [] l1

/-- `is_partitioned`, algorithm.h:1874-1901. -/
def isPartitioned (p : α → Bool) : List α → Bool
  | [] => true
  | x :: xs => if !p x then noTrue (x :: xs) else isPartitioned p xs
where noTrue : List α → Bool
  | [] => true
  | x :: xs => if p x then false else noTrue xs

/-! ## Model: producing -/

/-- `partition_copy`, algorithm.h:1934-1958, and `partition_transform` (2817-2845) with the two functions. -/
def partitionTransform (p : α → Bool) (f g : α → β) : List α → List β → List β → List β × List β
  | [], t, e => (t, e)
  | x :: xs, t, e => if p x then partitionTransform p f g xs (t ++ [f x]) e else partitionTransform p f g xs t (e ++ [g x])

/-- `copy_if` (1966-1985) with `f = id`, `transform_if` (2694-2715), `copy_n_if`/`transform_n_if` (2392-2410, 2756-2778) on the first `n` elements. -/
def transformIf (p : α → Bool) (f : α → β) : List α → List β → List β
  | [], o => o
  | x :: xs, o => transformIf p f xs (if p x then o ++ [f x] else o)

/-- `accumulate`, algorithm.h:2143-2153 (2126-2136 with `+`). -/
def accumulate (op : γ → α → γ) : List α → γ → γ
  | [], s => s
  | x :: xs, s => accumulate op xs (op s x)

/-- `clamp`, algorithm.h:2158-2164. -/
def clamp (lt : α → α → Bool) (v lo hi : α) : α := if lt v lo then lo else if lt hi v then hi else v

/-- `copy_s` for non random iterators, algorithm.h:2290-2305 (and `move_s`, `copy_n_s`, `transform_s`, whose loops differ in how the source end is
tested and in the function applied): stop at whichever end comes first.  The destination is the list `o`, written from position `i` on. -/
def copyS (f : α → β) : List α → List β → Nat → Res (List β × Nat)
  | [], o, i => .ok (o, i)
  | x :: xs, o, i => if i = o.length then .ok (o, i) else match wr o i (f x) with
    | .error u => .error u
    | .ok o => copyS f xs o (i + 1)

/-- `copy_s` for random iterators, algorithm.h:2262-2277: the number of elements is computed first, then `copy`. -/
def copyN : Nat → List α → List α → Nat → Res (List α × Nat)
  | 0, _, o, i => .ok (o, i)
  | _ + 1, [], _, _ => .error .outOfBounds
  | n + 1, x :: xs, o, i => match wr o i x with
    | .error u => .error u
    | .ok o => copyN n xs o (i + 1)
def copySRandom (src dst : List α) : Res (List α × Nat) := copyN (if src.length < dst.length then src.length else dst.length) src dst 0

/-- `copy_if_s`, algorithm.h:2362-2383. -/
def copyIfS (p : α → Bool) : List α → List α → Nat → Res (List α × Nat)
  | [], o, i => .ok (o, i)
  | x :: xs, o, i =>
    if i = o.length then .ok (o, i)
    else if p x then match wr o i x with
      | .error u => .error u
      | .ok o => copyIfS p xs o (i + 1)
    else copyIfS p xs o i

/-! ## Model: in place -/

/-- the loop of `remove_if`, algorithm.h:2224-2233 (`remove` 2198-2207): `n` elements from `itr` on remain. -/
def removeLoop (p : α → Bool) : Nat → List α → Nat → Nat → Res (List α × Nat)
  | 0, a, first, _ => .ok (a, first)
  | n + 1, a, first, itr => match rd a itr with
    | .error u => .error u
    | .ok x => if !p x then match wr a first x with
        | .error u => .error u
        | .ok a => removeLoop p n a (first + 1) (itr + 1)
      else removeLoop p n a first (itr + 1)

/-- `remove_if`, algorithm.h:2218-2237. -/
def removeIf (p : α → Bool) (a : List α) : Res (List α × Nat) :=
  let first := findIf p a
  if first = a.length then .ok (a, first) else removeLoop p (a.length - (first + 1)) a first (first + 1)

/-- the loop of `partition` for forward iterators, algorithm.h:3262-3271. -/
def partFwdLoop (p : α → Bool) : Nat → List α → Nat → Nat → Res (List α × Nat)
  | 0, a, first, _ => .ok (a, first)
  | n + 1, a, first, i => match rd a i with
    | .error u => .error u
    | .ok x => if p x then match swp a i first with
        | .error u => .error u
        | .ok a => partFwdLoop p n a (first + 1) (i + 1)
      else partFwdLoop p n a first (i + 1)

/-- `partition` for forward iterators, algorithm.h:3249-3274. -/
def partitionFwd (p : α → Bool) (a : List α) : Res (List α × Nat) :=
  let first := findIf (fun x => !p x) a
  if first = a.length then .ok (a, first) else partFwdLoop p (a.length - (first + 1)) a first (first + 1)

/-- `find_if(reverse_iterator(last), reverse_iterator(first), predicate).base()`: one past the last element satisfying `p`, or the beginning. -/
def findLast (p : α → Bool) (l : List α) : Nat := l.length - findIf p l.reverse

/-- `partition` for bidirectional iterators, algorithm.h:3279-3309. -/
def partBiLoop (p : α → Bool) : Nat → List α → Nat → Nat → Res (List α × Nat)
  | 0, _, _, _ => .error .diverge
  | fuel + 1, a, first, last =>
    if first = last then .ok (a, first)
    else
      let first := first + findIf (fun x => !p x) ((a.drop first).take (last - first))
      if first = last then .ok (a, first)
      else
        let last := first + findLast p ((a.drop first).take (last - first))
        if first = last then .ok (a, first)
        else match swp a first (last - 1) with
          | .error u => .error u
          | .ok a => partBiLoop p fuel a (first + 1) (last - 1)
def partitionBi (p : α → Bool) (a : List α) : Res (List α × Nat) := partBiLoop p (a.length + 1) a 0 a.length

/-- the loop of `nth_partition`, algorithm.h:3333-3341; `n` positions `j` remain. -/
def nthPartLoop (lt : α → α → Bool) (pv : α) : Nat → List α → Nat → Nat → Res (List α × Nat)
  | 0, a, i, _ => .ok (a, i)
  | n + 1, a, i, j => match rd a j with
    | .error u => .error u
    | .ok x => if !lt pv x then match swp a i j with
        | .error u => .error u
        | .ok a => nthPartLoop lt pv n a (i + 1) (j + 1)
      else nthPartLoop lt pv n a i (j + 1)

/-- `nth_partition`, algorithm.h:3319-3346; `last` is the last element, not one past it. -/
def nthPartition (lt : α → α → Bool) (a : List α) (first last : Nat) : Res (List α × Nat) :=
  match rd a last with
  | .error u => .error u
  | .ok pv => match nthPartLoop lt pv (last - first) a first first with
    | .error u => .error u
    | .ok (a, i) => match swp a i last with
      | .error u => .error u
      | .ok a => .ok (a, i)

/-- the loop of `nth_element`, algorithm.h:3370-3388.  `last = p - 1` is computed only when `p > nth`. -/
def nthLoop (lt : α → α → Bool) (nth : Nat) : Nat → List α → Nat → Nat → Res (List α)
  | 0, _, _, _ => .error .diverge
  | fuel + 1, a, first, last =>
    if first ≤ last then
      match nthPartition lt a first last with
      | .error u => .error u
      | .ok (a, p) => if p = nth then .ok a else if p > nth then nthLoop lt nth fuel a first (p - 1) else nthLoop lt nth fuel a (p + 1) last
    else .ok a

/-- `nth_element`, algorithm.h:3359-3389. -/
def nthElement (lt : α → α → Bool) (a : List α) (nth : Nat) : Res (List α) :=
  if a.length = 0 then .ok a else nthLoop lt nth (a.length + 1) a 0 (a.length - 1)

/-! ## find and friends -/

/-- C49: `find`, `find_if`, `find_if_not` return the first match, or the end. -/
theorem C49_find (p : α → Bool) (l : List α) : findIf p l ≤ l.length ∧ (∀ i x, i < findIf p l → l[i]? = some x → p x = false) ∧ (∀ x, l[findIf p l]? = some x → p x = true) := by
  induction l with
  | nil => simp [findIf]
  | cons y l ih =>
    unfold findIf
    cases hy : p y
    · simp only [Bool.false_eq_true, if_false]
      refine ⟨by simp; exact ih.1, ?_, by simpa using ih.2.2⟩
      intro i x hi hx
      cases i with
      | zero => simp at hx; subst hx; exact hy
      | succ i => exact ih.2.1 i x (by omega) (by simpa using hx)
    · simp [hy]

theorem findIf_eq_length {p : α → Bool} {l : List α} : findIf p l = l.length ↔ ∀ x ∈ l, p x = false := by
  obtain ⟨h1, h2, h3⟩ := C49_find p l
  constructor
  · intro h x hx
    obtain ⟨i, hi, rfl⟩ := List.mem_iff_getElem.1 hx
    exact h2 i _ (by omega) (List.getElem?_eq_getElem hi)
  · intro h
    by_contra hne
    have hlt : findIf p l < l.length := by omega
    have := h3 _ (List.getElem?_eq_getElem hlt)
    rw [h _ (List.getElem_mem hlt)] at this
    cases this

/-- C49: `all_of`, `any_of`, `none_of`. -/
theorem C49_quantifiers (p : α → Bool) (l : List α) : (allOf p l = true ↔ ∀ x ∈ l, p x = true) ∧ (anyOf p l = true ↔ ∃ x ∈ l, p x = true) ∧ (noneOf p l = true ↔ ¬ ∃ x ∈ l, p x = true) := by
  have h1 : (findIf p l == l.length) = true ↔ ∀ x ∈ l, p x = false := by rw [beq_iff_eq]; exact findIf_eq_length
  refine ⟨?_, ?_, ?_⟩
  · unfold allOf
    rw [beq_iff_eq, findIf_eq_length]
    simp
  · unfold anyOf
    rw [Bool.not_eq_true', ← Bool.not_eq_true, h1]
    simp
  · unfold noneOf
    rw [h1]; simp

/-- C49: `partition_point` of a partitioned range is its boundary. -/
theorem C49_partition_point (p : α → Bool) (l : List α) (h : Partitioned l p 0 l.length) : IsBoundary l p 0 l.length (findIf (fun x => !p x) l) := by
  obtain ⟨h1, h2, h3⟩ := C49_find (fun x => !p x) l
  refine ⟨Nat.zero_le _, h1, fun i x _ hi hx => by simpa using h2 i x hi hx, ?_⟩
  intro i x hi hil hx
  by_contra hn
  have hpx : p x = true := by simpa using hn
  have hlt : findIf (fun x => !p x) l < l.length := by omega
  have e := List.getElem?_eq_getElem hlt
  have := h _ i _ x (Nat.zero_le _) hi hil e hx hpx
  have := h3 _ e
  simp_all

/-- C49: `count` and `count_if`. -/
theorem C49_count (p : α → Bool) (l : List α) (n : Nat) : countIf p l n = n + l.countP p := by
  induction l generalizing n with
  | nil => simp [countIf]
  | cons x l ih =>
    rw [countIf, ih, List.countP_cons]
    split <;> omega

/-- C49: `equal` (four iterators). -/
theorem C49_equal (p : α → β → Bool) (l : List α) (m : List β) : equal4 p l m = true ↔ List.Forall₂ (fun x y => p x y = true) l m := by
  induction l generalizing m with
  | nil => cases m <;> simp [equal4]
  | cons x l ih =>
    cases m with
    | nil => simp [equal4]
    | cons y m =>
      rw [equal4, List.forall₂_cons, ← ih]
      cases p x y <;> simp

/-- C49: `lexicographical_compare`: at the first position where the ranges differ the left is smaller, or the left is a proper prefix. -/
theorem C49_lexicographical_compare (lt : α → α → Bool) (l m : List α) : lexCompare lt l m = true ↔
    ∃ k, (∀ i x y, i < k → l[i]? = some x → m[i]? = some y → equivBy lt x y = true) ∧ k < m.length ∧
      (k = l.length ∨ ∃ x y, l[k]? = some x ∧ m[k]? = some y ∧ lt x y = true) := by
  induction l generalizing m with
  | nil =>
    cases m with
    | nil => simp [lexCompare]
    | cons y m => simp only [lexCompare, List.isEmpty_nil, List.isEmpty_cons, Bool.not_false, Bool.and_self, true_iff]; exact ⟨0, by simp, by simp, Or.inl rfl⟩
  | cons x l ih =>
    cases m with
    | nil => simp [lexCompare]
    | cons y m =>
      rw [lexCompare]
      cases h1 : lt x y
      · cases h2 : lt y x
        · simp only [Bool.false_eq_true, if_false]
          rw [ih]
          constructor
          · rintro ⟨k, hk1, hk2, hk3⟩
            refine ⟨k + 1, ?_, by simpa using hk2, ?_⟩
            · intro i x' y' hi hx hy
              cases i with
              | zero => simp at hx hy; subst hx hy; simp [equivBy, h1, h2]
              | succ i => exact hk1 i x' y' (by omega) (by simpa using hx) (by simpa using hy)
            · rcases hk3 with h | h
              · exact Or.inl (by simp [h])
              · exact Or.inr (by simpa using h)
          · rintro ⟨k, hk1, hk2, hk3⟩
            cases k with
            | zero =>
              rcases hk3 with h | ⟨x', y', hx, hy, hl⟩
              · simp at h
              · simp at hx hy; subst hx hy; rw [h1] at hl; cases hl
            | succ k =>
              refine ⟨k, ?_, by simpa using hk2, ?_⟩
              · intro i x' y' hi hx hy
                exact hk1 (i + 1) x' y' (by omega) (by simpa using hx) (by simpa using hy)
              · rcases hk3 with h | h
                · exact Or.inl (by simpa using h)
                · exact Or.inr (by simpa using h)
        · simp only [Bool.false_eq_true, if_false, if_true, false_iff]
          rintro ⟨k, hk1, hk2, hk3⟩
          cases k with
          | zero =>
            rcases hk3 with h | ⟨x', y', hx, hy, hl⟩
            · simp at h
            · simp at hx hy; subst hx hy; rw [h1] at hl; cases hl
          | succ k =>
            have := hk1 0 x y (by omega) rfl rfl
            simp [equivBy, h1, h2] at this
      · simp only [if_true, true_iff]
        exact ⟨0, by simp, by simp, Or.inr ⟨x, y, rfl, rfl, h1⟩⟩

/-! ## search -/

/-- the pattern occurs at position `r` -/
def MatchAt (cmp : α → β → Bool) (a : List α) (pat : List β) (r : Nat) : Prop :=
  r + pat.length ≤ a.length ∧ ∀ i x s, a[r + i]? = some x → pat[i]? = some s → cmp x s = true

theorem searchInner_spec (cmp : α → β → Bool) (l : List α) (pat : List β) :
    (searchInner cmp l pat = some true → MatchAt cmp l pat 0) ∧ (searchInner cmp l pat = some false → l.length < pat.length) ∧ (searchInner cmp l pat = none → ¬ MatchAt cmp l pat 0) := by
  induction l generalizing pat with
  | nil =>
    cases pat with
    | nil => refine ⟨fun _ => ⟨by simp, by simp⟩, by simp [searchInner], by simp [searchInner]⟩
    | cons s ss => simp [searchInner]
  | cons x l ih =>
    cases pat with
    | nil => refine ⟨fun _ => ⟨by simp, by simp⟩, by simp [searchInner], by simp [searchInner]⟩
    | cons s ss =>
      rw [searchInner]
      cases h : cmp x s
      · simp only [Bool.not_false, if_true]
        refine ⟨by simp, by simp, fun _ hm => ?_⟩
        have := hm.2 0 x s rfl rfl
        rw [h] at this; cases this
      · simp only [Bool.not_true, Bool.false_eq_true, if_false]
        obtain ⟨h1, h2, h3⟩ := ih ss
        refine ⟨fun e => ?_, fun e => by simpa using h2 e, fun e hm => h3 e ?_⟩
        · obtain ⟨a1, a2⟩ := h1 e
          refine ⟨by simp at a1 ⊢; omega, ?_⟩
          intro i x' s' hx hs
          cases i with
          | zero => simp at hx hs; subst hx hs; exact h
          | succ i => exact a2 i x' s' (by simpa using hx) (by simpa using hs)
        · obtain ⟨a1, a2⟩ := hm
          refine ⟨by simp at a1 ⊢; omega, ?_⟩
          intro i x' s' hx hs
          exact a2 (i + 1) x' s' (by simpa using hx) (by simpa using hs)

theorem matchAt_cons {cmp : α → β → Bool} {x : α} {a : List α} {pat : List β} {r : Nat} : MatchAt cmp (x :: a) pat (r + 1) ↔ MatchAt cmp a pat r := by
  unfold MatchAt
  constructor
  · rintro ⟨h1, h2⟩
    refine ⟨by simp at h1; omega, fun i y s hy hs => h2 i y s ?_ hs⟩
    rw [show r + 1 + i = (r + i) + 1 by omega]; simpa using hy
  · rintro ⟨h1, h2⟩
    refine ⟨by simp; omega, fun i y s hy hs => h2 i y s ?_ hs⟩
    rw [show r + 1 + i = (r + i) + 1 by omega] at hy; simpa using hy

/-- C49: `search` returns the first occurrence, or the end when there is none. -/
theorem C49_search (cmp : α → β → Bool) (pat : List β) (a : List α) :
    (∀ i, i < search cmp pat a → ¬ MatchAt cmp a pat i) ∧ search cmp pat a ≤ a.length ∧ (MatchAt cmp a pat (search cmp pat a) ∨ (search cmp pat a = a.length ∧ ∀ i, ¬ MatchAt cmp a pat i)) := by
  induction a with
  | nil =>
    refine ⟨by simp [search], by simp [search], ?_⟩
    cases pat with
    | nil => exact Or.inl ⟨by simp [search], by simp⟩
    | cons s ss => exact Or.inr ⟨rfl, fun i h => by have := h.1; simp at this⟩
  | cons x a ih =>
    rw [search]
    obtain ⟨h1, h2, h3⟩ := searchInner_spec cmp (x :: a) pat
    cases hs : searchInner cmp (x :: a) pat with
    | none =>
      simp only
      refine ⟨?_, by simp; exact ih.2.1, ?_⟩
      · intro i hi
        cases i with
        | zero => exact h3 hs
        | succ i => rw [matchAt_cons]; exact ih.1 i (by omega)
      · rcases ih.2.2 with h | ⟨h, h'⟩
        · exact Or.inl (matchAt_cons.2 h)
        · refine Or.inr ⟨by simp [h], fun i => ?_⟩
          cases i with
          | zero => exact h3 hs
          | succ i => rw [matchAt_cons]; exact h' i
    | some b =>
      cases b with
      | true => exact ⟨fun i hi => by simp at hi, by simp, Or.inl (h1 hs)⟩
      | false =>
        have hl := h2 hs
        have hno : ∀ i, ¬ MatchAt cmp (x :: a) pat i := fun i h => by have := h.1; omega
        exact ⟨fun i _ => hno i, by simp, Or.inr ⟨by simp, hno⟩⟩

theorem matchAt_drop {cmp : α → β → Bool} {a : List α} {pat : List β} {b r : Nat} (hb : b ≤ a.length) : MatchAt cmp (a.drop b) pat r ↔ MatchAt cmp a pat (b + r) := by
  unfold MatchAt
  simp only [List.length_drop, List.getElem?_drop]
  constructor
  · rintro ⟨h1, h2⟩
    exact ⟨by omega, fun i y s hy hs => h2 i y s (by rw [← Nat.add_assoc]; exact hy) hs⟩
  · rintro ⟨h1, h2⟩
    exact ⟨by omega, fun i y s hy hs => h2 i y s (by rw [Nat.add_assoc]; exact hy) hs⟩

theorem findEndLoop_spec (cmp : α → β → Bool) (pat : List β) (hp : pat ≠ []) (a : List α) : ∀ (fuel b result : Nat), a.length < fuel + b → b ≤ a.length →
    (MatchAt cmp a pat result ∨ result = a.length ∧ ∀ i, i < b → ¬ MatchAt cmp a pat i) → (∀ i, result < i → i < b → ¬ MatchAt cmp a pat i) →
    ∃ r, findEndLoop cmp pat a fuel b result = .ok r ∧ (MatchAt cmp a pat r ∧ (∀ i, r < i → ¬ MatchAt cmp a pat i) ∨ r = a.length ∧ ∀ i, ¬ MatchAt cmp a pat i) := by
  have hpl : 0 < pat.length := List.length_pos_iff.2 hp
  intro fuel
  induction fuel with
  | zero => intro b result h1 h2; omega
  | succ fuel ih =>
    intro b result h1 h2 h3 h4
    rw [findEndLoop]
    obtain ⟨s1, s2, s3⟩ := C49_search cmp pat (a.drop b)
    simp only [List.length_drop] at s2 s3
    by_cases hr : b + search cmp pat (a.drop b) = a.length
    · rw [if_pos hr]
      have hno : ∀ i, b ≤ i → ¬ MatchAt cmp a pat i := by
        intro i hi hm
        rcases s3 with h | ⟨_, h⟩
        · have := h.1; simp only [List.length_drop] at this; omega
        · exact h (i - b) ((matchAt_drop h2).2 (by rw [show b + (i - b) = i by omega]; exact hm))
      refine ⟨result, rfl, ?_⟩
      rcases h3 with h | ⟨h, h'⟩
      · refine Or.inl ⟨h, fun i hi => ?_⟩
        by_cases hib : i < b
        · exact h4 i hi hib
        · exact hno i (by omega)
      · refine Or.inr ⟨h, fun i => ?_⟩
        by_cases hib : i < b
        · exact h' i hib
        · exact hno i (by omega)
    · rw [if_neg hr]
      have hm : MatchAt cmp a pat (b + search cmp pat (a.drop b)) := by
        rcases s3 with h | ⟨h, _⟩
        · exact (matchAt_drop h2).1 h
        · omega
      refine ih _ _ (by omega) (by omega) (Or.inl hm) (fun i hi hi2 => by omega)

/-- C49: `find_end` returns the last occurrence of a non-empty pattern, or the end when there is none. -/
theorem C49_find_end (cmp : α → β → Bool) (pat : List β) (a : List α) (hp : pat ≠ []) :
    ∃ r, findEnd cmp pat a = .ok r ∧ (MatchAt cmp a pat r ∧ (∀ i, r < i → ¬ MatchAt cmp a pat i) ∨ r = a.length ∧ ∀ i, ¬ MatchAt cmp a pat i) := by
  unfold findEnd
  rw [if_neg (by simpa using hp)]
  exact findEndLoop_spec cmp pat hp a _ 0 _ (by omega) (by omega) (Or.inr ⟨rfl, fun i h => by omega⟩) (fun i h1 h2 => by omega)

/-! ## extrema -/

/-- position `m` holds a minimum, the first one -/
def FirstMin (lt : α → α → Bool) (a : List α) (m : Nat) : Prop :=
  ∃ v, a[m]? = some v ∧ (∀ (i : Nat) (x : α), a[i]? = some x → lt x v = false) ∧ (∀ (i : Nat) (x : α), i < m → a[i]? = some x → lt v x = true)
/-- position `m` holds a maximum, the last one -/
def LastMax (lt : α → α → Bool) (a : List α) (m : Nat) : Prop :=
  ∃ v, a[m]? = some v ∧ (∀ (i : Nat) (x : α), a[i]? = some x → lt v x = false) ∧ (∀ (i : Nat) (x : α), m < i → a[i]? = some x → lt x v = true)
/-- position `m` holds a maximum, the first one -/
def FirstMax (lt : α → α → Bool) (a : List α) (m : Nat) : Prop :=
  ∃ v, a[m]? = some v ∧ (∀ (i : Nat) (x : α), a[i]? = some x → lt v x = false) ∧ (∀ (i : Nat) (x : α), i < m → a[i]? = some x → lt x v = true)

theorem getElem?_snoc {l : List α} {x y : α} {i : Nat} : (l ++ [x])[i]? = some y ↔ l[i]? = some y ∨ i = l.length ∧ x = y := by
  by_cases h : i < l.length
  · rw [List.getElem?_append_left h]; constructor
    · exact Or.inl
    · rintro (h1 | h1)
      · exact h1
      · omega
  · rw [List.getElem?_append_right (by omega)]
    by_cases h2 : i = l.length
    · subst h2; simp
    · constructor
      · intro h3; rw [List.getElem?_eq_none (by simp; omega)] at h3; cases h3
      · rintro (h1 | h1)
        · rw [List.getElem?_eq_none (by omega)] at h1; cases h1
        · omega

theorem firstMin_snoc {lt : α → α → Bool} (sw : StrictWeak lt) {l : List α} {m : Nat} {mv : α} (hm : l[m]? = some mv) (h : FirstMin lt l m) (x : α) :
    if lt x mv then FirstMin lt (l ++ [x]) l.length else FirstMin lt (l ++ [x]) m := by
  obtain ⟨v, h1, h2, h3⟩ := h
  rw [hm] at h1; cases h1
  have hml := (List.getElem?_eq_some_iff.1 hm).1
  split
  · rename_i hx
    refine ⟨x, by simp, ?_, ?_⟩
    · intro i y hy
      rcases getElem?_snoc.1 hy with hy | ⟨_, rfl⟩
      · exact sw.le_trans (sw.asymm hx) (h2 i y hy)
      · exact sw.irrefl _
    · intro i y hi hy
      rcases getElem?_snoc.1 hy with hy | ⟨_, rfl⟩
      · exact sw.lt_of_lt_of_le hx (h2 i y hy)
      · omega
  · rename_i hx
    have hx : lt x mv = false := by simpa using hx
    refine ⟨mv, getElem?_snoc.2 (Or.inl hm), ?_, ?_⟩
    · intro i y hy
      rcases getElem?_snoc.1 hy with hy | ⟨_, rfl⟩
      · exact h2 i y hy
      · exact hx
    · intro i y hi hy
      rcases getElem?_snoc.1 hy with hy | ⟨_, rfl⟩
      · exact h3 i y hi hy
      · omega

theorem firstMax_snoc {lt : α → α → Bool} (sw : StrictWeak lt) {l : List α} {m : Nat} {mv : α} (hm : l[m]? = some mv) (h : FirstMax lt l m) (x : α) :
    if lt mv x then FirstMax lt (l ++ [x]) l.length else FirstMax lt (l ++ [x]) m := by
  obtain ⟨v, h1, h2, h3⟩ := h
  rw [hm] at h1; cases h1
  have hml := (List.getElem?_eq_some_iff.1 hm).1
  split
  · rename_i hx
    refine ⟨x, by simp, ?_, ?_⟩
    · intro i y hy
      rcases getElem?_snoc.1 hy with hy | ⟨_, rfl⟩
      · exact sw.le_trans (h2 i y hy) (sw.asymm hx)
      · exact sw.irrefl _
    · intro i y hi hy
      rcases getElem?_snoc.1 hy with hy | ⟨_, rfl⟩
      · exact sw.lt_of_le_of_lt (h2 i y hy) hx
      · omega
  · rename_i hx
    have hx : lt mv x = false := by simpa using hx
    refine ⟨mv, getElem?_snoc.2 (Or.inl hm), ?_, ?_⟩
    · intro i y hy
      rcases getElem?_snoc.1 hy with hy | ⟨_, rfl⟩
      · exact h2 i y hy
      · exact hx
    · intro i y hi hy
      rcases getElem?_snoc.1 hy with hy | ⟨_, rfl⟩
      · exact h3 i y hi hy
      · omega

theorem lastMax_snoc {lt : α → α → Bool} (sw : StrictWeak lt) {l : List α} {m : Nat} {mv : α} (hm : l[m]? = some mv) (h : LastMax lt l m) (x : α) :
    if !lt x mv then LastMax lt (l ++ [x]) l.length else LastMax lt (l ++ [x]) m := by
  obtain ⟨v, h1, h2, h3⟩ := h
  rw [hm] at h1; cases h1
  have hml := (List.getElem?_eq_some_iff.1 hm).1
  split
  · rename_i hx
    have hx : lt x mv = false := by simpa using hx
    refine ⟨x, by simp, ?_, ?_⟩
    · intro i y hy
      rcases getElem?_snoc.1 hy with hy | ⟨_, rfl⟩
      · exact sw.le_trans (h2 i y hy) hx
      · exact sw.irrefl _
    · intro i y hi hy
      have := (List.getElem?_eq_some_iff.1 hy).1
      simp at this; omega
  · rename_i hx
    have hx : lt x mv = true := by simpa using hx
    refine ⟨mv, getElem?_snoc.2 (Or.inl hm), ?_, ?_⟩
    · intro i y hy
      rcases getElem?_snoc.1 hy with hy | ⟨_, rfl⟩
      · exact h2 i y hy
      · exact sw.asymm hx
    · intro i y hi hy
      rcases getElem?_snoc.1 hy with hy | ⟨_, rfl⟩
      · exact h3 i y hi hy
      · exact hx

theorem minLoop_spec {lt : α → α → Bool} (sw : StrictWeak lt) : ∀ (r l : List α) (m : Nat) (mv : α), l[m]? = some mv → FirstMin lt l m → FirstMin lt (l ++ r) (minLoop lt r l.length m mv) := by
  intro r
  induction r with
  | nil => intro l m mv _ h; simpa [minLoop] using h
  | cons x r ih =>
    intro l m mv hm h
    have hs := firstMin_snoc sw hm h x
    rw [minLoop]
    split
    · rename_i hx
      rw [if_pos hx] at hs
      have := ih (l ++ [x]) l.length x (by simp) hs
      simpa using this
    · rename_i hx
      rw [if_neg hx] at hs
      have := ih (l ++ [x]) m mv (getElem?_snoc.2 (Or.inl hm)) hs
      simpa using this

theorem maxLoop_spec {lt : α → α → Bool} (sw : StrictWeak lt) : ∀ (r l : List α) (m : Nat) (mv : α), l[m]? = some mv → LastMax lt l m → LastMax lt (l ++ r) (maxLoop lt r l.length m mv) := by
  intro r
  induction r with
  | nil => intro l m mv _ h; simpa [maxLoop] using h
  | cons x r ih =>
    intro l m mv hm h
    have hs := lastMax_snoc sw hm h x
    rw [maxLoop]
    split
    · rename_i hx
      rw [if_pos hx] at hs
      have := ih (l ++ [x]) l.length x (by simp) hs
      simpa using this
    · rename_i hx
      rw [if_neg hx] at hs
      have := ih (l ++ [x]) m mv (getElem?_snoc.2 (Or.inl hm)) hs
      simpa using this

theorem minmaxLoop_spec {lt : α → α → Bool} (sw : StrictWeak lt) : ∀ (r l : List α) (m : Nat) (mv : α) (k : Nat) (kv : α), l[m]? = some mv → FirstMin lt l m → l[k]? = some kv → FirstMax lt l k →
    FirstMin lt (l ++ r) (minmaxLoop lt r l.length m mv k kv).1 ∧ FirstMax lt (l ++ r) (minmaxLoop lt r l.length m mv k kv).2 := by
  intro r
  induction r with
  | nil => intro l m mv k kv _ h _ h'; simpa [minmaxLoop] using ⟨h, h'⟩
  | cons x r ih =>
    intro l m mv k kv hm h hk h'
    have hs := firstMin_snoc sw hm h x
    have hs' := firstMax_snoc sw hk h' x
    rw [minmaxLoop]
    have e1 : (l ++ [x])[if lt x mv = true then l.length else m]? = some (if lt x mv = true then x else mv) := by
      split
      · simp
      · exact getElem?_snoc.2 (Or.inl hm)
    have e2 : (l ++ [x])[if lt kv x = true then l.length else k]? = some (if lt kv x = true then x else kv) := by
      split
      · simp
      · exact getElem?_snoc.2 (Or.inl hk)
    have := ih (l ++ [x]) _ _ _ _ e1 (by split <;> simp_all) e2 (by split <;> simp_all)
    simpa using this

/-- C49: `min_element` returns the first minimum, `minmax_element` the first minimum and the first maximum, `max_element` the last maximum. -/
theorem C49_extrema {lt : α → α → Bool} (sw : StrictWeak lt) (a : List α) (ha : a ≠ []) :
    FirstMin lt a (minElement lt a) ∧ LastMax lt a (maxElement lt a) ∧ FirstMin lt a (minmaxElement lt a).1 ∧ FirstMax lt a (minmaxElement lt a).2 := by
  obtain ⟨x, a, rfl⟩ := List.exists_cons_of_ne_nil ha
  have one : ∀ (i : Nat) (y : α), [x][i]? = some y → i = 0 ∧ y = x := by
    intro i y hy
    cases i with
    | zero => simp at hy; exact ⟨rfl, hy.symm⟩
    | succ i => simp at hy
  have f1 : FirstMin lt [x] 0 := ⟨x, rfl, fun i y hy => by rw [(one i y hy).2]; exact sw.irrefl _, fun i y hi => by omega⟩
  have f2 : FirstMax lt [x] 0 := ⟨x, rfl, fun i y hy => by rw [(one i y hy).2]; exact sw.irrefl _, fun i y hi => by omega⟩
  have f3 : LastMax lt [x] 0 := ⟨x, rfl, fun i y hy => by rw [(one i y hy).2]; exact sw.irrefl _, fun i y hi hy => by have := (one i y hy).1; omega⟩
  exact ⟨minLoop_spec sw a [x] 0 x rfl f1, maxLoop_spec sw a [x] 0 x rfl f3, minmaxLoop_spec sw a [x] 0 x 0 x rfl f1 rfl f2⟩

/-- Finding: with several equal maxima `max_element` returns the last and `minmax_element` the first; the standard algorithms do the opposite. -/
theorem max_element_differs_from_std : maxElement (fun a b : Nat => decide (a < b)) [3, 7, 7, 1] = 2 ∧ (minmaxElement (fun a b : Nat => decide (a < b)) [3, 7, 7, 1]).2 = 1 := ⟨rfl, rfl⟩

/-! ## is_sorted -/

theorem sortedLoop_spec (lt : α → α → Bool) (b : α) (l : List α) : sortedLoop lt b l ≤ l.length ∧
    (∀ i x y, i < sortedLoop lt b l → (b :: l)[i]? = some x → l[i]? = some y → lt y x = false) ∧
    (∀ x y, (b :: l)[sortedLoop lt b l]? = some x → l[sortedLoop lt b l]? = some y → lt y x = true) := by
  induction l generalizing b with
  | nil => simp [sortedLoop]
  | cons z l ih =>
    rw [sortedLoop]
    cases h : lt z b
    · simp only [Bool.false_eq_true, if_false]
      obtain ⟨h1, h2, h3⟩ := ih z
      refine ⟨by simp; exact h1, ?_, ?_⟩
      · intro i x y hi hx hy
        cases i with
        | zero => simp at hx hy; subst hx hy; exact h
        | succ i => exact h2 i x y (by omega) (by simpa using hx) (by simpa using hy)
      · intro x y hx hy
        exact h3 x y (by simpa using hx) (by simpa using hy)
    · simp [h]

/-- C49: `is_sorted_until` returns the first element smaller than its predecessor, or the end. -/
theorem C49_is_sorted_until (lt : α → α → Bool) (a : List α) : isSortedUntil lt a ≤ a.length ∧
    (∀ i x y, i + 1 < isSortedUntil lt a → a[i]? = some x → a[i + 1]? = some y → lt y x = false) ∧
    (∀ i x y, i + 1 = isSortedUntil lt a → a[i]? = some x → a[i + 1]? = some y → lt y x = true) := by
  cases a with
  | nil => simp [isSortedUntil]
  | cons b l =>
    obtain ⟨h1, h2, h3⟩ := sortedLoop_spec lt b l
    simp only [isSortedUntil]
    refine ⟨by simp; exact h1, ?_, ?_⟩
    · intro i x y hi hx hy
      exact h2 i x y (by omega) hx (by simpa using hy)
    · intro i x y hi hx hy
      have : i = sortedLoop lt b l := by omega
      subst this
      exact h3 x y hx (by simpa using hy)

/-- C49: `is_sorted` is exactly sortedness. -/
theorem C49_is_sorted {lt : α → α → Bool} (sw : StrictWeak lt) (a : List α) : isSorted lt a = true ↔ SortedBy lt a := by
  obtain ⟨h1, h2, h3⟩ := C49_is_sorted_until lt a
  unfold isSorted
  rw [beq_iff_eq]
  constructor
  · intro h
    have key : ∀ (d i : Nat) (x y : α), a[i]? = some x → a[i + d]? = some y → lt y x = false := by
      intro d
      induction d with
      | zero => intro i x y hx hy; rw [Nat.add_zero, hx] at hy; cases hy; exact sw.irrefl _
      | succ d ih =>
        intro i x y hx hy
        have hlt := (List.getElem?_eq_some_iff.1 hy).1
        have hz : a[i + d]? = some (a[i + d]'(by omega)) := List.getElem?_eq_getElem (by omega)
        exact sw.le_trans (ih i x _ hx hz) (h2 (i + d) _ y (by omega) hz hy)
    unfold SortedBy
    rw [List.pairwise_iff_getElem]
    intro i j hi hj hij
    exact key (j - i) i _ _ (List.getElem?_eq_getElem hi) (by rw [show i + (j - i) = j by omega]; exact List.getElem?_eq_getElem hj)
  · intro h
    by_contra hne
    have hlt : isSortedUntil lt a < a.length := by omega
    have hpos : 0 < isSortedUntil lt a := by
      cases a with
      | nil => simp at hlt
      | cons => simp [isSortedUntil]
    have hb : isSortedUntil lt a - 1 < a.length := by omega
    have e2 : a[isSortedUntil lt a - 1 + 1]? = some a[isSortedUntil lt a] := by rw [show isSortedUntil lt a - 1 + 1 = isSortedUntil lt a by omega]; exact List.getElem?_eq_getElem hlt
    have := h3 (isSortedUntil lt a - 1) _ _ (by omega) (List.getElem?_eq_getElem hb) e2
    have := List.pairwise_iff_getElem.1 h _ _ hb hlt (by omega)
    simp_all

/-! ## is_permutation, is_partitioned -/

theorem isPermLoop_spec [BEq α] [LawfulBEq α] (l2 : List α) : ∀ (r done : List α), (∀ x ∈ done, (done ++ r).count x = l2.count x) →
    (isPermLoop l2 done r = true ↔ ∀ x ∈ done ++ r, (done ++ r).count x = l2.count x) := by
  intro r
  induction r with
  | nil => intro done h; simpa [isPermLoop] using h
  | cons x r ih =>
    intro done h
    rw [isPermLoop]
    have hcnt : ∀ (l : List α), countIf (fun y => y == x) l 0 = l.count x := by
      intro l; rw [C49_count, Nat.zero_add]; rfl
    have happ : done ++ x :: r = (done ++ [x]) ++ r := by simp
    have hstep : (done ++ x :: r).count x = l2.count x → (isPermLoop l2 (done ++ [x]) r = true ↔ ∀ y ∈ done ++ x :: r, (done ++ x :: r).count y = l2.count y) := by
      intro hx
      have := ih (done ++ [x]) (by
        intro y hy
        rw [← happ]
        rcases List.mem_append.1 hy with hy | hy
        · exact h y hy
        · rw [List.mem_singleton] at hy; subst hy; exact hx)
      rw [happ]; exact this
    split
    · rename_i hnew
      rw [beq_iff_eq, findIf_eq_length] at hnew
      have hz : done.count x = 0 := by
        rw [List.count_eq_zero]
        intro hx
        have := hnew x hx
        simp at this
      simp only [hcnt]
      have htot : (done ++ x :: r).count x = (x :: r).count x := by rw [List.count_append, hz]; omega
      split
      · rename_i hbad
        constructor
        · intro hc; cases hc
        · intro hall
          have hx := hall x (by simp)
          rw [htot] at hx
          have : 0 < (x :: r).count x := by simp [List.count_cons]
          simp only [Bool.or_eq_true, beq_iff_eq, Bool.not_eq_true', beq_eq_false_iff_ne, ne_eq] at hbad
          omega
      · rename_i hgood
        simp only [Bool.or_eq_true, beq_iff_eq, Bool.not_eq_true', beq_eq_false_iff_ne, ne_eq, not_or, not_not] at hgood
        exact hstep (by rw [htot]; exact hgood.2)
    · rename_i hold
      have hx : x ∈ done := by
        by_contra hx
        apply hold
        rw [beq_iff_eq, findIf_eq_length]
        intro y hy
        rw [beq_eq_false_iff_ne]
        rintro rfl; exact hx hy
      exact hstep (h x hx)

/-- C49: three iterator `is_permutation` with `==` decides permutation, when the second range is at least as long as the first. -/
theorem C49_is_permutation [BEq α] [LawfulBEq α] (l1 l2 : List α) (hl : l1.length ≤ l2.length) : ∃ b, isPerm3 l1 l2 = .ok b ∧ (b = true ↔ l1.Perm (l2.take l1.length)) := by
  unfold isPerm3
  rw [if_neg (by omega)]
  refine ⟨_, rfl, ?_⟩
  have := isPermLoop_spec (l2.take l1.length) l1 [] (by simp)
  simp only [List.nil_append] at this
  rw [this]
  constructor
  · intro h
    have hlen : l1.length = (l2.take l1.length).length := by simp; omega
    have hsub : l1.Subperm (l2.take l1.length) := by
      rw [List.subperm_ext_iff]
      intro x hx; rw [h x hx]
    exact hsub.perm_of_length_le (by omega)
  · intro h x _
    exact h.count_eq x

/-- Finding: the four iterator overload ignores the lengths, and so reports that `[1]` is a permutation of `[1, 2]`. -/
theorem is_permutation4_ignores_length : isPerm4 [1] [1, 2] = true ∧ ¬ [1].Perm [1, 2] := ⟨by decide, by decide⟩

theorem isPartitioned_spec (p : α → Bool) (l : List α) : isPartitioned p l = true ↔ ∃ r, IsBoundary l p 0 l.length r := by
  have hno : ∀ l : List α, isPartitioned.noTrue p l = true ↔ ∀ x ∈ l, p x = false := by
    intro l
    induction l with
    | nil => simp [isPartitioned.noTrue]
    | cons x l ih => rw [isPartitioned.noTrue]; cases h : p x <;> simp [h, ih]
  induction l with
  | nil => simp [isPartitioned]; exact ⟨0, Nat.le_refl _, Nat.le_refl _, fun i x _ h => by omega, fun i x _ h => by simp at h⟩
  | cons x l ih =>
    rw [isPartitioned]
    cases h : p x
    · simp only [Bool.not_false, if_true]
      rw [hno]
      constructor
      · intro hall
        refine ⟨0, Nat.le_refl _, by simp, fun i x _ h => by omega, fun i y _ _ hy => hall y (List.mem_of_getElem? hy)⟩
      · rintro ⟨r, hr⟩ y hy
        have hr0 : r = 0 := by
          by_contra hne
          have := hr.left 0 x (Nat.le_refl _) (by omega) rfl
          rw [h] at this; cases this
        subst hr0
        obtain ⟨i, hi, rfl⟩ := List.mem_iff_getElem.1 hy
        exact hr.right i _ (Nat.zero_le _) hi (List.getElem?_eq_getElem hi)
    · simp only [Bool.not_true, Bool.false_eq_true, if_false]
      refine ih.trans ?_
      constructor
      · rintro ⟨r, hr⟩
        have := hr.hi
        refine ⟨r + 1, Nat.zero_le _, by simp; omega, ?_, ?_⟩
        · intro i y _ hi hy
          cases i with
          | zero => simp at hy; subst hy; exact h
          | succ i => exact hr.left i y (Nat.zero_le _) (by omega) (by simpa using hy)
        · intro i y hi hl hy
          cases i with
          | zero => omega
          | succ i => exact hr.right i y (by omega) (by simpa using hl) (by simpa using hy)
      · rintro ⟨r, hr⟩
        have := hr.hi
        refine ⟨r - 1, Nat.zero_le _, by simp at this; omega, ?_, ?_⟩
        · intro i y _ hi hy
          exact hr.left (i + 1) y (Nat.zero_le _) (by omega) (by simpa using hy)
        · intro i y hi hl hy
          exact hr.right (i + 1) y (by omega) (by simp; omega) (by simpa using hy)

/-- C49: `is_partitioned` holds exactly when some split point separates the satisfying elements from the others. -/
theorem C49_is_partitioned (p : α → Bool) (l : List α) : isPartitioned p l = true ↔ ∃ r, IsBoundary l p 0 l.length r := isPartitioned_spec p l

/-! ## producing algorithms -/

/-- C49: `partition_copy` and `partition_transform` split the range, keeping the order on both sides. -/
theorem C49_partition_transform (p : α → Bool) (f g : α → β) (l : List α) (t e : List β) :
    partitionTransform p f g l t e = (t ++ (l.filter p).map f, e ++ (l.filter (fun x => !p x)).map g) := by
  induction l generalizing t e with
  | nil => simp [partitionTransform]
  | cons x l ih =>
    rw [partitionTransform]
    cases h : p x <;> simp [h, ih]

/-- C49: `copy_if`, `transform_if`. -/
theorem C49_transform_if (p : α → Bool) (f : α → β) (l : List α) (o : List β) : transformIf p f l o = o ++ (l.filter p).map f := by
  induction l generalizing o with
  | nil => simp [transformIf]
  | cons x l ih => rw [transformIf, ih]; cases h : p x <;> simp [h]

/-- C49: `accumulate`. -/
theorem C49_accumulate (op : γ → α → γ) (l : List α) (s : γ) : accumulate op l s = l.foldl op s := by
  induction l generalizing s with
  | nil => rfl
  | cons x l ih => exact ih _

/-- C49: `clamp` gives a value within the bounds, the argument itself when it is within them. -/
theorem C49_clamp {lt : α → α → Bool} (sw : StrictWeak lt) (v lo hi : α) (h : lt hi lo = false) :
    lt (clamp lt v lo hi) lo = false ∧ lt hi (clamp lt v lo hi) = false ∧ (lt v lo = false → lt hi v = false → clamp lt v lo hi = v) ∧
      (lt v lo = true → clamp lt v lo hi = lo) ∧ (lt hi v = true → clamp lt v lo hi = hi) := by
  unfold clamp
  cases h1 : lt v lo
  · cases h2 : lt hi v <;> simp [h1, h2, h, sw.irrefl]
  · have : lt hi v = false := by
      by_contra hn
      have hn : lt hi v = true := by simpa using hn
      rw [sw.trans _ _ _ hn h1] at h; cases h
    simp [this, sw.irrefl, h]

theorem copyS_spec (f : α → β) (l : List α) : ∀ (P O : List β), copyS f l (P ++ O) P.length = .ok (P ++ (l.map f).take O.length ++ O.drop l.length, P.length + min l.length O.length) := by
  induction l with
  | nil => intro P O; simp [copyS]
  | cons x l ih =>
    intro P O
    rw [copyS]
    cases O with
    | nil => simp
    | cons o O =>
      rw [if_neg (by simp), wr_at]
      simp only
      have := ih (P ++ [f x]) O
      simp only [List.append_assoc, List.cons_append, List.nil_append, List.length_append, List.length_cons, List.length_nil, Nat.zero_add] at this
      rw [this]
      simp [Nat.add_min_add_right]; omega

/-- C49: `copy_s`, `move_s`, `copy_n_s`, `transform_s` write the first `min` many values, leave the rest of the destination alone and never
go past either end. -/
theorem C49_copy_s (f : α → β) (l : List α) (o : List β) : copyS f l o 0 = .ok ((l.map f).take o.length ++ o.drop l.length, min l.length o.length) := by
  simpa using copyS_spec f l [] o

theorem copyN_spec : ∀ (A P O : List α) (S R : List α), A.length = O.length → copyN A.length (A ++ S) (P ++ O ++ R) P.length = .ok (P ++ A ++ R, P.length + A.length) := by
  intro A
  induction A with
  | nil =>
    intro P O S R h
    have : O = [] := List.length_eq_zero_iff.1 (by simpa using h.symm)
    subst this; simp [copyN]
  | cons x A ih =>
    intro P O S R h
    cases O with
    | nil => simp at h
    | cons o O =>
      simp only [List.length_cons, List.cons_append, List.append_assoc]
      rw [copyN, wr_at]
      simp only
      have := ih (P ++ [x]) O S R (by simpa using h)
      simp only [List.append_assoc, List.cons_append, List.nil_append, List.length_append, List.length_cons, List.length_nil, Nat.zero_add] at this
      rw [this, show P.length + 1 + A.length = P.length + (A.length + 1) by omega]

/-- C49: the random access overload of `copy_s` agrees with the general one. -/
theorem C49_copy_s_random (l o : List α) : copySRandom l o = copyS id l o 0 := by
  rw [C49_copy_s]
  unfold copySRandom
  by_cases h : l.length < o.length
  · rw [if_pos h]
    have := copyN_spec l [] (o.take l.length) [] (o.drop l.length) (by simp; omega)
    simp only [List.append_nil, List.nil_append, List.take_append_drop, List.length_nil, Nat.zero_add] at this
    rw [this, Nat.min_eq_left (by omega), List.map_id, List.take_of_length_le (by omega)]
  · rw [if_neg h]
    have := copyN_spec (l.take o.length) [] o (l.drop o.length) [] (by simp; omega)
    have e : (l.take o.length).length = o.length := by simp; omega
    simp only [List.append_nil, List.nil_append, List.take_append_drop, List.length_nil, Nat.zero_add, e] at this
    rw [this, Nat.min_eq_right (by omega), List.map_id, List.drop_eq_nil_of_le (by omega), List.append_nil]

theorem copyIfS_spec (p : α → Bool) (l : List α) : ∀ (P O : List α), copyIfS p l (P ++ O) P.length = .ok (P ++ (l.filter p).take O.length ++ O.drop (l.filter p).length, P.length + min (l.filter p).length O.length) := by
  induction l with
  | nil => intro P O; simp [copyIfS]
  | cons x l ih =>
    intro P O
    rw [copyIfS]
    cases O with
    | nil => simp
    | cons o O =>
      rw [if_neg (by simp)]
      cases h : p x
      · simp only [Bool.false_eq_true, if_false]
        rw [ih, List.filter_cons_of_neg (by simp [h])]
      · simp only [if_true]
        rw [wr_at, List.filter_cons_of_pos h]
        simp only
        have := ih (P ++ [x]) O
        simp only [List.append_assoc, List.cons_append, List.nil_append, List.length_append, List.length_cons, List.length_nil, Nat.zero_add] at this
        rw [this]
        simp [Nat.add_min_add_right]; omega

/-- C49: `copy_if_s`. -/
theorem C49_copy_if_s (p : α → Bool) (l o : List α) : copyIfS p l o 0 = .ok ((l.filter p).take o.length ++ o.drop (l.filter p).length, min (l.filter p).length o.length) := by
  simpa using copyIfS_spec p l [] o

/-! ## remove -/

theorem removeLoop_spec (p : α → Bool) : ∀ (R D G : List α), ∃ T, T.length = G.length + (R.filter p).length ∧
    removeLoop p R.length (D ++ G ++ R) D.length (D.length + G.length) = .ok (D ++ R.filter (fun x => !p x) ++ T, (D ++ R.filter (fun x => !p x)).length) := by
  intro R
  induction R with
  | nil => intro D G; exact ⟨G, by simp, by simp [removeLoop]⟩
  | cons x R ih =>
    intro D G
    simp only [List.length_cons]
    rw [removeLoop, rd_at' (by simp)]
    simp only
    cases h : p x
    · simp only [Bool.not_false, if_true]
      cases G with
      | nil =>
        obtain ⟨T, h1, h2⟩ := ih (D ++ [x]) []
        refine ⟨T, by simpa [h] using h1, ?_⟩
        simp only [List.append_nil]
        rw [wr_at]
        simp only
        simp [h] at h2 ⊢
        exact h2
      | cons g G =>
        obtain ⟨T, h1, h2⟩ := ih (D ++ [x]) (G ++ [x])
        refine ⟨T, by simp [h] at h1 ⊢; exact h1, ?_⟩
        rw [show D ++ g :: G ++ x :: R = D ++ g :: (G ++ x :: R) by simp, wr_at]
        simp only
        simp [h, Nat.add_assoc, Nat.add_comm, Nat.add_left_comm] at h2 ⊢
        exact h2
    · simp only [Bool.not_true, Bool.false_eq_true, if_false]
      obtain ⟨T, h1, h2⟩ := ih D (G ++ [x])
      refine ⟨T, by simp [h] at h1 ⊢; omega, ?_⟩
      simp [h, Nat.add_assoc] at h2 ⊢
      exact h2

/-- C49: `remove` and `remove_if` move the kept elements, in order, to the front and return the new end. -/
theorem C49_remove_if (p : α → Bool) (a : List α) : ∃ T, removeIf p a = .ok (a.filter (fun x => !p x) ++ T, (a.filter (fun x => !p x)).length) ∧ T.length = (a.filter p).length := by
  unfold removeIf
  simp only
  obtain ⟨h1, h2, h3⟩ := C49_find p a
  by_cases h : findIf p a = a.length
  · rw [if_pos h]
    have hall := findIf_eq_length.1 h
    refine ⟨[], ?_, ?_⟩
    · rw [List.filter_eq_self.2 (fun x hx => by simp [hall x hx]), List.append_nil, h]
    · rw [List.filter_eq_nil_iff.2 (fun x hx => by simp [hall x hx])]
  · rw [if_neg h]
    have hlt : findIf p a < a.length := by omega
    have hx := h3 _ (List.getElem?_eq_getElem hlt)
    have hsplit : a = a.take (findIf p a) ++ [a[findIf p a]] ++ a.drop (findIf p a + 1) := by
      rw [List.append_assoc, List.singleton_append, ← List.drop_eq_getElem_cons hlt, List.take_append_drop]
    have hpre : ∀ x ∈ a.take (findIf p a), p x = false := by
      intro x hx
      obtain ⟨i, hi, rfl⟩ := List.mem_iff_getElem.1 hx
      rw [List.length_take] at hi
      rw [List.getElem_take]
      exact h2 i _ (by omega) (List.getElem?_eq_getElem (by omega))
    generalize hy : a[findIf p a] = y at hsplit hx
    generalize hD : a.take (findIf p a) = D at hsplit hpre
    generalize hR : a.drop (findIf p a + 1) = R at hsplit
    have hDl : D.length = findIf p a := by rw [← hD]; simp; omega
    obtain ⟨T, e1, e2⟩ := removeLoop_spec p R D [y]
    have hRl : a.length - (findIf p a + 1) = R.length := by rw [← hR]; simp
    rw [hRl, ← hDl]
    have hf : a.filter (fun x => !p x) = D ++ R.filter (fun x => !p x) := by
      rw [hsplit, List.filter_append, List.filter_append, List.filter_eq_self.2 (fun x hx => by simp [hpre x hx])]
      simp [hx]
    have hf2 : (a.filter p).length = [y].length + (R.filter p).length := by
      rw [hsplit, List.filter_append, List.filter_append, List.filter_eq_nil_iff.2 (fun x hx => by simp [hpre x hx])]
      simp [hx]; omega
    refine ⟨T, ?_, by rw [hf2]; exact e1⟩
    rw [hf, ← e2]
    conv => lhs; rw [hsplit]
    rfl

/-! ## partition -/

theorem findIf_split (p : α → Bool) (l : List α) : ∃ A B, l = A ++ B ∧ findIf p l = A.length ∧ (∀ x ∈ A, p x = false) ∧ (∀ x B', B = x :: B' → p x = true) := by
  induction l with
  | nil => exact ⟨[], [], rfl, rfl, by simp, by simp⟩
  | cons y l ih =>
    unfold findIf
    cases h : p y
    · obtain ⟨A, B, h1, h2, h3, h4⟩ := ih
      exact ⟨y :: A, B, by simp [h1], by simp [h2], by simpa [h] using h3, h4⟩
    · exact ⟨[], y :: l, rfl, by simp, by simp, fun x B' hx => by cases hx; exact h⟩

theorem findLast_split (p : α → Bool) (l : List α) : ∃ A B, l = A ++ B ∧ findLast p l = A.length ∧ (∀ x ∈ B, p x = false) ∧ (∀ x A', A = A' ++ [x] → p x = true) := by
  obtain ⟨A, B, h1, h2, h3, h4⟩ := findIf_split p l.reverse
  have h5 : l = B.reverse ++ A.reverse := by rw [← List.reverse_append, ← h1, List.reverse_reverse]
  refine ⟨B.reverse, A.reverse, h5, ?_, by simpa using h3, ?_⟩
  · unfold findLast
    rw [h2]
    have := congrArg List.length h5
    simp at this ⊢; omega
  · intro x A' hx
    refine h4 x A'.reverse ?_
    have := congrArg List.reverse hx
    simpa using this

theorem partFwdLoop_spec (p : α → Bool) : ∀ (R P T F S : List α), (∀ x ∈ T, p x = true) → (∀ x ∈ F, p x = false) →
    ∃ T' F', partFwdLoop p R.length (P ++ T ++ F ++ R ++ S) (P.length + T.length) (P.length + T.length + F.length) = .ok (P ++ T' ++ F' ++ S, P.length + T'.length) ∧
      (∀ x ∈ T', p x = true) ∧ (∀ x ∈ F', p x = false) ∧ (T' ++ F').Perm (T ++ F ++ R) := by
  intro R
  induction R with
  | nil => intro P T F S hT hF; exact ⟨T, F, by simp [partFwdLoop], hT, hF, by simp⟩
  | cons x R ih =>
    intro P T F S hT hF
    simp only [List.length_cons]
    rw [partFwdLoop, show P ++ T ++ F ++ x :: R ++ S = (P ++ T ++ F) ++ x :: (R ++ S) by simp, rd_at' (by simp; omega)]
    simp only
    cases h : p x
    · simp only [Bool.false_eq_true, if_false]
      obtain ⟨T', F', e1, e2, e3, e4⟩ := ih P T (F ++ [x]) S hT (by intro y hy; rcases List.mem_append.1 hy with hy | hy; exact hF y hy; rw [List.mem_singleton] at hy; subst hy; exact h)
      refine ⟨T', F', ?_, e2, e3, by simpa using e4⟩
      simp only [List.append_assoc, List.cons_append, List.nil_append, List.length_append, List.length_cons, List.length_nil, Nat.zero_add] at e1 ⊢
      rw [← e1]; congr 1
    · simp only [if_true]
      have hT' : ∀ y ∈ T ++ [x], p y = true := by
        intro y hy; rcases List.mem_append.1 hy with hy | hy
        · exact hT y hy
        · rw [List.mem_singleton] at hy; subst hy; exact h
      cases F with
      | nil =>
        have hsw : swp ((P ++ T ++ []) ++ x :: (R ++ S)) (P.length + T.length + ([] : List α).length) (P.length + T.length) = .ok (P ++ (T ++ [x]) ++ [] ++ R ++ S) := by
          unfold swp
          rw [rd_at' (by simp)]
          simp only
          rw [rd_at' (by simp)]
          simp
        rw [hsw]
        simp only
        obtain ⟨T', F', e1, e2, e3, e4⟩ := ih P (T ++ [x]) [] S hT' (by simp)
        refine ⟨T', F', ?_, e2, e3, by simpa using e4⟩
        rw [← e1]; congr 1 <;> simp <;> omega
      | cons f F =>
        have hsw : swp ((P ++ T ++ f :: F) ++ x :: (R ++ S)) (P.length + T.length + (f :: F).length) (P.length + T.length) = .ok (P ++ (T ++ [x]) ++ (F ++ [f]) ++ R ++ S) := by
          have h1 : swp ((P ++ T) ++ f :: (F ++ x :: (R ++ S))) (P.length + T.length) (P.length + T.length + 1 + F.length) = .ok ((P ++ T) ++ x :: (F ++ f :: (R ++ S))) := swp_at (by simp) (by simp)
          have l1 : P.length + T.length < ((P ++ T) ++ f :: (F ++ x :: (R ++ S))).length := by simp
          have l2 : P.length + T.length + 1 + F.length < ((P ++ T) ++ f :: (F ++ x :: (R ++ S))).length := by simp; omega
          have e : (P ++ T ++ f :: F) ++ x :: (R ++ S) = (P ++ T) ++ f :: (F ++ x :: (R ++ S)) := by simp
          rw [e, show P.length + T.length + (f :: F).length = P.length + T.length + 1 + F.length by simp; omega, swp_lt l2 l1]
          rw [swp_lt l1 l2] at h1
          rw [List.set_comm _ _ (by omega), h1]
          simp
        rw [hsw]
        simp only
        obtain ⟨T', F', e1, e2, e3, e4⟩ := ih P (T ++ [x]) (F ++ [f]) S hT' (by intro y hy; rcases List.mem_append.1 hy with hy | hy; exact hF y (by simp [hy]); rw [List.mem_singleton] at hy; subst hy; exact hF _ (by simp))
        refine ⟨T', F', ?_, e2, e3, ?_⟩
        · rw [← e1]; congr 1 <;> simp <;> omega
        · refine e4.trans ?_
          have : (f :: F ++ x :: R).Perm (x :: (F ++ [f]) ++ R) := by
            refine (List.perm_middle (l₁ := f :: F)).trans (List.Perm.cons x ?_)
            simpa using (List.perm_middle (a := f) (l₁ := F) (l₂ := R)).symm
          have := (List.Perm.append_left T this).symm
          simpa using this

/-- C49: `partition` for forward iterators. -/
theorem C49_partition_forward (p : α → Bool) (a : List α) : ∃ T F, partitionFwd p a = .ok (T ++ F, T.length) ∧ (∀ x ∈ T, p x = true) ∧ (∀ x ∈ F, p x = false) ∧ (T ++ F).Perm a := by
  unfold partitionFwd
  simp only
  obtain ⟨A, B, h1, h2, h3, h4⟩ := findIf_split (fun x => !p x) a
  rw [h2]
  have h3' : ∀ x ∈ A, p x = true := fun x hx => by simpa using h3 x hx
  cases B with
  | nil =>
    have : a = A := by simpa using h1
    subst this
    rw [if_pos rfl]
    exact ⟨a, [], by simp, h3', by simp, by simp⟩
  | cons b B =>
    have hb : p b = false := by simpa using h4 b B rfl
    rw [if_neg (by rw [h1]; simp)]
    obtain ⟨T', F', e1, e2, e3, e4⟩ := partFwdLoop_spec p B [] A [b] [] h3' (by simpa using hb)
    refine ⟨T', F', ?_, e2, e3, ?_⟩
    · simp only [List.nil_append, List.append_nil, List.length_nil, Nat.zero_add, List.length_singleton] at e1
      rw [← e1, h1]
      congr 1
      · simp; omega
      · simp
    · rw [h1]; simpa using e4

theorem partBiLoop_spec (p : α → Bool) : ∀ (fuel : Nat) (T M F : List α), M.length < fuel → (∀ x ∈ T, p x = true) → (∀ x ∈ F, p x = false) →
    ∃ T' F', partBiLoop p fuel (T ++ M ++ F) T.length (T.length + M.length) = .ok (T' ++ F', T'.length) ∧ (∀ x ∈ T', p x = true) ∧ (∀ x ∈ F', p x = false) ∧ (T' ++ F').Perm (T ++ M ++ F) := by
  intro fuel
  induction fuel with
  | zero => intro T M F h; omega
  | succ fuel ih =>
    intro T M F hf hT hF
    rw [partBiLoop]
    by_cases h0 : T.length = T.length + M.length
    · rw [if_pos h0]
      have : M = [] := List.length_eq_zero_iff.1 (by omega)
      subst this
      exact ⟨T, F, by simp, hT, hF, by simp⟩
    · rw [if_neg h0]
      have hsl : ((T ++ M ++ F).drop T.length).take (T.length + M.length - T.length) = M := by
        rw [List.append_assoc, List.drop_left, Nat.add_sub_cancel_left, List.take_left]
      simp only [hsl]
      obtain ⟨A, B, h1, h2, h3, h4⟩ := findIf_split (fun x => !p x) M
      have h3' : ∀ x ∈ T ++ A, p x = true := by
        intro x hx; rcases List.mem_append.1 hx with hx | hx
        · exact hT x hx
        · simpa using h3 x hx
      rw [h2]
      subst h1
      by_cases hB : B = []
      · subst hB
        rw [if_pos (by simp)]
        exact ⟨T ++ A, F, by simp, h3', hF, by simp⟩
      · have hBl : 0 < B.length := List.length_pos_iff.2 hB
        rw [if_neg (by simp; omega)]
        have hsl2 : ((T ++ (A ++ B) ++ F).drop (T.length + A.length)).take (T.length + (A ++ B).length - (T.length + A.length)) = B := by
          rw [show T ++ (A ++ B) ++ F = (T ++ A) ++ (B ++ F) by simp, List.drop_left' (by simp), show T.length + (A ++ B).length - (T.length + A.length) = B.length by simp; omega, List.take_left]
        rw [hsl2]
        obtain ⟨C, D, g1, g2, g3, g4⟩ := findLast_split p B
        rw [g2]
        have hDF : ∀ x ∈ D ++ F, p x = false := by
          intro x hx; rcases List.mem_append.1 hx with hx | hx
          · exact g3 x hx
          · exact hF x hx
        rcases List.eq_nil_or_concat C with rfl | ⟨C, y, rfl⟩
        · rw [if_pos (by simp)]
          simp only [List.nil_append] at g1
          subst g1
          exact ⟨T ++ A, B ++ F, by simp, h3', hDF, by simp⟩
        · rw [if_neg (by simp)]
          have hy : p y = true := g4 y C (by simp)
          cases C with
          | nil =>
            -- the only true element would be the first of B, which is false
            exfalso
            have := h4 y D (by rw [g1]; rfl)
            rw [hy] at this; cases this
          | cons x C =>
            have hx : p x = false := by simpa using h4 x (C ++ y :: D) (by rw [g1]; simp)
            subst g1
            have hs : swp (T ++ (A ++ ((x :: C).concat y ++ D)) ++ F) (T.length + A.length) (T.length + A.length + ((x :: C).concat y).length - 1) = .ok ((T ++ A) ++ y :: (C ++ x :: (D ++ F))) := by
              rw [show T ++ (A ++ ((x :: C).concat y ++ D)) ++ F = (T ++ A) ++ x :: (C ++ y :: (D ++ F)) by simp]
              exact swp_at (by simp) (by simp; omega)
            rw [hs]
            simp only
            obtain ⟨T', F', e1, e2, e3, e4⟩ := ih (T ++ A ++ [y]) C (x :: (D ++ F)) (by simp at hf; omega)
              (by intro z hz; rcases List.mem_append.1 hz with hz | hz; exact h3' z hz; rw [List.mem_singleton] at hz; subst hz; exact hy)
              (by intro z hz; rcases List.mem_cons.1 hz with rfl | hz; exact hx; exact hDF z hz)
            refine ⟨T', F', ?_, e2, e3, ?_⟩
            · rw [← e1]
              congr 1
              · simp
              · simp; omega
              · simp; omega
            · refine e4.trans ?_
              have : (y :: (C ++ x :: (D ++ F))).Perm (x :: (C ++ y :: (D ++ F))) := by
                refine (List.Perm.cons y List.perm_middle).trans ((List.Perm.swap x y _).trans (List.Perm.cons x ?_))
                exact List.perm_middle.symm
              have := List.Perm.append_left (T ++ A) this
              simpa using this

/-- C49: `partition` for bidirectional and random access iterators. -/
theorem C49_partition (p : α → Bool) (a : List α) : ∃ T F, partitionBi p a = .ok (T ++ F, T.length) ∧ (∀ x ∈ T, p x = true) ∧ (∀ x ∈ F, p x = false) ∧ (T ++ F).Perm a := by
  have := partBiLoop_spec p (a.length + 1) [] a [] (by omega) (by simp) (by simp)
  simpa [partitionBi] using this

/-! ## nth_element -/

theorem nthPartLoop_eq (lt : α → α → Bool) (pv : α) : ∀ (n : Nat) (a : List α) (i j : Nat), i ≤ j → nthPartLoop lt pv n a i j = partFwdLoop (fun x => !lt pv x) n a i j := by
  intro n
  induction n with
  | zero => intro a i j _; rfl
  | succ n ih =>
    intro a i j hij
    rw [nthPartLoop, partFwdLoop]
    cases hr : rd a j with
    | error u => rfl
    | ok x =>
      simp only
      split
      · have hj : j < a.length := (List.getElem?_eq_some_iff.1 (rd_ok.1 hr)).1
        have hi : i < a.length := by omega
        rw [swp_lt hi hj, swp_lt hj hi]
        have : (a.set i a[j]).set j a[i] = (a.set j a[i]).set i a[j] := by
          by_cases h : i = j
          · subst h; rfl
          · exact List.set_comm _ _ h
        rw [this]
        exact ih _ _ _ (by omega)
      · exact ih _ _ _ (by omega)

theorem nthPartition_spec (lt : α → α → Bool) (P W S : List α) (v : α) : ∃ L G, nthPartition lt (P ++ (W ++ [v]) ++ S) P.length (P.length + W.length) = .ok (P ++ L ++ v :: G ++ S, P.length + L.length) ∧
    (∀ x ∈ L, lt v x = false) ∧ (∀ x ∈ G, lt v x = true) ∧ (L ++ G).Perm W := by
  unfold nthPartition
  rw [show P ++ (W ++ [v]) ++ S = (P ++ W) ++ v :: S by simp, rd_at' (by simp)]
  simp only
  rw [nthPartLoop_eq _ _ _ _ _ _ (Nat.le_refl _), Nat.add_sub_cancel_left]
  obtain ⟨L, G, e1, e2, e3, e4⟩ := partFwdLoop_spec (fun x => !lt v x) W P [] [] (v :: S) (by simp) (by simp)
  simp only [List.append_nil, List.length_nil, Nat.add_zero, List.nil_append] at e1 e4
  rw [e1]
  simp only
  have hl : L.length + G.length = W.length := by have := e4.length_eq; simpa using this
  cases G with
  | nil =>
    refine ⟨L, [], ?_, fun x hx => by simpa using e2 x hx, by simp, by simpa using e4⟩
    unfold swp
    simp only [List.append_nil, List.length_nil] at hl ⊢
    rw [rd_at' (by simp)]
    simp only
    rw [rd_at' (by simp; omega)]
    simp only
    have hPW : P.length + W.length = (P ++ L).length := by simp; omega
    rw [show P.length + L.length = (P ++ L).length by simp, hPW]
    simp
  | cons g G =>
    refine ⟨L, G ++ [g], ?_, fun x hx => by simpa using e2 x hx, ?_, ?_⟩
    · rw [show P ++ L ++ g :: G ++ v :: S = (P ++ L) ++ g :: (G ++ v :: S) by simp, swp_at (by simp) (by simp at hl ⊢; omega)]
      simp
    · intro x hx
      rcases List.mem_append.1 hx with hx | hx
      · simpa using e3 x (by simp [hx])
      · rw [List.mem_singleton] at hx; subst hx; simpa using e3 x (by simp)
    · refine List.Perm.trans ?_ e4
      exact List.Perm.append_left L (by simp)

theorem nthLoop_spec {lt : α → α → Bool} (sw : StrictWeak lt) (nth : Nat) : ∀ (fuel : Nat) (P W S : List α), W.length < fuel → W ≠ [] → P.length ≤ nth →
    (nth < P.length + W.length ∨ S = []) → (∀ x ∈ P, ∀ y ∈ W, lt y x = false) → (∀ x ∈ W, ∀ y ∈ S, lt y x = false) →
    ∃ b, nthLoop lt nth fuel (P ++ W ++ S) P.length (P.length + W.length - 1) = .ok b ∧ b.Perm (P ++ W ++ S) ∧
      ∀ v, b[nth]? = some v → (∀ i x, i < nth → b[i]? = some x → lt v x = false) ∧ (∀ i x, nth < i → b[i]? = some x → lt x v = false) := by
  intro fuel
  induction fuel with
  | zero => intro P W S h; omega
  | succ fuel ih =>
    intro P W S hf hW hP hn hPW hWS
    rcases List.eq_nil_or_concat W with rfl | ⟨W, v, rfl⟩
    · exact absurd rfl hW
    rw [List.concat_eq_append] at *
    have hlast : P.length + (W ++ [v]).length - 1 = P.length + W.length := by simp
    rw [nthLoop, hlast, if_pos (by omega)]
    obtain ⟨L, G, e1, e2, e3, e4⟩ := nthPartition_spec lt P W S v
    rw [e1]
    simp only
    have hmem : ∀ x, x ∈ L ∨ x ∈ G → x ∈ W := fun x hx => e4.subset (List.mem_append.2 hx)
    have hlen : L.length + G.length = W.length := by have := e4.length_eq; simpa using this
    have hperm : (P ++ L ++ v :: G ++ S).Perm (P ++ (W ++ [v]) ++ S) := by
      refine List.Perm.append_right S ?_
      rw [List.append_assoc]
      refine List.Perm.append_left P ?_
      exact (List.perm_middle.trans (List.Perm.cons v e4)).trans (List.perm_append_singleton v W).symm
    have hPv : ∀ x ∈ P, lt v x = false := fun x hx => hPW x hx v (by simp)
    have hSv : ∀ x ∈ S, lt x v = false := fun x hx => hWS v (by simp) x hx
    by_cases hp : P.length + L.length = nth
    · rw [if_pos hp]
      refine ⟨_, rfl, hperm, ?_⟩
      intro v' hv'
      have : v' = v := by
        rw [← hp, show P ++ L ++ v :: G ++ S = (P ++ L) ++ v :: (G ++ S) by simp, List.getElem?_append_right (by simp)] at hv'
        simp at hv'; exact hv'.symm
      subst this
      refine ⟨?_, ?_⟩
      · intro i x hi hx
        have hx' : x ∈ P ++ L := by
          rw [show P ++ L ++ v' :: G ++ S = (P ++ L) ++ v' :: (G ++ S) by simp, List.getElem?_append_left (by simp; omega)] at hx
          exact List.mem_of_getElem? hx
        rcases List.mem_append.1 hx' with h | h
        · exact hPv x h
        · exact e2 x h
      · intro i x hi hx
        have hx' : x ∈ G ++ S := by
          rw [show P ++ L ++ v' :: G ++ S = (P ++ L ++ [v']) ++ (G ++ S) by simp, List.getElem?_append_right (by simp; omega)] at hx
          exact List.mem_of_getElem? hx
        rcases List.mem_append.1 hx' with h | h
        · exact sw.asymm (e3 x h)
        · exact hSv x h
    · rw [if_neg hp]
      by_cases hp2 : P.length + L.length > nth
      · rw [if_pos hp2]
        have hL : L ≠ [] := by rintro rfl; simp at hp2; omega
        obtain ⟨b, b1, b2, b3⟩ := ih P L (v :: G ++ S) (by simp at hf; omega) hL hP (Or.inl hp2)
          (fun x hx y hy => hPW x hx y (by simp [hmem y (Or.inl hy)]))
          (by
            intro x hx y hy
            rcases List.mem_append.1 hy with hy | hy
            · rcases List.mem_cons.1 hy with rfl | hy
              · exact e2 x hx
              · exact sw.le_trans (e2 x hx) (sw.asymm (e3 y hy))
            · exact hWS x (by simp [hmem x (Or.inl hx)]) y hy)
        refine ⟨b, ?_, b2.trans (by simpa using hperm), b3⟩
        rw [← b1]; simp
      · rw [if_neg hp2]
        by_cases hG : G = []
        · -- only possible when nth is the end of the range
          subst hG
          have hS : S = [] := by
            rcases hn with h | h
            · simp at h hlen; omega
            · exact h
          subst hS
          obtain ⟨fuel, rfl⟩ : ∃ f', fuel = f' + 1 := ⟨fuel - 1, by simp at hf; omega⟩
          rw [nthLoop, if_neg (by simp at hlen; omega)]
          refine ⟨_, rfl, hperm, ?_⟩
          intro v' hv'
          have := (List.getElem?_eq_some_iff.1 hv').1
          simp at this; omega
        · obtain ⟨b, b1, b2, b3⟩ := ih (P ++ L ++ [v]) G S (by simp at hf; omega) hG (by simp; omega)
            (by rcases hn with h | h
                · left; simp at h ⊢; omega
                · exact Or.inr h)
            (by
              intro x hx y hy
              rcases List.mem_append.1 hx with hx | hx
              · rcases List.mem_append.1 hx with hx | hx
                · exact hPW x hx y (by simp [hmem y (Or.inr hy)])
                · exact sw.le_trans (e2 x hx) (sw.asymm (e3 y hy))
              · rw [List.mem_singleton] at hx; subst hx; exact sw.asymm (e3 y hy))
            (fun x hx y hy => hWS x (by simp [hmem x (Or.inr hx)]) y hy)
          refine ⟨b, ?_, b2.trans (by simpa using hperm), b3⟩
          have hGl : 0 < G.length := List.length_pos_iff.2 hG
          rw [← b1]
          congr 1
          · simp
          · simp; omega
          · simp; omega

/-- C49: `nth_element` permutes the range so that no element before `nth` is greater than the one at `nth` and no element after it is less. -/
theorem C49_nth_element {lt : α → α → Bool} (sw : StrictWeak lt) (a : List α) (nth : Nat) : ∃ b, nthElement lt a nth = .ok b ∧ b.Perm a ∧
      ∀ v, b[nth]? = some v → (∀ i x, i < nth → b[i]? = some x → lt v x = false) ∧ (∀ i x, nth < i → b[i]? = some x → lt x v = false) := by
  unfold nthElement
  by_cases h : a.length = 0
  · have := List.length_eq_zero_iff.1 h
    subst this
    exact ⟨[], rfl, List.Perm.refl _, by simp⟩
  · rw [if_neg h]
    have := nthLoop_spec sw nth (a.length + 1) [] a [] (by omega) (by rintro rfl; simp at h) (by simp) (Or.inr rfl) (by simp) (by simp)
    simpa using this

/-! ## The hypotheses are met -/
example : removeIf (fun x : Nat => x == 2) [1, 2, 3, 2, 4] = .ok ([1, 3, 4, 2, 4], 3) := rfl
example : partitionBi (fun x : Nat => x % 2 == 0) [1, 2, 3, 4, 6] = .ok ([6, 2, 4, 3, 1], 3) := by decide +kernel
example : partitionFwd (fun x : Nat => x % 2 == 0) [1, 2, 3, 4, 6] = .ok ([2, 4, 6, 1, 3], 3) := by decide +kernel
example : nthElement (fun a b : Nat => decide (a < b)) [5, 1, 4, 2, 3] 2 = .ok [1, 2, 3, 5, 4] := by decide +kernel
example : search (fun a b : Nat => a == b) [1, 2] [1, 1, 2, 1, 2] = 1 := rfl
example : findEnd (fun a b : Nat => a == b) [1, 2] [1, 1, 2, 1, 2] = .ok 3 := rfl
example : copyS id [1, 2, 3, 4] [0, 0, 0] 0 = .ok ([1, 2, 3], 3) := rfl

end Etl.Algo
