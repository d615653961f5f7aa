import Verif.Algo.Loops
import Mathlib.Tactic.Linarith
/-!
# C104: the one-pass algorithms, also with overlapping source and destination

Specification: `range m i n` are the `n` values from position `i` on, `put m d ys` is the memory with `ys` at `d` and everything else as it was, `runs` calls
a function with a state once for every value, from left to right.
-/
namespace Etl.Algo.Loops
open Etl.Rng

variable {α σ : Type}

/-! ## Specification -/

def range (m : List α) (i n : Nat) : List α := (m.drop i).take n
def put (m : List α) (d : Nat) (ys : List α) : List α := m.take d ++ ys ++ m.drop (d + ys.length)
/-- one call for every element, in order -/
def runs {β γ : Type} (op : σ → β → σ × γ) : σ → List β → σ × List γ
  | s, [] => (s, [])
  | s, x :: l => ((runs op (op s x).1 l).1, (op s x).2 :: (runs op (op s x).1 l).2)
/-- only the elements `p` accepts are passed to the function, the others stay -/
def runsIf (op : σ → α → σ × α) (p : α → Bool) : σ → List α → σ × List α
  | s, [] => (s, [])
  | s, x :: l => if p x then ((runsIf op p (op s x).1 l).1, (op s x).2 :: (runsIf op p (op s x).1 l).2) else ((runsIf op p s l).1, x :: (runsIf op p s l).2)
/-- the destination does not start inside the source, except at its first element or before -/
def Ok (first n d : Nat) : Prop := d ≤ first ∨ first + n ≤ d
instance (a b c : Nat) : Decidable (Ok a b c) := inferInstanceAs (Decidable (_ ∨ _))
def Disjoint (a n b k : Nat) : Prop := a + n ≤ b ∨ b + k ≤ a
instance (a n b k : Nat) : Decidable (Disjoint a n b k) := inferInstanceAs (Decidable (_ ∨ _))

/-! The specification itself, position by position. -/
theorem put_get (m : List α) (d : Nat) (ys : List α) (h : d + ys.length ≤ m.length) (i : Nat) :
    (put m d ys)[i]? = if d ≤ i ∧ i < d + ys.length then ys[i - d]? else m[i]? := by
  unfold put
  by_cases h1 : i < d
  · rw [List.append_assoc, List.getElem?_append_left (by rw [List.length_take]; omega), if_neg (by omega), List.getElem?_take_of_lt h1]
  · by_cases h2 : i < d + ys.length
    · rw [List.append_assoc, List.getElem?_append_right (by rw [List.length_take]; omega), List.length_take, Nat.min_eq_left (by omega),
        List.getElem?_append_left (by omega), if_pos (by omega)]
    · rw [List.getElem?_append_right (by simp only [List.length_append, List.length_take]; omega), if_neg (by omega), List.getElem?_drop]
      congr 1; simp only [List.length_append, List.length_take]; omega
theorem put_length (m : List α) (d : Nat) (ys : List α) (h : d + ys.length ≤ m.length) : (put m d ys).length = m.length := by
  simp only [put, List.length_append, List.length_take, List.length_drop]; omega
theorem range_length (m : List α) (i n : Nat) (h : i + n ≤ m.length) : (range m i n).length = n := by
  simp only [range, List.length_take, List.length_drop]; omega
theorem range_get (m : List α) (i n k : Nat) (h : k < n) : (range m i n)[k]? = m[i + k]? := by
  simp only [range]; rw [List.getElem?_take_of_lt h, List.getElem?_drop]
theorem runs_length {β γ : Type} (op : σ → β → σ × γ) : ∀ (l : List β) (s : σ), (runs op s l).2.length = l.length
  | [], _ => rfl
  | x :: l, s => by simp [runs, runs_length op l]
theorem runsIf_length (op : σ → α → σ × α) (p : α → Bool) : ∀ (l : List α) (s : σ), (runsIf op p s l).2.length = l.length
  | [], _ => rfl
  | x :: l, s => by unfold runsIf; split <;> simp [runsIf_length op p l]
/-- for a function without state, `runs` is `map` -/
theorem runs_map {β γ : Type} (f : β → γ) : ∀ (l : List β), (runs (fun (u : Unit) x => (u, f x)) () l).2 = l.map f
  | [] => rfl
  | x :: l => by simp [runs, runs_map f l]

/-! ## Lemmas -/
theorem range_succ {m : List α} {i n : Nat} (h : i < m.length) : range m i (n + 1) = m[i] :: range m (i + 1) n := by
  unfold range; rw [List.drop_eq_getElem_cons h, List.take_succ_cons]
theorem range_zero (m : List α) (i : Nat) : range m i 0 = [] := by simp [range]
theorem range_set {m : List α} {i n d : Nat} {y : α} (h : d < i ∨ i + n ≤ d) : range (m.set d y) i n = range m i n := by
  apply List.ext_getElem?; intro k
  by_cases hk : k < n
  · rw [range_get _ _ _ _ hk, range_get _ _ _ _ hk, List.getElem?_set_ne (by omega)]
  · rw [List.getElem?_eq_none (by simp only [range, List.length_take]; omega), List.getElem?_eq_none (by simp only [range, List.length_take]; omega)]
theorem put_nil (m : List α) (d : Nat) : put m d [] = m := by simp [put]
theorem put_set {m : List α} {d : Nat} {y : α} {ys : List α} (h : d < m.length) : put (m.set d y) (d + 1) ys = put m d (y :: ys) := by
  unfold put
  rw [List.take_set, List.drop_set_of_lt (by omega), List.set_eq_take_append_cons_drop, List.length_take, if_pos (by omega)]
  have h1 : List.drop (d + 1) (List.take (d + 1) m) = [] := List.drop_eq_nil_of_le (by simp)
  rw [h1, List.take_take, Nat.min_eq_left (by omega)]
  simp [Nat.add_comm, Nat.add_left_comm, Nat.add_assoc]

theorem put_set_comm {m : List α} {d j : Nat} {y : α} {ys : List α} (h : d + ys.length ≤ m.length) (hj : j < d ∨ d + ys.length ≤ j) :
    put (m.set j y) d ys = (put m d ys).set j y := by
  apply List.ext_getElem?; intro i
  rw [put_get (m.set j y) _ _ (by rw [List.length_set]; exact h)]
  by_cases e : j = i
  · subst e
    rw [if_neg (by omega)]
    by_cases hl : j < m.length
    · rw [List.getElem?_set_self hl, List.getElem?_set_self (by rw [put_length _ _ _ h]; exact hl)]
    · rw [List.getElem?_eq_none (by rw [List.length_set]; omega), List.getElem?_eq_none (by rw [List.length_set, put_length _ _ _ h]; omega)]
  · rw [List.getElem?_set_ne e, List.getElem?_set_ne e, put_get _ _ _ h]

theorem ok_bind {ε β γ : Type} (x : β) (f : β → Except ε γ) : ((Except.ok x : Except ε β) >>= f) = f x := rfl

/-! ## Theorems -/

theorem transform_loop (op : σ → α → σ × α) : ∀ (n k : Nat) (s : σ) (m : List α) (first d : Nat), n < k → first + n ≤ m.length → d + n ≤ m.length →
    Ok first n d → transform op k s m first (first + n) d = .ok ((runs op s (range m first n)).1, put m d (runs op s (range m first n)).2, d + n)
  | 0, k + 1, s, m, first, d, _, _, _, _ => by
    unfold transform; rw [if_pos (by first | omega | trivial), range_zero]; simp [runs, put_nil]
  | n + 1, k + 1, s, m, first, d, hk, h1, h2, ho => by
    unfold Ok at ho
    unfold transform
    rw [if_neg (by omega), rd_lt (by omega), ok_bind, wr_lt _ (by omega), ok_bind]
    have ih := transform_loop op n k (op s m[first]).1 (m.set d (op s m[first]).2) (first + 1) (d + 1) (by omega) (by rw [List.length_set]; omega)
      (by rw [List.length_set]; omega) (by unfold Ok; omega)
    rw [show first + (n + 1) = first + 1 + n by omega, ih, range_set (by omega), range_succ (by omega), put_set (by omega)]
    simp only [runs, Nat.add_assoc, Nat.add_comm 1 n]

/-- `transform` calls the function once for each element of the source, in order, and writes the results one after the other at the destination; nothing else
changes, and the end of the written range is returned.  The destination may be the source itself or start before it. -/
theorem C104_transform (op : σ → α → σ × α) (s : σ) (m : List α) (first n d : Nat) (h1 : first + n ≤ m.length) (h2 : d + n ≤ m.length) (ho : Ok first n d) :
    transform op (m.length + 1) s m first (first + n) d = .ok ((runs op s (range m first n)).1, put m d (runs op s (range m first n)).2, d + n) :=
  transform_loop op n _ s m first d (by omega) h1 h2 ho
example : transform (fun (s x : Nat) => (s + 1, x + s)) 6 0 [10, 20, 30, 40, 50] 1 (1 + 3) 0 = .ok (3, [20, 31, 42, 40, 50], 3) := by rfl
example : Ok 1 3 0 := by decide

theorem transform2_loop (op : σ → α → α → σ × α) : ∀ (n k : Nat) (s : σ) (m : List α) (first first2 d : Nat), n < k → first + n ≤ m.length → first2 + n ≤ m.length →
    d + n ≤ m.length → Ok first n d → Ok first2 n d →
    transform2 op k s m first (first + n) first2 d = .ok ((runs (fun s (q : α × α) => op s q.1 q.2) s ((range m first n).zip (range m first2 n))).1,
      put m d (runs (fun s (q : α × α) => op s q.1 q.2) s ((range m first n).zip (range m first2 n))).2, d + n)
  | 0, k + 1, s, m, first, first2, d, _, _, _, _, _, _ => by
    unfold transform2; rw [if_pos (by first | omega | trivial), range_zero, range_zero]; simp [runs, put_nil]
  | n + 1, k + 1, s, m, first, first2, d, hk, h1, h2, h3, ho, ho2 => by
    unfold Ok at ho ho2
    unfold transform2
    rw [if_neg (by omega), rd_lt (by omega), ok_bind, rd_lt (by omega), ok_bind, wr_lt _ (by omega), ok_bind]
    have ih := transform2_loop op n k (op s m[first] m[first2]).1 (m.set d (op s m[first] m[first2]).2) (first + 1) (first2 + 1) (d + 1) (by omega)
      (by rw [List.length_set]; omega) (by rw [List.length_set]; omega) (by rw [List.length_set]; omega) (by unfold Ok; omega) (by unfold Ok; omega)
    rw [show first + (n + 1) = first + 1 + n by omega, ih, range_set (by omega), range_set (by omega), range_succ (by omega), range_succ (i := first2) (by omega),
      put_set (by omega)]
    simp only [runs, List.zip_cons_cons, Nat.add_assoc, Nat.add_comm 1 n]

/-- `transform` of two ranges: the function is called with the pairs of corresponding elements. -/
theorem C104_transform2 (op : σ → α → α → σ × α) (s : σ) (m : List α) (first first2 n d : Nat) (h1 : first + n ≤ m.length) (h2 : first2 + n ≤ m.length)
    (h3 : d + n ≤ m.length) (ho : Ok first n d) (ho2 : Ok first2 n d) :
    transform2 op (m.length + 1) s m first (first + n) first2 d = .ok ((runs (fun s (q : α × α) => op s q.1 q.2) s ((range m first n).zip (range m first2 n))).1,
      put m d (runs (fun s (q : α × α) => op s q.1 q.2) s ((range m first n).zip (range m first2 n))).2, d + n) :=
  transform2_loop op n _ s m first first2 d (by omega) h1 h2 h3 ho ho2
example : transform2 (fun (s x y : Nat) => (s + 1, x * y)) 6 0 [1, 2, 3, 4, 5] 1 (1 + 2) 3 0 = .ok (2, [8, 15, 3, 4, 5], 2) := by rfl

theorem adv_nat (m : List α) (i n : Nat) (h : i + n ≤ m.length) : adv m i n = .ok (i + n) := by
  unfold adv; rw [if_pos (by omega), show ((i : Int) + n).toNat = i + n by omega]

/-- `transform_n` with a count that is not negative is `transform` of that many elements. -/
theorem C104_transform_n (op : σ → α → σ × α) (op2 : σ → α → α → σ × α) (s : σ) (m : List α) (first first2 n d : Nat) (h1 : first + n ≤ m.length)
    (h2 : first2 + n ≤ m.length) (h3 : d + n ≤ m.length) (ho : Ok first n d) (ho2 : Ok first2 n d) :
    transformN op s m first n d = .ok ((runs op s (range m first n)).1, put m d (runs op s (range m first n)).2) ∧
    transformN2 op2 s m first first2 n d = .ok ((runs (fun s (q : α × α) => op2 s q.1 q.2) s ((range m first n).zip (range m first2 n))).1,
      put m d (runs (fun s (q : α × α) => op2 s q.1 q.2) s ((range m first n).zip (range m first2 n))).2) := by
  constructor
  · unfold transformN; rw [adv_nat _ _ _ h1, ok_bind, C104_transform op s m first n d h1 h3 ho, ok_bind]
  · unfold transformN2; rw [adv_nat _ _ _ h1, ok_bind, C104_transform2 op2 s m first first2 n d h1 h2 h3 ho ho2, ok_bind]
example : transformN (fun (s x : Nat) => (s + 1, x + s)) 0 [10, 20, 30, 40, 50] 1 3 0 = .ok (3, [20, 31, 42, 40, 50]) := by rfl

theorem transformS_loop (op : σ → α → σ × α) : ∀ (n k : Nat) (s : σ) (m : List α) (first last d e : Nat), n < k → n = min (last - first) (e - d) → first ≤ last → d ≤ e →
    last ≤ m.length → e ≤ m.length → Ok first n d →
    transformS op k s m first last d e = .ok ((runs op s (range m first n)).1, put m d (runs op s (range m first n)).2, d + n)
  | 0, k + 1, s, m, first, last, d, e, _, hn, _, _, _, _, _ => by
    unfold transformS; rw [if_neg (by omega), range_zero]; simp [runs, put_nil]
  | n + 1, k + 1, s, m, first, last, d, e, hk, hn, hf, hd, h1, h2, ho => by
    unfold Ok at ho
    unfold transformS
    rw [if_pos (by omega), rd_lt (by omega), ok_bind, wr_lt _ (by omega), ok_bind]
    have ih := transformS_loop op n k (op s m[first]).1 (m.set d (op s m[first]).2) (first + 1) last (d + 1) e (by omega) (by omega) (by omega) (by omega)
      (by rw [List.length_set]; omega) (by rw [List.length_set]; omega) (by unfold Ok; omega)
    rw [ih, range_set (by omega), range_succ (by omega), put_set (by omega)]
    simp only [runs, Nat.add_assoc, Nat.add_comm 1 n]

/-- `transform_s` transforms as many elements as the shorter of the two ranges has. -/
theorem C104_transform_s (op : σ → α → σ × α) (s : σ) (m : List α) (first n d k : Nat) (h1 : first + n ≤ m.length) (h2 : d + k ≤ m.length) (ho : Ok first (min n k) d) :
    transformS op (m.length + 1) s m first (first + n) d (d + k) =
      .ok ((runs op s (range m first (min n k))).1, put m d (runs op s (range m first (min n k))).2, d + min n k) :=
  transformS_loop op _ _ s m first _ d _ (by omega) (by omega) (by omega) (by omega) h1 h2 ho
example : transformS (fun (s x : Nat) => (s + 1, x + s)) 7 0 [10, 20, 30, 40, 50, 60] 0 (0 + 4) 4 (4 + 2) = .ok (2, [10, 20, 30, 40, 10, 21], 6) := by rfl

theorem filter_count_le (p : α → Bool) (l : List α) : (l.filter p).length ≤ l.length := List.length_filter_le _ _

theorem transformIf_loop (op : σ → α → σ × α) (p : α → Bool) : ∀ (n k : Nat) (s : σ) (m : List α) (first d : Nat), n < k → first + n ≤ m.length →
    d + ((range m first n).filter p).length ≤ m.length → Ok first n d →
    transformIf op p k s m first (first + n) d = .ok ((runs op s ((range m first n).filter p)).1, put m d (runs op s ((range m first n).filter p)).2,
      d + ((range m first n).filter p).length)
  | 0, k + 1, s, m, first, d, _, _, _, _ => by
    unfold transformIf; rw [if_pos (by first | omega | trivial), range_zero]; simp [runs, put_nil]
  | n + 1, k + 1, s, m, first, d, hk, h1, h2, ho => by
    unfold Ok at ho
    unfold transformIf
    rw [if_neg (by omega), rd_lt (by omega), ok_bind]
    rw [range_succ (by omega)] at h2 ⊢
    rw [show first + (n + 1) = first + 1 + n by omega]
    cases hp : p m[first] with
    | true =>
      rw [List.filter_cons_of_pos hp] at h2 ⊢
      simp only [List.length_cons] at h2 ⊢
      rw [if_pos (by first | omega | trivial), wr_lt _ (by omega), ok_bind]
      have hr : range (m.set d (op s m[first]).2) (first + 1) n = range m (first + 1) n := range_set (by omega)
      have ih := transformIf_loop op p n k (op s m[first]).1 (m.set d (op s m[first]).2) (first + 1) (d + 1) (by omega) (by rw [List.length_set]; omega)
        (by rw [List.length_set, hr]; omega) (by unfold Ok; omega)
      rw [ih, hr, put_set (by omega)]
      simp only [runs, Nat.add_assoc, Nat.add_comm 1]
    | false =>
      rw [List.filter_cons_of_neg (by simp [hp])] at h2 ⊢
      rw [if_neg (by simp)]
      exact transformIf_loop op p n k s m (first + 1) d (by omega) (by omega) h2 (by unfold Ok; omega)

/-- `transform_if` and `transform_n_if`: only the elements the predicate accepts are transformed, and written without gaps. -/
theorem C104_transform_if (op : σ → α → σ × α) (p : α → Bool) (s : σ) (m : List α) (first n d : Nat) (h1 : first + n ≤ m.length)
    (h2 : d + ((range m first n).filter p).length ≤ m.length) (ho : Ok first n d) :
    transformIf op p (m.length + 1) s m first (first + n) d = .ok ((runs op s ((range m first n).filter p)).1, put m d (runs op s ((range m first n).filter p)).2,
      d + ((range m first n).filter p).length) :=
  transformIf_loop op p n _ s m first d (by omega) h1 h2 ho
example : transformIf (fun (s x : Nat) => (s + 1, x + 1)) (fun x => x % 2 == 0) 6 0 [1, 2, 3, 4, 6] 1 (1 + 4) 0 = .ok (3, [3, 5, 7, 4, 6], 3) := by rfl

theorem transformNIf_eq (op : σ → α → σ × α) (p : α → Bool) : ∀ (n k : Nat) (s : σ) (m : List α) (first d : Nat), n < k →
    transformNIfLoop op p n s m first d = transformIf op p k s m first (first + n) d
  | 0, k + 1, s, m, first, d, _ => by unfold transformIf transformNIfLoop; rw [if_pos (by first | omega | trivial)]
  | n + 1, k + 1, s, m, first, d, h => by
    unfold transformIf transformNIfLoop
    rw [if_neg (by omega), show first + (n + 1) = first + 1 + n by omega]
    cases hr : rd m first with
    | error u => rfl
    | ok x =>
      rw [ok_bind, ok_bind]
      split
      · cases wr m d (op s x).2 with
        | error u => rfl
        | ok m' => rw [ok_bind, ok_bind]; exact transformNIf_eq op p n k _ _ _ _ (by omega)
      · exact transformNIf_eq op p n k _ _ _ _ (by omega)

theorem C104_transform_n_if (op : σ → α → σ × α) (p : α → Bool) (s : σ) (m : List α) (first : Nat) (n : Int) (d : Nat) (h1 : first + n.toNat ≤ m.length)
    (h2 : d + ((range m first n.toNat).filter p).length ≤ m.length) (ho : Ok first n.toNat d) :
    transformNIf op p s m first n d = .ok ((runs op s ((range m first n.toNat).filter p)).1, put m d (runs op s ((range m first n.toNat).filter p)).2,
      d + ((range m first n.toNat).filter p).length) := by
  unfold transformNIf
  rw [transformNIf_eq op p n.toNat (m.length + 1) s m first d (by omega)]
  exact C104_transform_if op p s m first _ d h1 h2 ho
example : transformNIf (fun (s x : Nat) => (s + 1, x + 1)) (fun x => x % 2 == 0) 0 [1, 2, 3, 4, 6] 1 4 0 = .ok (3, [3, 5, 7, 4, 6], 3) := by rfl

theorem transformIf2_loop (op : σ → α → α → σ × α) (p : α → α → Bool) : ∀ (n k : Nat) (s : σ) (m : List α) (first first2 d : Nat), n < k → first + n ≤ m.length →
    first2 + n ≤ m.length → d + (((range m first n).zip (range m first2 n)).filter (fun q => p q.1 q.2)).length ≤ m.length → Ok first n d → Ok first2 n d →
    transformIf2 op p k s m first (first + n) first2 d =
      .ok ((runs (fun s (q : α × α) => op s q.1 q.2) s (((range m first n).zip (range m first2 n)).filter (fun q => p q.1 q.2))).1,
      put m d (runs (fun s (q : α × α) => op s q.1 q.2) s (((range m first n).zip (range m first2 n)).filter (fun q => p q.1 q.2))).2,
      d + (((range m first n).zip (range m first2 n)).filter (fun q => p q.1 q.2)).length)
  | 0, k + 1, s, m, first, first2, d, _, _, _, _, _, _ => by
    unfold transformIf2; rw [if_pos (by first | omega | trivial), range_zero, range_zero]; simp [runs, put_nil]
  | n + 1, k + 1, s, m, first, first2, d, hk, h1, h1', h2, ho, ho2 => by
    unfold Ok at ho ho2
    unfold transformIf2
    rw [if_neg (by omega), rd_lt (by omega), ok_bind, rd_lt (by omega), ok_bind]
    rw [range_succ (by omega), range_succ (i := first2) (by omega), List.zip_cons_cons] at h2 ⊢
    rw [show first + (n + 1) = first + 1 + n by omega]
    cases hp : p m[first] m[first2] with
    | true =>
      rw [List.filter_cons_of_pos (by exact hp)] at h2 ⊢
      simp only [List.length_cons] at h2 ⊢
      rw [if_pos (by first | omega | trivial), wr_lt _ (by omega), ok_bind]
      have hr : range (m.set d (op s m[first] m[first2]).2) (first + 1) n = range m (first + 1) n := range_set (by omega)
      have hr2 : range (m.set d (op s m[first] m[first2]).2) (first2 + 1) n = range m (first2 + 1) n := range_set (by omega)
      have ih := transformIf2_loop op p n k (op s m[first] m[first2]).1 (m.set d (op s m[first] m[first2]).2) (first + 1) (first2 + 1) (d + 1) (by omega)
        (by rw [List.length_set]; omega) (by rw [List.length_set]; omega)
        (by rw [List.length_set, hr, hr2]; omega) (by unfold Ok; omega) (by unfold Ok; omega)
      rw [ih, hr, hr2, put_set (by omega)]
      simp only [runs, Nat.add_assoc, Nat.add_comm 1]
    | false =>
      rw [List.filter_cons_of_neg (by simp [hp])] at h2 ⊢
      rw [if_neg (by simp)]
      exact transformIf2_loop op p n k s m (first + 1) (first2 + 1) d (by omega) (by omega) (by omega) h2 (by unfold Ok; omega) (by unfold Ok; omega)

theorem transformNIf2_eq (op : σ → α → α → σ × α) (p : α → α → Bool) : ∀ (n k : Nat) (s : σ) (m : List α) (first first2 d : Nat), n < k →
    transformNIf2Loop op p n s m first first2 d = transformIf2 op p k s m first (first + n) first2 d
  | 0, k + 1, s, m, first, first2, d, _ => by unfold transformIf2 transformNIf2Loop; rw [if_pos (by first | omega | trivial)]
  | n + 1, k + 1, s, m, first, first2, d, h => by
    unfold transformIf2 transformNIf2Loop
    rw [if_neg (by omega), show first + (n + 1) = first + 1 + n by omega]
    cases hr : rd m first with
    | error u => rfl
    | ok x =>
      rw [ok_bind, ok_bind]
      cases rd m first2 with
      | error u => rfl
      | ok y =>
        rw [ok_bind, ok_bind]
        split
        · cases wr m d (op s x y).2 with
          | error u => rfl
          | ok m' => rw [ok_bind, ok_bind]; exact transformNIf2_eq op p n k _ _ _ _ _ (by omega)
        · exact transformNIf2_eq op p n k _ _ _ _ _ (by omega)

/-- The two-range versions of `transform_if` and `transform_n_if`. -/
theorem C104_transform_if2 (op : σ → α → α → σ × α) (p : α → α → Bool) (s : σ) (m : List α) (first first2 n d : Nat) (h1 : first + n ≤ m.length)
    (h2 : first2 + n ≤ m.length) (h3 : d + (((range m first n).zip (range m first2 n)).filter (fun q => p q.1 q.2)).length ≤ m.length) (ho : Ok first n d)
    (ho2 : Ok first2 n d) (sel : List (α × α)) (hsel : sel = ((range m first n).zip (range m first2 n)).filter (fun q => p q.1 q.2)) :
    transformIf2 op p (m.length + 1) s m first (first + n) first2 d =
      .ok ((runs (fun s (q : α × α) => op s q.1 q.2) s sel).1, put m d (runs (fun s (q : α × α) => op s q.1 q.2) s sel).2, d + sel.length) ∧
    transformNIf2 op p s m first first2 n d =
      .ok ((runs (fun s (q : α × α) => op s q.1 q.2) s sel).1, put m d (runs (fun s (q : α × α) => op s q.1 q.2) s sel).2, d + sel.length) := by
  have h := transformIf2_loop op p n (m.length + 1) s m first first2 d (by omega) h1 h2 h3 ho ho2
  subst hsel
  refine ⟨h, ?_⟩
  unfold transformNIf2
  rw [Int.toNat_natCast, transformNIf2_eq op p n (m.length + 1) s m first first2 d (by omega)]; exact h
example : transformNIf2 (fun (s x y : Nat) => (s + 1, x + y)) (fun x y => x < y) 0 [1, 2, 3, 4, 1, 6] 0 3 3 0 = .ok (2, [5, 9, 3, 4, 1, 6], 2) := by rfl

theorem forEach_loop (op : σ → α → σ × α) : ∀ (n k : Nat) (s : σ) (m : List α) (first : Nat), n < k → first + n ≤ m.length →
    forEach op k s m first (first + n) = .ok ((runs op s (range m first n)).1, put m first (runs op s (range m first n)).2)
  | 0, k + 1, s, m, first, _, _ => by
    unfold forEach; rw [if_pos (by first | omega | trivial), range_zero]; simp [runs, put_nil]
  | n + 1, k + 1, s, m, first, hk, h1 => by
    unfold forEach
    rw [if_neg (by omega), rd_lt (by omega), ok_bind, wr_lt _ (by omega), ok_bind]
    have ih := forEach_loop op n k (op s m[first]).1 (m.set first (op s m[first]).2) (first + 1) (by omega) (by rw [List.length_set]; omega)
    rw [show first + (n + 1) = first + 1 + n by omega, ih, range_set (by omega), range_succ (by omega), put_set (by omega)]
    simp only [runs]

theorem forEachN_loop (op : σ → α → σ × α) : ∀ (n : Nat) (s : σ) (m : List α) (first : Nat), first + n ≤ m.length →
    forEachNLoop op n s m first = .ok ((runs op s (range m first n)).1, put m first (runs op s (range m first n)).2, first + n)
  | 0, s, m, first, _ => by
    unfold forEachNLoop; rw [range_zero]; simp [runs, put_nil]
  | n + 1, s, m, first, h1 => by
    unfold forEachNLoop
    rw [rd_lt (by omega), ok_bind, wr_lt _ (by omega), ok_bind]
    have ih := forEachN_loop op n (op s m[first]).1 (m.set first (op s m[first]).2) (first + 1) (by rw [List.length_set]; omega)
    rw [ih, range_set (by omega), range_succ (by omega), put_set (by omega)]
    simp only [runs, Nat.add_assoc, Nat.add_comm 1 n]

/-- `for_each` and `for_each_n` call the function once for each element, in order, and leave the other elements alone; `for_each` returns the function in its
last state, `for_each_n` the position after the last element; a count that is not positive does nothing. -/
theorem C104_for_each (op : σ → α → σ × α) (s : σ) (m : List α) (first n : Nat) (h : first + n ≤ m.length) (z : Int) (hz : z.toNat = n) :
    forEach op (m.length + 1) s m first (first + n) = .ok ((runs op s (range m first n)).1, put m first (runs op s (range m first n)).2) ∧
    forEachN op s m first z = .ok ((runs op s (range m first n)).1, put m first (runs op s (range m first n)).2, first + n) := by
  refine ⟨forEach_loop op n _ s m first (by omega) h, ?_⟩
  unfold forEachN; rw [hz]; exact forEachN_loop op n s m first h
example : forEach (fun (s : List Nat) x => (s ++ [x], x * 2)) 5 [] [1, 2, 3, 4] 1 (1 + 2) = .ok ([2, 3], [1, 4, 6, 4]) := by rfl
example : forEachN (fun (s : List Nat) x => (s ++ [x], x * 2)) [] [1, 2, 3, 4] 1 (-3) = .ok ([], [1, 2, 3, 4], 1) := by rfl

theorem forEachIf_loop (op : σ → α → σ × α) (p : α → Bool) : ∀ (n k : Nat) (s : σ) (m : List α) (first : Nat), n < k → first + n ≤ m.length →
    forEachIf op p k s m first (first + n) = .ok ((runsIf op p s (range m first n)).1, put m first (runsIf op p s (range m first n)).2)
  | 0, k + 1, s, m, first, _, _ => by
    unfold forEachIf; rw [if_pos (by first | omega | trivial), range_zero]; simp [runsIf, put_nil]
  | n + 1, k + 1, s, m, first, hk, h1 => by
    unfold forEachIf
    rw [if_neg (by omega), rd_lt (by omega), ok_bind, show first + (n + 1) = first + 1 + n by omega, range_succ (by omega)]
    cases hp : p m[first] with
    | true =>
      rw [if_pos (by first | omega | trivial), wr_lt _ (by omega), ok_bind]
      rw [forEachIf_loop op p n k (op s m[first]).1 (m.set first (op s m[first]).2) (first + 1) (by omega) (by rw [List.length_set]; omega),
        range_set (by omega), put_set (by omega)]
      simp only [runsIf, hp, if_true]
    | false =>
      rw [if_neg (by simp), forEachIf_loop op p n k s m (first + 1) (by omega) (by omega)]
      simp only [runsIf, hp, Bool.false_eq_true, if_false]
      rw [← put_set (by omega), List.set_getElem_self]

theorem forEachNIf_loop (op : σ → α → σ × α) (p : α → Bool) : ∀ (n : Nat) (s : σ) (m : List α) (first : Nat), first + n ≤ m.length →
    forEachNIfLoop op p n s m first = .ok ((runsIf op p s (range m first n)).1, put m first (runsIf op p s (range m first n)).2, first + n)
  | 0, s, m, first, _ => by
    unfold forEachNIfLoop; rw [range_zero]; simp [runsIf, put_nil]
  | n + 1, s, m, first, h1 => by
    unfold forEachNIfLoop
    rw [rd_lt (by omega), ok_bind, show first + (n + 1) = first + 1 + n by omega, range_succ (by omega)]
    cases hp : p m[first] with
    | true =>
      rw [if_pos (by first | omega | trivial), wr_lt _ (by omega), ok_bind]
      rw [forEachNIf_loop op p n (op s m[first]).1 (m.set first (op s m[first]).2) (first + 1) (by rw [List.length_set]; omega),
        range_set (by omega), put_set (by omega)]
      simp only [runsIf, hp, if_true]
    | false =>
      rw [if_neg (by simp), forEachNIf_loop op p n s m (first + 1) (by omega)]
      simp only [runsIf, hp, Bool.false_eq_true, if_false]
      rw [← put_set (by omega), List.set_getElem_self]

/-- `for_each_if` and `for_each_n_if` call the function for the elements the predicate accepts only. -/
theorem C104_for_each_if (op : σ → α → σ × α) (p : α → Bool) (s : σ) (m : List α) (first n : Nat) (h : first + n ≤ m.length) (z : Int) (hz : z.toNat = n) :
    forEachIf op p (m.length + 1) s m first (first + n) = .ok ((runsIf op p s (range m first n)).1, put m first (runsIf op p s (range m first n)).2) ∧
    forEachNIf op p s m first z = .ok ((runsIf op p s (range m first n)).1, put m first (runsIf op p s (range m first n)).2, first + n) := by
  refine ⟨forEachIf_loop op p n _ s m first (by omega) h, ?_⟩
  unfold forEachNIf; rw [hz]; exact forEachNIf_loop op p n s m first h
example : forEachIf (fun (s : List Nat) x => (s ++ [x], x * 2)) (fun x => x % 2 == 1) 5 [] [1, 2, 3, 4] 0 (0 + 4) = .ok ([1, 3], [2, 2, 6, 4]) := by rfl

theorem replaceIf_loop (p : α → Bool) (v : α) : ∀ (n k : Nat) (m : List α) (first : Nat), n < k → first + n ≤ m.length →
    replaceIf p v k m first (first + n) = .ok (put m first ((range m first n).map (fun x => if p x then v else x)))
  | 0, k + 1, m, first, _, _ => by
    unfold replaceIf; rw [if_pos (by first | omega | trivial), range_zero]; simp [put_nil]
  | n + 1, k + 1, m, first, hk, h1 => by
    unfold replaceIf
    rw [if_neg (by omega), rd_lt (by omega), ok_bind, show first + (n + 1) = first + 1 + n by omega, range_succ (by omega)]
    cases hp : p m[first] with
    | true =>
      rw [if_pos (by first | omega | trivial), wr_lt _ (by omega), ok_bind]
      rw [replaceIf_loop p v n k (m.set first v) (first + 1) (by omega) (by rw [List.length_set]; omega), range_set (by omega), put_set (by omega)]
      simp only [List.map_cons, hp, if_true]
    | false =>
      rw [if_neg (by simp), replaceIf_loop p v n k m (first + 1) (by omega) (by omega)]
      simp only [List.map_cons, hp, Bool.false_eq_true, if_false]
      rw [← put_set (by omega), List.set_getElem_self]

theorem replaceRef_loop [DecidableEq α] : ∀ (n k : Nat) (m : List α) (first old new : Nat) (x v : α), n < k → first + n ≤ m.length →
    m[old]? = some x → m[new]? = some v → Disjoint first n old 1 → Disjoint first n new 1 →
    replaceRef k m first (first + n) old new = .ok (put m first ((range m first n).map (fun y => if y = x then v else y)))
  | 0, k + 1, m, first, old, new, x, v, _, _, _, _, _, _ => by
    unfold replaceRef; rw [if_pos (by first | omega | trivial), range_zero]; simp [put_nil]
  | n + 1, k + 1, m, first, old, new, x, v, hk, h1, hx, hv, ho, hn => by
    unfold Disjoint at ho hn
    unfold replaceRef
    rw [if_neg (by omega), rd_lt (by omega), ok_bind, rd_ok.2 hx, ok_bind, show first + (n + 1) = first + 1 + n by omega, range_succ (by omega)]
    by_cases hp : m[first] = x
    · rw [if_pos hp, rd_ok.2 hv, ok_bind, wr_lt _ (by omega), ok_bind]
      rw [replaceRef_loop n k (m.set first v) (first + 1) old new x v (by omega) (by rw [List.length_set]; omega)
        (by rw [List.getElem?_set_ne (by omega)]; exact hx) (by rw [List.getElem?_set_ne (by omega)]; exact hv) (by unfold Disjoint; omega) (by unfold Disjoint; omega),
        range_set (by omega), put_set (by omega)]
      simp only [List.map_cons, hp, if_true]
    · rw [if_neg hp, replaceRef_loop n k m (first + 1) old new x v (by omega) (by omega) hx hv (by unfold Disjoint; omega) (by unfold Disjoint; omega)]
      simp only [List.map_cons, hp, if_false]
      rw [← put_set (by omega), List.set_getElem_self]

/-- `replace_if` and `replace` (whose two values are held outside the range) replace exactly the matching elements of the range. -/
theorem C104_replace [DecidableEq α] (p : α → Bool) (m : List α) (first n old new : Nat) (x v : α) (h : first + n ≤ m.length) (hx : m[old]? = some x) (hv : m[new]? = some v)
    (ho : Disjoint first n old 1) (hn : Disjoint first n new 1) :
    replaceIf p v (m.length + 1) m first (first + n) = .ok (put m first ((range m first n).map (fun y => if p y then v else y))) ∧
    replaceRef (m.length + 1) m first (first + n) old new = .ok (put m first ((range m first n).map (fun y => if y = x then v else y))) :=
  ⟨replaceIf_loop p v n _ m first (by omega) h, replaceRef_loop n _ m first old new x v (by omega) h hx hv ho hn⟩
example : replaceRef 7 [5, 7, 5, 8, 5, 9] 0 (0 + 4) 4 5 = .ok [9, 7, 9, 8, 5, 9] := by rfl
/-- **Finding.** `replace` takes the old value by reference and reads it on every turn: `replace(v.begin(), v.end(), v[0], 9)` stops replacing after the first
element. -/
theorem C104_replace_alias : replaceRef 5 [5, 7, 5, 9] 0 (0 + 3) 0 3 = .ok [9, 7, 5, 9] := by rfl

theorem generate_loop (gen : σ → σ × α) : ∀ (n k : Nat) (s : σ) (m : List α) (first : Nat), n < k → first + n ≤ m.length →
    generate gen k s m first (first + n) = .ok ((runs (fun s (_ : Unit) => gen s) s (List.replicate n ())).1, put m first (runs (fun s (_ : Unit) => gen s) s (List.replicate n ())).2)
  | 0, k + 1, s, m, first, _, _ => by
    unfold generate; rw [if_pos (by first | omega | trivial)]; simp [runs, put_nil]
  | n + 1, k + 1, s, m, first, hk, h1 => by
    unfold generate
    rw [if_neg (by omega), wr_lt _ (by omega), ok_bind, show first + (n + 1) = first + 1 + n by omega,
      generate_loop gen n k (gen s).1 (m.set first (gen s).2) (first + 1) (by omega) (by rw [List.length_set]; omega), put_set (by omega)]
    simp only [List.replicate_succ, runs]

/-- `generate` fills the range with the results of as many calls, in order. -/
theorem C104_generate (gen : σ → σ × α) (s : σ) (m : List α) (first n : Nat) (h : first + n ≤ m.length) :
    generate gen (m.length + 1) s m first (first + n) =
      .ok ((runs (fun s (_ : Unit) => gen s) s (List.replicate n ())).1, put m first (runs (fun s (_ : Unit) => gen s) s (List.replicate n ())).2) :=
  generate_loop gen n _ s m first (by omega) h
example : generate (fun s => (s + 3, s)) 6 7 [0, 0, 0, 0, 0] 1 (1 + 3) = .ok (16, [0, 7, 10, 13, 0]) := by rfl

theorem fillN_loop (v : α) : ∀ (n k : Nat) (m : List α) (first : Nat), n < k → first + n ≤ m.length →
    fillN k m first n v = .ok (put m first (List.replicate n v), first + n)
  | 0, k + 1, m, first, _, _ => by
    unfold fillN; rw [if_pos (by first | omega | trivial)]; simp [put_nil]
  | n + 1, k + 1, m, first, hk, h1 => by
    unfold fillN
    rw [if_neg (by omega), wr_lt _ (by omega), ok_bind, show ((n + 1 : Nat) : Int) - 1 = n by omega,
      fillN_loop v n k (m.set first v) (first + 1) (by omega) (by rw [List.length_set]; omega), put_set (by omega)]
    simp only [List.replicate_succ, Nat.add_assoc, Nat.add_comm 1 n]
theorem fillN_negative_loop (v : α) : ∀ (j k : Nat) (m : List α) (first : Nat) (z : Int), j < k → m.length - first = j → z < 0 →
    fillN k m first z v = .error .outOfBounds
  | 0, k + 1, m, first, z, _, hj, hz => by
    unfold fillN; rw [if_neg (by omega)]; unfold wr; rw [if_neg (by omega)]; rfl
  | j + 1, k + 1, m, first, z, hk, hj, hz => by
    unfold fillN; rw [if_neg (by omega), wr_lt _ (by omega), ok_bind]
    exact fillN_negative_loop v j k _ _ _ (by omega) (by rw [List.length_set]; omega) (by omega)
theorem copyN_loop : ∀ (n k : Nat) (m : List α) (first d : Nat), n < k → first + n ≤ m.length → d + n ≤ m.length → Ok first n d →
    copyN k m first n d = .ok (put m d (range m first n), d + n)
  | 0, k + 1, m, first, d, _, _, _, _ => by
    unfold copyN; rw [if_pos (by first | omega | trivial), range_zero]; simp [put_nil]
  | n + 1, k + 1, m, first, d, hk, h1, h2, ho => by
    unfold Ok at ho
    unfold copyN
    rw [if_neg (by omega), rd_lt (by omega), ok_bind, wr_lt _ (by omega), ok_bind, show ((n + 1 : Nat) : Int) - 1 = n by omega,
      copyN_loop n k (m.set d m[first]) (first + 1) (d + 1) (by omega) (by rw [List.length_set]; omega) (by rw [List.length_set]; omega) (by unfold Ok; omega),
      range_set (by omega), range_succ (by omega), put_set (by omega)]
    simp only [Nat.add_assoc, Nat.add_comm 1 n]

/-- `fill_n` and `copy_n` with a count that is not negative. -/
theorem C104_fill_n (v : α) (m : List α) (first n d : Nat) (h1 : first + n ≤ m.length) (h2 : d + n ≤ m.length) (ho : Ok first n d) :
    fillN (m.length + 1) m d n v = .ok (put m d (List.replicate n v), d + n) ∧ copyN (m.length + 1) m first n d = .ok (put m d (range m first n), d + n) :=
  ⟨fillN_loop v n _ m d (by omega) h2, copyN_loop n _ m first d (by omega) h1 h2 ho⟩
example : fillN 6 [1, 2, 3, 4, 5] 1 3 9 = .ok ([1, 9, 9, 9, 5], 4) := by rfl
/-- **Finding.** With a negative count `fill_n` does not return: it tests `count != 0` and writes on until it leaves the memory, whatever the memory holds and
wherever it starts (`std::fill_n` does nothing). -/
theorem C104_fill_n_negative (v : α) (m : List α) (first : Nat) (z : Int) (hz : z < 0) : fillN (m.length + 1) m first z v = .error .outOfBounds :=
  fillN_negative_loop v _ _ m first z (by omega) rfl hz

theorem reverseCopy_loop : ∀ (n k : Nat) (m : List α) (sb d : Nat), n < k → sb + n ≤ m.length → d + n ≤ m.length → Disjoint sb n d n →
    reverseCopy k m sb (sb + n) d = .ok (put m d (range m sb n).reverse, d + n)
  | 0, k + 1, m, sb, d, _, _, _, _ => by
    unfold reverseCopy; rw [if_pos (by first | omega | trivial), range_zero]; simp [put_nil]
  | n + 1, k + 1, m, sb, d, hk, h1, h2, ho => by
    unfold Disjoint at ho
    unfold reverseCopy
    rw [if_neg (by omega), if_neg (by omega), show sb + (n + 1) - 1 = sb + n by omega, rd_lt (by omega), ok_bind, wr_lt _ (by omega), ok_bind,
      reverseCopy_loop n k (m.set d m[sb + n]) sb (d + 1) (by omega) (by rw [List.length_set]; omega) (by rw [List.length_set]; omega) (by unfold Disjoint; omega),
      range_set (by omega), put_set (by omega)]
    have hs : range m sb (n + 1) = range m sb n ++ [m[sb + n]] := by
      unfold range
      rw [List.take_succ, List.getElem?_drop, List.getElem?_eq_getElem (by omega)]; rfl
    rw [hs, List.reverse_append, List.reverse_singleton, List.singleton_append]
    simp only [Nat.add_assoc, Nat.add_comm 1 n]

/-- `reverse_copy` to a destination outside the source. -/
theorem C104_reverse_copy (m : List α) (sb n d : Nat) (h1 : sb + n ≤ m.length) (h2 : d + n ≤ m.length) (ho : Disjoint sb n d n) :
    reverseCopy (m.length + 1) m sb (sb + n) d = .ok (put m d (range m sb n).reverse, d + n) := reverseCopy_loop n _ m sb d (by omega) h1 h2 ho
example : reverseCopy 8 [1, 2, 3, 4, 5, 6, 7] 0 (0 + 3) 3 = .ok ([1, 2, 3, 3, 2, 1, 7], 6) := by rfl

theorem swapRanges_loop : ∀ (n k : Nat) (m : List α) (a b : Nat), n < k → a + n ≤ m.length → b + n ≤ m.length → Disjoint a n b n →
    swapRanges k m a (a + n) b = .ok (put (put m a (range m b n)) b (range m a n), b + n)
  | 0, k + 1, m, a, b, _, _, _, _ => by
    unfold swapRanges; rw [if_pos (by first | omega | trivial), range_zero, range_zero]; simp [put_nil]
  | n + 1, k + 1, m, a, b, hk, h1, h2, ho => by
    unfold Disjoint at ho
    unfold swapRanges
    rw [if_neg (by omega), swp_lt (by omega) (by omega), ok_bind, show a + (n + 1) = a + 1 + n by omega,
      swapRanges_loop n k _ (a + 1) (b + 1) (by omega) (by simp only [List.length_set]; omega) (by simp only [List.length_set]; omega) (by unfold Disjoint; omega)]
    rw [range_set (by omega), range_set (by omega), range_set (by omega), range_set (by omega)]
    congr 1
    rw [range_succ (i := a) (by omega), range_succ (i := b) (by omega)]
    have hla := range_length m (a + 1) n (by omega)
    have hlb := range_length m (b + 1) n (by omega)
    refine Prod.ext ?_ (by simp only; omega)
    simp only
    apply List.ext_getElem?; intro i
    rw [put_get _ _ _ (by rw [put_length _ _ _ (by simp only [List.length_set, hlb]; omega)]; simp only [List.length_set, hla]; omega),
      put_get _ _ _ (by simp only [List.length_set, hlb]; omega),
      put_get _ _ _ (by rw [put_length _ _ _ (by simp only [List.length_cons, hlb]; omega)]; simp only [List.length_cons, hla]; omega),
      put_get _ _ _ (by simp only [List.length_cons, hlb]; omega), get_swap (by omega) (by omega)]
    simp only [List.length_cons, hla, hlb]
    by_cases e1 : i = b
    · subst e1
      rw [if_neg (by omega), if_neg (by omega), if_pos (by first | omega | trivial), if_pos (by omega), Nat.sub_self, List.getElem?_cons_zero, List.getElem?_eq_getElem (by omega)]
    · by_cases e2 : i = a
      · subst e2
        rw [if_neg (by omega), if_neg (by omega), if_neg e1, if_pos (by first | omega | trivial), if_neg (by omega), if_pos (by omega), Nat.sub_self, List.getElem?_cons_zero,
          List.getElem?_eq_getElem (by omega)]
      · by_cases e3 : b + 1 ≤ i ∧ i < b + 1 + n
        · rw [if_pos e3, if_pos (by omega), show i - b = (i - (b + 1)) + 1 by omega, List.getElem?_cons_succ]
        · by_cases e4 : a + 1 ≤ i ∧ i < a + 1 + n
          · rw [if_neg e3, if_pos e4, if_neg (by omega), if_pos (by omega), show i - a = (i - (a + 1)) + 1 by omega, List.getElem?_cons_succ]
          · rw [if_neg e3, if_neg e4, if_neg e1, if_neg e2, if_neg (by omega), if_neg (by omega)]

/-- `swap_ranges` exchanges two disjoint ranges, element by element. -/
theorem C104_swap_ranges (m : List α) (a b n : Nat) (h1 : a + n ≤ m.length) (h2 : b + n ≤ m.length) (ho : Disjoint a n b n) :
    swapRanges (m.length + 1) m a (a + n) b = .ok (put (put m a (range m b n)) b (range m a n), b + n) := swapRanges_loop n _ m a b (by omega) h1 h2 ho
example : swapRanges 7 [1, 2, 3, 4, 5, 6] 0 (0 + 2) 3 = .ok ([4, 5, 3, 1, 2, 6], 5) := by rfl

theorem partitionPoint_loop (p : α → Bool) : ∀ (n k : Nat) (m : List α) (b : Nat), n < k → b + n ≤ m.length →
    partitionPoint p k m b (b + n) = .ok (b + ((range m b n).takeWhile p).length)
  | 0, k + 1, m, b, _, _ => by unfold partitionPoint; rw [if_pos (by first | omega | trivial), range_zero]; simp
  | n + 1, k + 1, m, b, hk, h => by
    unfold partitionPoint
    rw [if_neg (by omega), rd_lt (by omega), ok_bind, range_succ (by omega)]
    cases hp : p m[b] with
    | true =>
      rw [if_neg (by simp), show b + (n + 1) = b + 1 + n by omega, partitionPoint_loop p n k m (b + 1) (by omega) (by omega),
        List.takeWhile_cons_of_pos hp, List.length_cons]; congr 1; omega
    | false => rw [if_pos (by simp), List.takeWhile_cons_of_neg (by simp [hp])]; rfl

/-- `partition_point`: the first element the predicate rejects; on a partitioned range the boundary. -/
theorem C104_partition_point (p : α → Bool) (m : List α) (b n : Nat) (h : b + n ≤ m.length) :
    ∃ r, partitionPoint p (m.length + 1) m b (b + n) = .ok r ∧ b ≤ r ∧ r ≤ b + n ∧ (∀ i, b ≤ i → i < r → ∃ x, m[i]? = some x ∧ p x = true) ∧
      (r < b + n → ∃ x, m[r]? = some x ∧ p x = false) := by
  refine ⟨_, partitionPoint_loop p n _ m b (by omega) h, by omega, ?_, ?_, ?_⟩
  · have := (List.takeWhile_prefix (l := range m b n) p).length_le
    rw [range_length m b n h] at this; omega
  · intro i hi hlt
    have hpre := List.takeWhile_prefix (l := range m b n) p
    have hle := hpre.length_le
    rw [range_length m b n h] at hle
    have hlt' : i - b < ((range m b n).takeWhile p).length := by omega
    refine ⟨((range m b n).takeWhile p)[i - b], ?_, ?_⟩
    · have h1 := List.IsPrefix.getElem hpre hlt'
      have h2 : (range m b n)[i - b]? = m[b + (i - b)]? := range_get m b n _ (by omega)
      rw [show b + (i - b) = i by omega] at h2
      rw [← h2, List.getElem?_eq_getElem (by rw [range_length m b n h]; omega), h1]
    · exact (List.all_eq_true.1 (List.all_takeWhile (l := range m b n) (p := p))) _ (List.getElem_mem hlt')
  · intro hr
    have key : ∀ (l : List α), (l.takeWhile p).length < l.length → ∃ x, l[(l.takeWhile p).length]? = some x ∧ p x = false := by
      intro l
      induction l with
      | nil => intro h; simp at h
      | cons y l ih =>
        intro h
        cases hy : p y with
        | true =>
          rw [List.takeWhile_cons_of_pos hy] at h ⊢
          simp only [List.length_cons] at h ⊢
          rw [List.getElem?_cons_succ]; exact ih (by omega)
        | false => rw [List.takeWhile_cons_of_neg (by simp [hy])]; exact ⟨y, rfl, hy⟩
    obtain ⟨x, hx, hpx⟩ := key (range m b n) (by rw [range_length m b n h]; omega)
    rw [range_get _ _ _ _ (by omega)] at hx
    exact ⟨x, hx, hpx⟩
example : partitionPoint (fun x => x < 5) 6 [1, 3, 2, 7, 4] 0 (0 + 5) = .ok 3 := by rfl

theorem partitionCopy_loop (p : α → Bool) : ∀ (n k : Nat) (m : List α) (b dt df : Nat) (T F : List α), n < k → T = (range m b n).filter p →
    F = (range m b n).filter (fun x => !p x) → b + n ≤ m.length → dt + T.length ≤ m.length →
    df + F.length ≤ m.length → Ok b n dt → Ok b n df → Disjoint dt T.length df F.length →
    partitionCopy p k m b (b + n) dt df = .ok (put (put m dt T) df F, dt + T.length, df + F.length)
  | 0, k + 1, m, b, dt, df, T, F, _, hT, hF, _, _, _, _, _, _ => by
    rw [range_zero] at hT hF; subst hT hF
    unfold partitionCopy; rw [if_pos (by first | omega | trivial)]; simp [put_nil]
  | n + 1, k + 1, m, b, dt, df, T, F, hk, hT, hF, h1, h2, h3, o1, o2, o3 => by
    unfold Ok at o1 o2
    unfold Disjoint at o3
    unfold partitionCopy
    rw [if_neg (by omega), rd_lt (by omega), ok_bind, show b + (n + 1) = b + 1 + n by omega]
    rw [range_succ (by omega)] at hT hF
    cases hp : p m[b] with
    | true =>
      rw [List.filter_cons_of_pos hp] at hT
      rw [List.filter_cons_of_neg (by simp [hp])] at hF
      rw [hT] at h2 o3 ⊢
      simp only [List.length_cons] at h2 o3 ⊢
      have hr : range (m.set dt m[b]) (b + 1) n = range m (b + 1) n := range_set (by omega)
      rw [if_pos (by first | omega | trivial), wr_lt _ (by omega), ok_bind,
        partitionCopy_loop p n k (m.set dt m[b]) (b + 1) (dt + 1) df ((range m (b + 1) n).filter p) F (by omega) (by rw [hr]) (by rw [hr]; exact hF)
          (by rw [List.length_set]; omega) (by rw [List.length_set]; omega) (by rw [List.length_set]; omega) (by unfold Ok; omega) (by unfold Ok; omega)
          (by unfold Disjoint; omega), put_set (by omega)]
      simp only [Nat.add_assoc, Nat.add_comm 1]
    | false =>
      rw [List.filter_cons_of_neg (by simp [hp])] at hT
      rw [List.filter_cons_of_pos (by simp [hp])] at hF
      rw [hF] at h3 o3 ⊢
      simp only [List.length_cons] at h3 o3 ⊢
      have hr : range (m.set df m[b]) (b + 1) n = range m (b + 1) n := range_set (by omega)
      rw [if_neg (by simp), wr_lt _ (by omega), ok_bind,
        partitionCopy_loop p n k (m.set df m[b]) (b + 1) dt (df + 1) T ((range m (b + 1) n).filter (fun x => !p x)) (by omega) (by rw [hr]; exact hT) (by rw [hr])
          (by rw [List.length_set]; omega) (by rw [List.length_set]; omega) (by rw [List.length_set]; omega) (by unfold Ok; omega) (by unfold Ok; omega)
          (by unfold Disjoint; omega)]
      have hc : put (m.set df m[b]) dt T = (put m dt T).set df m[b] := put_set_comm h2 (by omega)
      rw [hc, put_set (by rw [put_length _ _ _ h2]; omega)]
      simp only [Nat.add_assoc, Nat.add_comm 1]

/-- `partition_copy` writes the accepted elements at one destination and the others at the other, both in their original order. -/
theorem C104_partition_copy (p : α → Bool) (m : List α) (b n dt df : Nat) (T F : List α) (hT : T = (range m b n).filter p)
    (hF : F = (range m b n).filter (fun x => !p x)) (h1 : b + n ≤ m.length) (h2 : dt + T.length ≤ m.length) (h3 : df + F.length ≤ m.length)
    (o1 : Ok b n dt) (o2 : Ok b n df) (o3 : Disjoint dt T.length df F.length) :
    partitionCopy p (m.length + 1) m b (b + n) dt df = .ok (put (put m dt T) df F, dt + T.length, df + F.length) :=
  partitionCopy_loop p n _ m b dt df T F (by omega) hT hF h1 h2 h3 o1 o2 o3
example : partitionCopy (fun x => x % 2 == 0) 9 [1, 2, 3, 4, 0, 0, 0, 0] 0 (0 + 4) 4 6 = .ok ([1, 2, 3, 4, 2, 4, 1, 3], 6, 8) := by rfl

theorem copyNSEnd_loop : ∀ (n : Nat) (m : List α) (ib ob oe j : Nat), j = min n (oe - ob) → ob ≤ oe → ib + j ≤ m.length → oe ≤ m.length → Ok ib j ob →
    copyNSEnd n m ib ob oe = .ok (put m ob (range m ib j), ob + j)
  | 0, m, ib, ob, oe, j, hj, _, _, _, _ => by
    have : j = 0 := by omega
    subst this; unfold copyNSEnd; rw [range_zero]; simp [put_nil]
  | n + 1, m, ib, ob, oe, 0, hj, _, _, _, _ => by
    unfold copyNSEnd; rw [if_neg (by omega), range_zero]; simp [put_nil]
  | n + 1, m, ib, ob, oe, j + 1, hj, h0, h1, h2, ho => by
    unfold Ok at ho
    unfold copyNSEnd
    rw [if_pos (by omega), rd_lt (by omega), ok_bind, wr_lt _ (by omega), ok_bind,
      copyNSEnd_loop n (m.set ob m[ib]) (ib + 1) (ob + 1) oe j (by omega) (by omega) (by rw [List.length_set]; omega) (by rw [List.length_set]; omega)
      (by unfold Ok; omega), range_set (by omega), range_succ (by omega), put_set (by omega)]
    simp only [Nat.add_assoc, Nat.add_comm 1 j]
theorem copyNSSize_eq : ∀ (n1 n2 : Nat) (m : List α) (ib ob : Nat), copyNSSize n1 n2 m ib ob = copyNSEnd n1 m ib ob (ob + n2)
  | 0, n2, m, ib, ob => by cases n2 <;> rfl
  | n1 + 1, 0, m, ib, ob => by unfold copyNSEnd copyNSSize; rw [if_neg (by omega)]
  | n1 + 1, n2 + 1, m, ib, ob => by
    unfold copyNSEnd copyNSSize; rw [if_pos (by omega)]
    cases rd m ib with
    | error u => rfl
    | ok x =>
      rw [ok_bind, ok_bind]
      cases wr m ob x with
      | error u => rfl
      | ok m' => rw [ok_bind, ok_bind, copyNSSize_eq n1 n2 m' (ib + 1) (ob + 1)]; congr 1; omega

/-- both forms of `copy_n_s` copy as many elements as the smaller of the two sizes. -/
theorem C104_copy_n_s (m : List α) (ib ob n k : Nat) (h1 : ib + min n k ≤ m.length) (h2 : ob + k ≤ m.length) (ho : Ok ib (min n k) ob) :
    copyNSEnd n m ib ob (ob + k) = .ok (put m ob (range m ib (min n k)), ob + min n k) ∧
    copyNSSize n k m ib ob = .ok (put m ob (range m ib (min n k)), ob + min n k) := by
  rw [copyNSSize_eq]
  have := copyNSEnd_loop n m ib ob (ob + k) (min n k) (by omega) (by omega) h1 h2 ho
  exact ⟨this, this⟩
example : copyNSSize 4 2 [1, 2, 3, 4, 5, 6] 0 4 = .ok ([1, 2, 3, 4, 1, 2], 6) := by rfl

theorem copyNIf_loop (p : α → Bool) : ∀ (n : Nat) (m : List α) (ib ob : Nat), ib + n ≤ m.length → ob + ((range m ib n).filter p).length ≤ m.length → Ok ib n ob →
    copyNIf p n m ib ob = .ok (put m ob ((range m ib n).filter p), ob + ((range m ib n).filter p).length)
  | 0, m, ib, ob, _, _, _ => by unfold copyNIf; rw [range_zero]; simp [put_nil]
  | n + 1, m, ib, ob, h1, h2, ho => by
    unfold Ok at ho
    unfold copyNIf
    rw [rd_lt (by omega), ok_bind]
    rw [range_succ (by omega)] at h2 ⊢
    cases hp : p m[ib] with
    | true =>
      rw [List.filter_cons_of_pos hp] at h2 ⊢
      simp only [List.length_cons] at h2 ⊢
      rw [if_pos (by first | omega | trivial), wr_lt _ (by omega), ok_bind]
      have hr : range (m.set ob m[ib]) (ib + 1) n = range m (ib + 1) n := range_set (by omega)
      rw [copyNIf_loop p n (m.set ob m[ib]) (ib + 1) (ob + 1) (by rw [List.length_set]; omega) (by rw [List.length_set, hr]; omega) (by unfold Ok; omega), hr,
        put_set (by omega)]
      simp only [Nat.add_assoc, Nat.add_comm 1]
    | false =>
      rw [List.filter_cons_of_neg (by simp [hp])] at h2 ⊢
      rw [if_neg (by simp)]
      exact copyNIf_loop p n m (ib + 1) ob (by omega) h2 (by unfold Ok; omega)

/-- `copy_n_if` copies the accepted ones of the next `n` elements. -/
theorem C104_copy_n_if (p : α → Bool) (m : List α) (ib ob n : Nat) (h1 : ib + n ≤ m.length) (h2 : ob + ((range m ib n).filter p).length ≤ m.length) (ho : Ok ib n ob) :
    copyNIf p n m ib ob = .ok (put m ob ((range m ib n).filter p), ob + ((range m ib n).filter p).length) := copyNIf_loop p n m ib ob h1 h2 ho
example : copyNIf (fun x => x % 2 == 0) 4 [1, 2, 3, 4, 0, 0] 0 4 = .ok ([1, 2, 3, 4, 2, 4], 6) := by rfl

theorem moveRange_loop (mv : α → α) : ∀ (n k : Nat) (m : List α) (a b : Nat), n < k → a + n ≤ m.length → b + n ≤ m.length → Disjoint a n b n →
    moveRange mv k m a (a + n) b = .ok (put (put m a ((range m a n).map mv)) b (range m a n), b + n)
  | 0, k + 1, m, a, b, _, _, _, _ => by
    unfold moveRange; rw [if_pos (by first | omega | trivial), range_zero]; simp [put_nil]
  | n + 1, k + 1, m, a, b, hk, h1, h2, ho => by
    unfold Disjoint at ho
    unfold moveRange
    have hla := range_length m (a + 1) n (by omega)
    rw [if_neg (by omega), rd_lt (by omega), ok_bind, wr_lt _ (by omega), ok_bind, wr_lt _ (by rw [List.length_set]; omega), ok_bind,
      show a + (n + 1) = a + 1 + n by omega,
      moveRange_loop mv n k _ (a + 1) (b + 1) (by omega) (by simp only [List.length_set]; omega) (by simp only [List.length_set]; omega) (by unfold Disjoint; omega)]
    rw [range_set (by omega), range_set (by omega)]
    congr 1
    rw [range_succ (i := a) (by omega), List.map_cons]
    refine Prod.ext ?_ (by simp only; omega)
    simp only
    have hc : put ((m.set a (mv m[a])).set b m[a]) (a + 1) ((range m (a + 1) n).map mv) = (put m a (mv m[a] :: (range m (a + 1) n).map mv)).set b m[a] := by
      rw [← put_set (by omega)]
      exact put_set_comm (by rw [List.length_map, hla, List.length_set]; omega) (by rw [List.length_map, hla]; omega)
    rw [hc, put_set (by rw [put_length _ _ _ (by simp only [List.length_cons, List.length_map, hla]; omega)]; omega)]

theorem moveS_eq (mv : α → α) : ∀ (n k : Nat) (m : List α) (ib ie ob oe : Nat), n < k → ib ≤ ie → ob ≤ oe → n = min (ie - ib) (oe - ob) →
    moveS mv k m ib ie ob oe = moveRange mv k m ib (ib + n) ob
  | 0, k + 1, m, ib, ie, ob, oe, _, _, _, h => by unfold moveS moveRange; rw [if_neg (by omega), if_pos (by first | omega | trivial)]
  | n + 1, k + 1, m, ib, ie, ob, oe, hk, h1, h2, h => by
    unfold moveS moveRange; rw [if_pos (by omega), if_neg (by omega)]
    cases rd m ib with
    | error u => rfl
    | ok x =>
      rw [ok_bind, ok_bind]
      cases wr m ib (mv x) with
      | error u => rfl
      | ok m' =>
        rw [ok_bind, ok_bind]
        cases wr m' ob x with
        | error u => rfl
        | ok m'' =>
          rw [ok_bind, ok_bind, moveS_eq mv n k m'' (ib + 1) ie (ob + 1) oe (by omega) (by omega) (by omega) (by omega)]
          congr 1; omega

/-- `move_s`, for both kinds of iterators: as many elements as the shorter range has are moved; the sources are left as a move leaves them. -/
theorem C104_move_s (mv : α → α) (m : List α) (ib n ob k : Nat) (h1 : ib + n ≤ m.length) (h2 : ob + k ≤ m.length) (ho : Disjoint ib (min n k) ob (min n k)) :
    moveS mv (m.length + 1) m ib (ib + n) ob (ob + k) =
      .ok (put (put m ib ((range m ib (min n k)).map mv)) ob (range m ib (min n k)), ob + min n k) ∧
    moveSRandom mv m ib (ib + n) ob (ob + k) =
      .ok (put (put m ib ((range m ib (min n k)).map mv)) ob (range m ib (min n k)), ob + min n k) := by
  have h := moveRange_loop mv (min n k) (m.length + 1) m ib ob (by omega) (by omega) (by omega) ho
  constructor
  · rw [moveS_eq mv (min n k) _ m ib _ ob _ (by omega) (by omega) (by omega) (by omega)]; exact h
  · unfold moveSRandom
    have : (if ib + n - ib < ob + k - ob then ib + n - ib else ob + k - ob) = min n k := by
      split <;> omega
    simp only [this]; exact h
example : moveSRandom (fun _ => 0) [1, 2, 3, 4, 5, 6] 0 (0 + 4) 4 (4 + 2) = .ok ([0, 0, 3, 4, 1, 2], 6) := by rfl

/-! ### multimax, multimin -/

/-- `x` is one of the arguments, none is greater, and the earlier ones are smaller -/
def FirstMax (lt : α → α → Bool) (l : List α) (x : α) : Prop :=
  ∃ u v, l = u ++ x :: v ∧ (∀ y ∈ u, lt y x = true) ∧ (∀ y ∈ v, lt x y = false)
/-- `x` is one of the arguments, none is smaller, and the later ones are greater -/
def LastMin (lt : α → α → Bool) (l : List α) (x : α) : Prop :=
  ∃ u v, l = u ++ x :: v ∧ (∀ y ∈ u, lt y x = false) ∧ (∀ y ∈ v, lt x y = true)

theorem C104_multimax (lt : α → α → Bool) (htr : ∀ a b c, lt a b = true → lt b c = true → lt a c = true)
    (hneg : ∀ a b c, lt a b = false → lt b c = false → lt a c = false) : ∀ (l : List α) (a b : α), FirstMax lt (a :: b :: l) (multimax lt a b l)
  | [], a, b => by
    unfold multimax
    cases h : lt a b with
    | true => rw [if_pos rfl]; exact ⟨[a], [], rfl, by simpa using h, by simp⟩
    | false => rw [if_neg (by simp)]; exact ⟨[], [b], rfl, by simp, by simpa using h⟩
  | c :: l, a, b => by
    obtain ⟨u, v, h1, h2, h3⟩ := C104_multimax lt htr hneg l b c
    unfold multimax
    simp only
    cases h : lt a (multimax lt b c l) with
    | true =>
      rw [if_pos rfl]
      refine ⟨a :: u, v, by rw [h1]; rfl, ?_, h3⟩
      intro y hy
      rcases List.mem_cons.1 hy with rfl | hy
      · exact h
      · exact h2 y hy
    | false =>
      rw [if_neg (by simp)]
      refine ⟨[], b :: c :: l, rfl, by simp, ?_⟩
      intro y hy
      rw [h1] at hy
      rcases List.mem_append.1 hy with hy | hy
      · cases e : lt a y with
        | false => rfl
        | true => have := htr _ _ _ e (h2 y hy); rw [h] at this; cases this
      · rcases List.mem_cons.1 hy with rfl | hy
        · exact h
        · exact hneg _ _ _ h (h3 y hy)
theorem C104_multimin (lt : α → α → Bool) (htr : ∀ a b c, lt a b = true → lt b c = true → lt a c = true)
    (hmix : ∀ a b c, lt a b = true → lt c b = false → lt a c = true) (hneg : ∀ a b c, lt a b = false → lt b c = false → lt a c = false)
    (has : ∀ a b, lt a b = true → lt b a = false) : ∀ (l : List α) (a b : α), LastMin lt (a :: b :: l) (multimin lt a b l)
  | [], a, b => by
    unfold multimin
    cases h : lt a b with
    | true => rw [if_pos rfl]; exact ⟨[], [b], rfl, by simp, by simpa using h⟩
    | false => rw [if_neg (by simp)]; exact ⟨[a], [], rfl, by simpa using h, by simp⟩
  | c :: l, a, b => by
    obtain ⟨u, v, h1, h2, h3⟩ := C104_multimin lt htr hmix hneg has l b c
    unfold multimin
    simp only
    cases h : lt a (multimin lt b c l) with
    | true =>
      rw [if_pos rfl]
      refine ⟨[], b :: c :: l, rfl, by simp, ?_⟩
      intro y hy
      rw [h1] at hy
      rcases List.mem_append.1 hy with hy | hy
      · exact hmix _ _ _ h (h2 y hy)
      · rcases List.mem_cons.1 hy with rfl | hy
        · exact h
        · exact htr _ _ _ h (h3 y hy)
    | false =>
      rw [if_neg (by simp)]
      refine ⟨a :: u, v, by rw [h1]; rfl, ?_, h3⟩
      intro y hy
      rcases List.mem_cons.1 hy with rfl | hy
      · exact h
      · exact h2 y hy
example : multimax (fun (a b : Nat × Nat) => a.1 < b.1) (3, 0) (7, 1) [(2, 2), (7, 3)] = (7, 1) ∧
    multimin (fun (a b : Nat × Nat) => a.1 < b.1) (3, 0) (2, 1) [(2, 2), (7, 3)] = (2, 2) := by decide

end Etl.Algo.Loops
