import Verif.Pair.Model
import Mathlib.Data.Prod.Lex

/-!
# C121: pairs compare lexicographically, `swap` and `exchange` exchange
-/
namespace Etl.Pair

/-! ## Comparisons -/

/-- The operators of a member type compare keys in a totally ordered set. -/
structure Total {α γ : Type} [LinearOrder γ] (key : α → γ) (o : Ops α) : Prop where
  lt : ∀ a b, o.lt a b = true ↔ key a < key b
  gt : ∀ a b, o.gt a b = true ↔ key b < key a
  eq : ∀ a b, o.eq a b = true ↔ key a = key b

/-- C121, comparisons: for all member types whose operators are those of total orders, and all values, the order is the lexicographic one. -/
theorem C121_compare {α β γ δ : Type} [LinearOrder γ] [LinearOrder δ] {f : α → γ} {g : β → δ} {p : Ops α} {q : Ops β} (hp : Total f p) (hq : Total g q) (a b : α × β) :
    (eq p q a b = true ↔ f a.1 = f b.1 ∧ g a.2 = g b.2) ∧ (ne p q a b = true ↔ ¬ (f a.1 = f b.1 ∧ g a.2 = g b.2)) ∧
    (lt p q a b = true ↔ f a.1 < f b.1 ∨ f a.1 = f b.1 ∧ g a.2 < g b.2) ∧ (gt p q a b = true ↔ f b.1 < f a.1 ∨ f b.1 = f a.1 ∧ g b.2 < g a.2) ∧
    (le p q a b = true ↔ f a.1 < f b.1 ∨ f a.1 = f b.1 ∧ g a.2 ≤ g b.2) ∧ (ge p q a b = true ↔ f b.1 < f a.1 ∨ f b.1 = f a.1 ∧ g b.2 ≤ g a.2) := by
  have he : eq p q a b = true ↔ f a.1 = f b.1 ∧ g a.2 = g b.2 := by
    unfold eq
    rw [Bool.and_eq_true, Bool.and_eq_true, hp.eq, Bool.not_eq_true', Bool.not_eq_true', ← Bool.not_eq_true, ← Bool.not_eq_true, hq.lt, hq.gt, not_lt, not_lt, and_assoc]
    exact ⟨fun ⟨h1, h2, h3⟩ => ⟨h1, le_antisymm h3 h2⟩, fun ⟨h1, h2⟩ => ⟨h1, le_of_eq h2.symm, le_of_eq h2⟩⟩
  have hl : ∀ a b : α × β, lt p q a b = true ↔ f a.1 < f b.1 ∨ f a.1 = f b.1 ∧ g a.2 < g b.2 := by
    intro a b
    unfold lt
    rw [Bool.or_eq_true, Bool.and_eq_true, hp.lt, Bool.not_eq_true', ← Bool.not_eq_true, hp.lt, hq.lt, not_lt]
    constructor
    · rintro (h | ⟨h1, h2⟩)
      · exact Or.inl h
      · rcases lt_or_eq_of_le h1 with h | h
        · exact Or.inl h
        · exact Or.inr ⟨h, h2⟩
    · rintro (h | ⟨h1, h2⟩)
      · exact Or.inl h
      · exact Or.inr ⟨le_of_eq h1, h2⟩
  have hn : ∀ a b : α × β, (!lt p q b a) = true ↔ f a.1 < f b.1 ∨ f a.1 = f b.1 ∧ g a.2 ≤ g b.2 := by
    intro a b
    rw [Bool.not_eq_true', ← Bool.not_eq_true, hl]
    constructor
    · intro h
      rcases lt_trichotomy (f a.1) (f b.1) with h1 | h1 | h1
      · exact Or.inl h1
      · exact Or.inr ⟨h1, not_lt.mp fun h2 => h (Or.inr ⟨h1.symm, h2⟩)⟩
      · exact absurd (Or.inl h1) h
    · rintro (h | ⟨h1, h2⟩) (k | ⟨k1, k2⟩)
      · exact lt_asymm h k
      · exact absurd h (by rw [k1]; exact lt_irrefl _)
      · exact absurd k (by rw [h1]; exact lt_irrefl _)
      · exact absurd k2 (not_lt.mpr h2)
  refine ⟨he, ?_, hl a b, hl b a, hn a b, hn b a⟩
  unfold ne; rw [Bool.not_eq_true', ← Bool.not_eq_true, he]

/-- C121, coordinates. -/
theorem C121_coordinate {α : Type} {p : Ops α} (h : ∀ a b, p.eq a b = true ↔ a = b) (a b : α × α) : (coordEq p a b = true ↔ a = b) ∧ (coordNe p a b = true ↔ a ≠ b) := by
  have he : coordEq p a b = true ↔ a = b := by unfold coordEq; rw [Bool.and_eq_true, h, h, Prod.ext_iff]
  refine ⟨he, ?_⟩
  unfold coordNe; rw [Bool.not_eq_true', ← Bool.not_eq_true, he]

/-- Finding: `==` of pairs does not use `==` of the second members: if these cannot be compared (NaN), the pairs are equal as soon as the first members are, whatever `==` says. -/
theorem C121_equal_ignores_equality {α β : Type} (p : Ops α) (q : Ops β) (a b : α × β) (h1 : p.eq a.1 b.1 = true) (h2 : q.lt a.2 b.2 = false) (h3 : q.gt a.2 b.2 = false) : eq p q a b = true ∧ ne p q a b = false := by
  have : eq p q a b = true := by unfold eq; rw [h1, h2, h3]; rfl
  exact ⟨this, by unfold ne; rw [this]; rfl⟩

/-! ## Exchanging -/

theorem swap_eff {α : Type} (m : Store α) (a b j : Nat) : swap m a b j = if j = a then m b else if j = b then m a else m j := by
  simp only [swap, put]
  by_cases h1 : j = b
  · by_cases h2 : j = a
    · rw [if_pos h1, if_pos h2, ← h2, h1]
    · rw [if_pos h1, if_neg h2, if_pos h1]
  · by_cases h2 : j = a
    · rw [if_neg h1, if_pos h2, if_pos h2]
    · rw [if_neg h1, if_neg h2, if_neg h2, if_neg h1]

theorem swapLoop_eff {α : Type} {a b N : Nat} (hd : a + N ≤ b ∨ b + N ≤ a) (n : Nat) : ∀ (i : Nat) (m : Store α), i + n = N → ∀ j,
    swapLoop a b n i m j = if a + i ≤ j ∧ j < a + N then m (b + (j - a)) else if b + i ≤ j ∧ j < b + N then m (a + (j - b)) else m j := by
  induction n with
  | zero =>
    intro i m hi j
    simp only [swapLoop]
    rw [if_neg (by omega), if_neg (by omega)]
  | succ n ih =>
    intro i m hi j
    simp only [swapLoop]
    rw [ih (i + 1) _ (by omega) j]
    simp only [swap_eff]
    by_cases h1 : j = a + i
    · rw [if_neg (by omega), if_neg (by omega), if_pos h1, if_pos (by omega), show b + (j - a) = b + i by omega]
    · by_cases h2 : j = b + i
      · rw [if_neg (by omega), if_neg (by omega), if_neg h1, if_pos h2, if_neg (by omega), if_pos (by omega), show a + (j - b) = a + i by omega]
      · by_cases h3 : a + i ≤ j ∧ j < a + N
        · rw [if_pos (by omega), if_pos h3, if_neg (by omega), if_neg (by omega)]
        · by_cases h4 : b + i ≤ j ∧ j < b + N
          · rw [if_neg (by omega), if_pos (by omega), if_neg h3, if_pos h4, if_neg (by omega), if_neg (by omega)]
          · rw [if_neg (by omega), if_neg (by omega), if_neg h3, if_neg h4, if_neg h1, if_neg h2]

/-- C121, `swap`: two objects, or an object with itself; nothing else changes. -/
theorem C121_swap {α : Type} (m : Store α) (a b : Nat) : swap m a b a = m b ∧ swap m a b b = m a ∧ ∀ j, j ≠ a → j ≠ b → swap m a b j = m j := by
  refine ⟨by rw [swap_eff, if_pos rfl], ?_, fun j h1 h2 => by rw [swap_eff, if_neg h1, if_neg h2]⟩
  rw [swap_eff]; split
  · rename_i h; rw [h]
  · rw [if_pos rfl]

/-- C121, `swap` of arrays of any size that do not overlap: the elements are exchanged, nothing else changes. -/
theorem C121_swap_array {α : Type} (N : Nat) (m : Store α) (a b : Nat) (hd : a + N ≤ b ∨ b + N ≤ a) :
    (∀ i, i < N → swapArray N m a b (a + i) = m (b + i) ∧ swapArray N m a b (b + i) = m (a + i)) ∧ ∀ j, ¬ (a ≤ j ∧ j < a + N) → ¬ (b ≤ j ∧ j < b + N) → swapArray N m a b j = m j := by
  have key := swapLoop_eff (α := α) hd N 0 m (by omega)
  refine ⟨fun i hi => ⟨?_, ?_⟩, fun j h1 h2 => ?_⟩
  · show swapLoop a b N 0 m (a + i) = _
    rw [key, if_pos (by omega), Nat.add_sub_cancel_left]
  · show swapLoop a b N 0 m (b + i) = _
    rw [key, if_neg (by omega), if_pos (by omega), Nat.add_sub_cancel_left]
  · show swapLoop a b N 0 m j = _
    rw [key, if_neg (by omega), if_neg (by omega)]

/-- C121, `pair::swap` and assignment, also with the pair itself. -/
theorem C121_pair {α β : Type} (m1 : Store α) (m2 : Store β) (a b : Nat) :
    ((swapPair m1 m2 a b).1 a, (swapPair m1 m2 a b).2 a) = (m1 b, m2 b) ∧ ((swapPair m1 m2 a b).1 b, (swapPair m1 m2 a b).2 b) = (m1 a, m2 a) ∧
    ((assignPair m1 m2 a b).1 a, (assignPair m1 m2 a b).2 a) = (m1 b, m2 b) ∧
    ∀ j, j ≠ a → ((assignPair m1 m2 a b).1 j, (assignPair m1 m2 a b).2 j) = (m1 j, m2 j) ∧ (j ≠ b → ((swapPair m1 m2 a b).1 j, (swapPair m1 m2 a b).2 j) = (m1 j, m2 j)) := by
  obtain ⟨a1, a2, a3⟩ := C121_swap m1 a b
  obtain ⟨b1, b2, b3⟩ := C121_swap m2 a b
  refine ⟨Prod.ext a1 b1, Prod.ext a2 b2, ?_, fun j hj => ⟨?_, fun hb => Prod.ext (a3 j hj hb) (b3 j hj hb)⟩⟩
  · simp [assignPair, put]
  · simp [assignPair, put, hj]

/-- C121, `exchange`: the old value is returned, the object has the new one, nothing else changes; exchanging an object with itself changes nothing. -/
theorem C121_exchange {α : Type} (m : Store α) (a : Nat) (v : α) :
    (exchange m a fun _ => v).1 = m a ∧ (exchange m a fun _ => v).2 a = v ∧ (∀ j, j ≠ a → (exchange m a fun _ => v).2 j = m j) ∧ (exchange m a fun m => m a) = (m a, m) := by
  refine ⟨rfl, by simp [exchange, put], fun j hj => by simp [exchange, put, hj], ?_⟩
  refine Prod.ext rfl (funext fun j => ?_)
  simp only [exchange, put]
  split
  · rename_i h; rw [h]
  · rfl

/-! ## Examples -/

def intOps : Ops Int := ⟨fun a b => decide (a < b), fun a b => decide (b < a), fun a b => decide (a = b)⟩
example : Total (fun x : Int => x) intOps := ⟨fun _ _ => decide_eq_true_iff, fun _ _ => decide_eq_true_iff, fun _ _ => decide_eq_true_iff⟩
example : lt intOps intOps (1, 5) (2, 0) = true ∧ lt intOps intOps (2, 0) (1, 5) = false ∧ lt intOps intOps (1, 0) (1, 5) = true ∧ le intOps intOps (1, 5) (1, 5) = true ∧ eq intOps intOps (1, 5) (1, 4) = false := by decide
example : (List.range 7).map (swapArray 3 (fun i => 10 * i) 0 4) = [40, 50, 60, 30, 0, 10, 20] := by decide
/-- Partial numbers: `none` is NaN.  The pairs (1, NaN) and (1, 2) are equal, (NaN, 1) and (NaN, 1) are not. -/
example : let o : Ops (Option Int) := ⟨fun a b => match a, b with | some x, some y => decide (x < y) | _, _ => false, fun a b => match a, b with | some x, some y => decide (y < x) | _, _ => false,
      fun a b => match a, b with | some x, some y => decide (x = y) | _, _ => false⟩
    eq o o (some 1, none) (some 1, some 2) = true ∧ eq o o (none, some 1) (none, some 1) = false := by decide

end Etl.Pair
