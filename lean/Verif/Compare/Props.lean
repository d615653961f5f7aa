import Verif.Compare.Model
import Mathlib.Order.Defs.LinearOrder
import Mathlib.Order.Basic
import Mathlib.Tactic.SplitIfs

/-!
# C115: comparisons derived from `<`; enumerations with names

The specification of a comparison: a strict weak order is one that compares keys of a linear order, so `compare` must give what the six relations of the linear order give for the keys.
-/
namespace Etl.Compare

/-- A strict weak order, in the terms of the C++ standard. -/
structure Weak {α : Type} (less : α → α → Bool) : Prop where
  irr : ∀ x, less x x = false
  tr : ∀ x y z, less x y = true → less y z = true → less x z = true
  eqv : ∀ x y z, less x y = false → less y x = false → less y z = false → less z y = false → less x z = false ∧ less z x = false

/-- C115: if `TLess` orders by a key (any linear order, any key function), all seven functions are those of the keys: `lt` is `<`, `gt` is `>`, `lte` is `≤`, `gte` is `≥`, `eq` is equality and `ne` inequality of
the keys, `cmp` is -1, 0 or 1 as the first key is less, equal or greater. -/
theorem C115_compare {α κ : Type} [LinearOrder κ] (key : α → κ) (less : α → α → Bool) (h : ∀ x y, less x y = true ↔ key x < key y) (x y : α) :
    (lt less x y = true ↔ key x < key y) ∧ (gt less x y = true ↔ key y < key x) ∧ (lte less x y = true ↔ key x ≤ key y) ∧ (gte less x y = true ↔ key y ≤ key x) ∧
    (eq less x y = true ↔ key x = key y) ∧ (ne less x y = true ↔ key x ≠ key y) ∧
    (cmp less x y = -1 ↔ key x < key y) ∧ (cmp less x y = 0 ↔ key x = key y) ∧ (cmp less x y = 1 ↔ key y < key x) := by
  have h1 : ∀ x y, less x y = false ↔ key y ≤ key x := fun x y => by
    rw [← Bool.not_eq_true, h, not_lt]
  have e1 : eq less x y = true ↔ key x = key y := by
    unfold eq gte lte gt lt
    rw [Bool.and_eq_true, Bool.not_eq_true', Bool.not_eq_true', h1, h1]
    exact ⟨fun ⟨a, b⟩ => le_antisymm b a, fun e => ⟨e ▸ le_refl _, e ▸ le_refl _⟩⟩
  refine ⟨h x y, h y x, ?_, ?_, e1, ?_, ?_, ?_, ?_⟩
  · unfold lte gt; rw [Bool.not_eq_true', h1]
  · unfold gte lt; rw [Bool.not_eq_true', h1]
  · unfold ne; rw [Bool.not_eq_true', ← Bool.not_eq_true, e1]
  · unfold cmp lt gt
    by_cases a : key x < key y
    · rw [if_pos ((h x y).mpr a)]; simp [a]
    · rw [if_neg (fun e => a ((h x y).mp e))]; split_ifs <;> simp [a]
  · unfold cmp lt gt
    by_cases a : key x < key y
    · rw [if_pos ((h x y).mpr a)]; simp [ne_of_lt a]
    · rw [if_neg (fun e => a ((h x y).mp e))]
      by_cases b : key y < key x
      · rw [if_pos ((h y x).mpr b)]; simp [Ne.symm (ne_of_lt b)]
      · rw [if_neg (fun e => b ((h y x).mp e))]; simp [le_antisymm (not_lt.mp b) (not_lt.mp a)]
  · unfold cmp lt gt
    by_cases a : key x < key y
    · rw [if_pos ((h x y).mpr a)]; simp [lt_asymm a]
    · rw [if_neg (fun e => a ((h x y).mp e))]
      by_cases b : key y < key x
      · rw [if_pos ((h y x).mpr b)]; simp [b]
      · rw [if_neg (fun e => b ((h y x).mp e))]; simp [b]

/-- The same from the axioms of a strict weak order: exactly one of `lt`, `eq`, `gt` holds, `eq` is an equivalence relation, `lte` is a total preorder of which `lt` is the strict part, equal values are interchangeable, and
`cmp` says which case it is. -/
theorem C115_weak {α : Type} {less : α → α → Bool} (h : Weak less) :
    (∀ x y, (lt less x y = true ∧ eq less x y = false ∧ gt less x y = false) ∨ (lt less x y = false ∧ eq less x y = true ∧ gt less x y = false) ∨ (lt less x y = false ∧ eq less x y = false ∧ gt less x y = true)) ∧
    (∀ x, eq less x x = true) ∧ (∀ x y, eq less x y = eq less y x) ∧ (∀ x y z, eq less x y = true → eq less y z = true → eq less x z = true) ∧
    (∀ x y, lte less x y = true ∨ lte less y x = true) ∧ (∀ x y z, lte less x y = true → lte less y z = true → lte less x z = true) ∧
    (∀ x y, lt less x y = (lte less x y && ne less x y)) ∧ (∀ x y z, eq less x y = true → lt less x z = lt less y z ∧ lt less z x = lt less z y) ∧
    (∀ x y, cmp less x y = -cmp less y x) := by
  have asym : ∀ x y, less x y = true → less y x = false := fun x y a => by
    cases b : less y x with
    | false => rfl
    | true => have := h.tr x y x a b; rw [h.irr] at this; exact absurd this (by simp)
  have neg : ∀ x y z, less x y = true → less x z = true ∨ less z y = true := fun x y z a => by
    cases b : less x z with
    | true => exact .inl rfl
    | false =>
      cases c : less z y with
      | true => exact .inr rfl
      | false =>
        exfalso
        have c2 : less z x = false := by
          cases d : less z x with
          | false => rfl
          | true => have := h.tr z x y d a; rw [c] at this; exact absurd this (by simp)
        have c3 : less y z = false := by
          cases d : less y z with
          | false => rfl
          | true => have := h.tr x y z a d; rw [b] at this; exact absurd this (by simp)
        have := (h.eqv x z y b c2 c c3).1
        rw [a] at this; exact absurd this (by simp)
  have eqd : ∀ x y, eq less x y = true ↔ less x y = false ∧ less y x = false := fun x y => by
    unfold eq gte lte gt lt; rw [Bool.and_eq_true, Bool.not_eq_true', Bool.not_eq_true']
  have subst : ∀ x y z, eq less x y = true → less x z = true → less y z = true := fun x y z e a => by
    rcases neg x z y a with b | b
    · rw [((eqd x y).mp e).1] at b; exact absurd b (by simp)
    · exact b
  have subst2 : ∀ x y z, eq less x y = true → less z x = true → less z y = true := fun x y z e a => by
    rcases neg z x y a with b | b
    · exact b
    · rw [((eqd x y).mp e).2] at b; exact absurd b (by simp)
  have sym : ∀ x y, eq less x y = eq less y x := fun x y => by unfold eq gte lte gt lt; rw [Bool.and_comm]
  refine ⟨fun x y => ?_, fun x => (eqd x x).mpr ⟨h.irr x, h.irr x⟩, sym, fun x y z a b => ?_, fun x y => ?_, fun x y z a b => ?_, fun x y => ?_, fun x y z e => ?_, fun x y => ?_⟩
  · unfold eq gte lte gt lt
    cases a : less x y with
    | true => simp [asym x y a]
    | false => cases b : less y x <;> simp
  · obtain ⟨a1, a2⟩ := (eqd x y).mp a
    obtain ⟨b1, b2⟩ := (eqd y z).mp b
    exact (eqd x z).mpr (h.eqv x y z a1 a2 b1 b2)
  · unfold lte gt
    cases a : less y x with
    | false => simp
    | true => simp [asym y x a]
  · unfold lte gt at *
    rw [Bool.not_eq_true'] at *
    cases c : less z x with
    | false => rfl
    | true =>
      rcases neg z x y c with d | d
      · rw [b] at d; exact absurd d (by simp)
      · rw [a] at d; exact absurd d (by simp)
  · unfold ne eq gte lte gt lt
    cases a : less x y with
    | true => simp [asym x y a]
    | false => cases b : less y x <;> simp
  · have e2 : eq less y x = true := by rw [← sym]; exact e
    unfold lt
    constructor
    · cases a : less x z with
      | true => exact (subst x y z e a).symm
      | false => cases b : less y z with
        | false => rfl
        | true => rw [subst y x z e2 b] at a; exact absurd a (by simp)
    · cases a : less z x with
      | true => exact (subst2 x y z e a).symm
      | false => cases b : less z y with
        | false => rfl
        | true => rw [subst2 y x z e2 b] at a; exact absurd a (by simp)
  · unfold cmp lt gt
    cases a : less x y with
    | true => simp [asym x y a]
    | false => cases b : less y x <;> simp

/-! ## Enumerations -/

theorem cStr_of_mem (l : List (Int × String)) (hn : (l.map Prod.fst).Nodup) : ∀ {k : Int} {s : String}, (k, s) ∈ l → cStr l k = s := by
  induction l with
  | nil => intro k s h; simp at h
  | cons x l ih =>
    intro k s h
    obtain ⟨k0, s0⟩ := x
    simp only [List.map_cons, List.nodup_cons] at hn
    simp only [cStr]
    rcases List.mem_cons.mp h with e | e
    · injection e with e1 e2; rw [if_pos e1, e2]
    · rw [if_neg (by rintro rfl; exact hn.1 (List.mem_map.mpr ⟨_, e, rfl⟩))]
      exact ih hn.2 e

theorem cStr_of_not_mem (l : List (Int × String)) : ∀ {k : Int}, (∀ s, (k, s) ∉ l) → cStr l k = "?" := by
  induction l with
  | nil => intro k _; rfl
  | cons x l ih =>
    intro k h
    obtain ⟨k0, s0⟩ := x
    simp only [cStr]
    rw [if_neg (by rintro rfl; exact h s0 (by simp))]
    exact ih (fun s hs => h s (List.mem_cons_of_mem _ hs))

theorem fits_mono {n m : Nat} (h : n ≤ m) {neg : Bool} {v : Int} (hf : fits n neg v = true) : fits m neg v = true := by
  unfold fits at *
  have : (2 : Int) ^ n ≤ 2 ^ m := by exact_mod_cast Nat.pow_le_pow_right (by omega) h
  simp only [Bool.and_eq_true, decide_eq_true_eq] at *
  cases neg <;> simp_all <;> omega

theorem allFit_mem {neg : Bool} {n : Nat} (l : List Int) : allFit neg n l = true ↔ ∀ x ∈ l, fits n neg x = true := by
  induction l with
  | nil => simp [allFit]
  | cons y l ih => simp [allFit, ih]

theorem width_fits (d : Decl) (neg : Bool) (fuel : Nat) : ∀ n, (∀ x ∈ d.consts, fits (n + fuel) neg x = true) → ∀ x ∈ d.consts, fits (width d neg fuel n) neg x = true := by
  induction fuel with
  | zero => intro n h; exact h
  | succ fuel ih =>
    intro n h
    simp only [width]
    split
    · rename_i e; exact (allFit_mem _).mp e
    · exact ih (n + 1) (by rw [show n + 1 + fuel = n + (fuel + 1) by omega]; exact h)

theorem fits64 (d : Decl) (h : (∀ x ∈ d.consts, 0 ≤ x ∧ x < 2 ^ 64) ∨ ∀ x ∈ d.consts, -2 ^ 63 ≤ x ∧ x < 2 ^ 63) : ∀ x ∈ d.consts, fits 64 d.neg x = true := by
  intro x hx
  unfold fits
  rw [Bool.and_eq_true, decide_eq_true_eq, decide_eq_true_eq]
  rcases h with h | h
  · have := h x hx
    split <;> omega
  · have := h x hx
    by_cases h0 : x < 0
    · have hn : d.neg = true := by unfold Decl.neg; exact List.any_eq_true.mpr ⟨x, hx, by simpa using h0⟩
      rw [hn, if_pos rfl]; omega
    · split <;> omega

/-- C115: for every declaration whose enumerators fit in 64 bits, every enumerator survives the conversion from and to the value type, `c_str()` of a named value is its name and of any other value `"?"`, the default
constructor gives the enumeration value 0 whatever the enumerators. -/
theorem C115_enum_type (d : Decl) (h64 : (∀ x ∈ d.consts, 0 ≤ x ∧ x < 2 ^ 64) ∨ ∀ x ∈ d.consts, -2 ^ 63 ≤ x ∧ x < 2 ^ 63) :
    (∀ x ∈ d.consts, (toEnum d x).map getValue = some x) ∧ (∀ k s, (k, s) ∈ d.names → cStr d.names k = s) ∧ (∀ v, (∀ s, (v, s) ∉ d.names) → cStr d.names v = "?") ∧
    (∀ v e, toEnum d v = some e → getValue e = v) ∧ dfltEnum d = some 0 := by
  have h := fits64 d h64
  refine ⟨fun x hx => ?_, fun k s hk => cStr_of_mem _ d.inj hk, fun v hv => cStr_of_not_mem _ hv, fun v e he => ?_, ?_⟩
  · have := fits_mono (Nat.le_max_right 1 _) (width_fits d d.neg 64 0 (by simpa using h) x hx)
    unfold toEnum; rw [if_pos this]; rfl
  · unfold toEnum at he
    split at he
    · injection he with e; exact e.symm
    · cases he
  · unfold dfltEnum toEnum
    rw [if_pos]
    unfold fits
    generalize max 1 (width d d.neg 64 0) = n
    have : (0 : Int) < 2 ^ n := by exact_mod_cast Nat.two_pow_pos _
    cases d.neg <;> simp <;> omega

/-! ## Examples and findings -/

/-- Strings ordered by length. -/
example : ∀ x y : String, decide (x.length < y.length) = true ↔ x.length < y.length := fun x y => by simp
example : cmp (fun x y : String => decide (x.length < y.length)) "abc" "de" = 1 ∧ eq (fun x y : String => decide (x.length < y.length)) "abc" "xyz" = true := by decide +kernel
example : Weak (fun x y : Nat × Nat => decide (x.1 < y.1)) := ⟨by simp, by intro x y z; simp; omega, by intro x y z; simp; omega⟩

/-- The compass of the documentation. -/
def compass : Decl := ⟨[0, 180, 90, 270], [(0, "North"), (180, "South"), (90, "East"), (270, "West")], by decide⟩
example : ∀ x ∈ compass.consts, 0 ≤ x ∧ x < 2 ^ 64 := by decide +kernel
example : toEnum compass 3 = some 3 ∧ cStr compass.names 3 = "?" ∧ cStr compass.names 90 = "East" := by decide +kernel

/-- `three_way_compare<int, etl::greater<int>>(1, 2)` is -1: the given order is ignored. -/
theorem three_way_ignores_less : ∃ (dflt less : Nat → Nat → Bool), threeWay dflt less 1 2 ≠ cmp less 1 2 := ⟨fun x y => decide (x < y), fun x y => decide (y < x), by decide⟩
/-- With the default order it is right. -/
theorem C115_three_way_partial {α : Type} (dflt : α → α → Bool) (x y : α) : threeWay dflt dflt x y = cmp dflt x y := rfl
/-- A number outside the range of the enumeration cannot be converted: `CompassDirection(512)` is undefined, and so is -1. -/
theorem enum_out_of_range : toEnum compass 511 = some 511 ∧ toEnum compass 512 = none ∧ toEnum compass (-1) = none := by decide +kernel

end Etl.Compare
