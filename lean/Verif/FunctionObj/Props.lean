import Verif.FunctionObj.Model
import Mathlib.Tactic.Positivity
import Mathlib.Tactic.Linarith
import Mathlib.Tactic.Ring
import Mathlib.Tactic.NormNum

/-!
# C119: the function objects of `functional.h` do what their names say
-/
namespace Etl.FunctionObj

/-! ## Comparisons -/

/-- The operators of `T` compare keys in a totally ordered set. -/
structure Total {α γ : Type} [LinearOrder γ] (key : α → γ) (lt eq : α → α → Bool) : Prop where
  lt : ∀ a b, lt a b = true ↔ key a < key b
  eq : ∀ a b, eq a b = true ↔ key a = key b

/-- C119, comparisons of one type: for every type whose `<` and `==` are those of a total order, and all values. -/
theorem C119_compare {α γ : Type} [LinearOrder γ] {key : α → γ} {lt eq : α → α → Bool} (h : Total key lt eq) (a b : α) :
    (less lt a b = true ↔ key a < key b) ∧ (lessEqual lt a b = true ↔ key a ≤ key b) ∧ (greater lt a b = true ↔ key b < key a) ∧ (greaterEqual lt a b = true ↔ key b ≤ key a) ∧
      (equalTo eq a b = true ↔ key a = key b) ∧ (notEqualTo eq a b = true ↔ key a ≠ key b) := by
  have h1 := h.lt a b; have h2 := h.lt b a; have h3 := h.eq a b
  refine ⟨h1, ?_, h2, ?_, h3, ?_⟩
  · unfold lessEqual; rw [← not_lt, ← h2]; simp
  · unfold greaterEqual; rw [← not_lt, ← h1]; simp
  · unfold notEqualTo; rw [Ne, ← h3]; simp

/-- The operators between two types compare keys in a totally ordered set. -/
structure TotalV {α β γ : Type} [LinearOrder γ] (f : α → γ) (g : β → γ) (o : Ops α β) : Prop where
  lt : ∀ a b, o.lt a b = true ↔ f a < g b
  tl : ∀ a b, o.tl b a = true ↔ g b < f a
  eq : ∀ a b, o.eq a b = true ↔ f a = g b

/-- C119 (partial), the transparent comparisons: all but `greater_equal<void>`, which is false of the code (`greater_equal_void_is_greater`). -/
theorem C119_transparent_partial {α β γ : Type} [LinearOrder γ] {f : α → γ} {g : β → γ} {o : Ops α β} (h : TotalV f g o) (a : α) (b : β) :
    (lessV o a b = true ↔ f a < g b) ∧ (lessEqualV o a b = true ↔ f a ≤ g b) ∧ (greaterV o a b = true ↔ g b < f a) ∧ (equalToV o a b = true ↔ f a = g b) ∧
      (notEqualToV o a b = true ↔ f a ≠ g b) ∧ (f a ≠ g b → (greaterEqualV o a b = true ↔ g b ≤ f a)) := by
  have h1 := h.lt a b; have h2 := h.tl a b; have h3 := h.eq a b
  refine ⟨h1, ?_, h2, h3, ?_, fun hn => ?_⟩
  · unfold lessEqualV; rw [← not_lt, ← h2]; simp
  · unfold notEqualToV; rw [Ne, ← h3]; simp
  · unfold greaterEqualV; rw [h2]; exact ⟨fun q => le_of_lt q, fun q => lt_of_le_of_ne q (Ne.symm hn)⟩

/-- What `greater_equal<void>` computes is `>`: for every pair of equal values it is false. -/
theorem C119_greater_equal_void_is_greater {α β γ : Type} [LinearOrder γ] {f : α → γ} {g : β → γ} {o : Ops α β} (h : TotalV f g o) (a : α) (b : β) :
    (greaterEqualV o a b = true ↔ g b < f a) ∧ (f a = g b → greaterEqualV o a b = false) := by
  have h2 := h.tl a b
  refine ⟨h2, fun e => ?_⟩
  unfold greaterEqualV
  cases hq : o.tl b a
  · rfl
  · have := h2.mp hq; rw [e] at this; exact absurd this (lt_irrefl _)

/-- Without totality `less_equal` and `greater_equal` hold of values that cannot be compared: `less_equal<double>()(NaN, 1.0)` is true. -/
theorem C119_not_comparable {α : Type} (lt : α → α → Bool) (a b : α) (h1 : lt a b = false) (h2 : lt b a = false) : lessEqual lt a b = true ∧ greaterEqual lt a b = true := by
  unfold lessEqual greaterEqual; rw [h1, h2]; exact ⟨rfl, rfl⟩

/-- C119, binders: counting with `bind2nd(less, v)` counts the elements below `v`, with `bind1st(less, v)` those above. -/
theorem C119_bind {α γ : Type} [LinearOrder γ] {key : α → γ} {lt eq : α → α → Bool} (h : Total key lt eq) (v : α) (xs : List α) :
    xs.countP (bind2nd (less lt) v) = xs.countP (fun x => decide (key x < key v)) ∧ xs.countP (bind1st (less lt) v) = xs.countP (fun x => decide (key v < key x)) := by
  constructor <;> (apply List.countP_congr; intro x _; rw [decide_eq_true_iff])
  · exact h.lt x v
  · exact h.lt v x
/-- For every function. -/
theorem C119_bind_any {α β γ : Type} (f : α → β → γ) (a : α) (b : β) : bind1st f a b = f a b ∧ bind2nd f b a = f a b := ⟨rfl, rfl⟩

/-! ## Arithmetic -/

/-- `r` is the value of the type of `w` bits that differs from `z` by a multiple of `2 ^ w`. -/
structure IsOf (w : Nat) (sg : Bool) (z r : Int) : Prop where
  lo : (if sg then -2 ^ (w - 1) else 0) ≤ r
  hi : r < (if sg then 2 ^ (w - 1) else 2 ^ w)
  same : ∃ k, r = z + k * 2 ^ w

theorem two_pow {w : Nat} (h : 1 ≤ w) : (2 : Int) ^ w = 2 * 2 ^ (w - 1) := by
  obtain ⟨n, rfl⟩ : ∃ n, w = n + 1 := ⟨w - 1, by omega⟩
  rw [Nat.add_sub_cancel, pow_succ, mul_comm]

theorem conv_isOf {w : Nat} (hw : 1 ≤ w) (sg : Bool) (z : Int) : IsOf w sg z (conv w sg z) := by
  have hp : (0 : Int) < 2 ^ w := by positivity
  have h0 := Int.emod_nonneg z (ne_of_gt hp)
  have h1 := Int.emod_lt_of_pos z hp
  have h2 := Int.emod_add_mul_ediv z (2 ^ w)
  have h3 := two_pow hw
  have e1 : z % 2 ^ w = z + (-(z / 2 ^ w)) * 2 ^ w := by rw [neg_mul, mul_comm (z / 2 ^ w)]; omega
  have e2 : z % 2 ^ w - 2 ^ w = z + (-(z / 2 ^ w) - 1) * 2 ^ w := by rw [sub_mul, one_mul]; omega
  unfold conv
  cases sg with
  | false =>
    simp only [Bool.false_eq_true, false_and, if_false]
    exact ⟨by simpa using h0, by simpa using h1, _, e1⟩
  | true =>
    simp only [true_and]
    split
    · exact ⟨by simp only [if_true]; omega, by simp only [if_true]; omega, _, e2⟩
    · exact ⟨by simp only [if_true]; omega, by simp only [if_true]; omega, _, e1⟩

/-- There is only one. -/
theorem isOf_unique {w : Nat} (hw : 1 ≤ w) {sg : Bool} {z r s : Int} (h1 : IsOf w sg z r) (h2 : IsOf w sg z s) : r = s := by
  obtain ⟨a1, a2, k, hk⟩ := h1
  obtain ⟨b1, b2, l, hl⟩ := h2
  have h3 := two_pow hw
  have hp : (0 : Int) < 2 ^ (w - 1) := by positivity
  have key : (k - l) * 2 ^ w = r - s := by rw [sub_mul]; omega
  have hb : -2 ^ w < r - s ∧ r - s < 2 ^ w := by cases sg <;> simp at a1 a2 b1 b2 <;> constructor <;> omega
  rw [← key] at hb
  have hq : (0 : Int) < 2 ^ w := by omega
  have g1 : -1 < k - l := by by_contra hh; nlinarith
  have g2 : k - l < 1 := by by_contra hh; nlinarith
  have : k - l = 0 := by omega
  rw [this] at key; omega

theorem isOf_pw {w : Nat} {sg : Bool} {z y r : Int} (h : IsOf w sg y r) (h2 : ∃ k, y = z + k * 2 ^ pw w) : IsOf w sg z r := by
  obtain ⟨a1, a2, k, hk⟩ := h
  obtain ⟨l, hl⟩ := h2
  refine ⟨a1, a2, l * 2 ^ (pw w - w) + k, ?_⟩
  have : (2 : Int) ^ pw w = 2 ^ (pw w - w) * 2 ^ w := by rw [← pow_add]; congr 1; unfold pw; omega
  rw [this] at hl
  rw [add_mul, mul_assoc]; omega

/-- The operation whose exact value is `z` is undefined if the type computed in is signed and has not the value; otherwise its result is the value of `T`. -/
def Means (w : Nat) (sg : Bool) (z : Int) (r : Res Int) : Prop :=
  if (sg = true ∨ w < 32) ∧ ¬ (-2 ^ (max w 32 - 1) ≤ z ∧ z < 2 ^ (max w 32 - 1)) then r = .error .overflow else ∃ v, r = .ok v ∧ IsOf w sg z v

theorem fit_means {w : Nat} (hw : 1 ≤ w) (sg : Bool) (z : Int) : Means w sg z (fit w sg z) := by
  unfold Means fit
  have hp : psg w sg = true ↔ (sg = true ∨ w < 32) := by unfold psg; simp
  have hr : inRange (pw w) true z = true ↔ (-2 ^ (max w 32 - 1) ≤ z ∧ z < 2 ^ (max w 32 - 1)) := by unfold inRange pw; simp
  by_cases h1 : psg w sg = true
  · rw [if_pos h1]
    by_cases h2 : inRange (pw w) true z = true
    · rw [if_neg (fun q => q.2 (hr.mp h2)), if_pos h2]; exact ⟨_, rfl, conv_isOf hw sg z⟩
    · rw [if_pos ⟨hp.mp h1, fun q => h2 (hr.mpr q)⟩, if_neg h2]
  · rw [if_neg (fun q => h1 (hp.mpr q.1)), if_neg h1]
    exact ⟨_, rfl, isOf_pw (conv_isOf hw sg _) (conv_isOf (by unfold pw; omega) false z).same⟩

/-- C119, arithmetic: for every integral type of `w` bits and all values.  `Int.tdiv` and `Int.tmod` truncate. -/
theorem C119_arith {w : Nat} (hw : 1 ≤ w) (sg : Bool) (x y : Int) :
    Means w sg (x + y) (plus w sg x y) ∧ Means w sg (x - y) (minus w sg x y) ∧ Means w sg (-x) (negate w sg x) ∧ Means w sg (x * y) (multiplies w sg x y) ∧
      (y = 0 → divides w sg x y = .error .divByZero ∧ modulus w sg x y = .error .divByZero) ∧ (y ≠ 0 → Means w sg (x.tdiv y) (divides w sg x y)) := by
  refine ⟨fit_means hw sg _, fit_means hw sg _, fit_means hw sg _, fit_means hw sg _, fun h => ?_, fun h => ?_⟩
  · unfold divides modulus; rw [if_pos h, if_pos h]; exact ⟨rfl, rfl⟩
  · unfold divides; rw [if_neg h]; exact fit_means hw sg _

theorem tdiv_range {w : Nat} {x y : Int} (hx : -2 ^ (w - 1) ≤ x ∧ x < 2 ^ (w - 1)) (h : ¬ (x = -2 ^ (w - 1) ∧ y = -1)) : -2 ^ (w - 1) ≤ x.tdiv y ∧ x.tdiv y < 2 ^ (w - 1) := by
  have h1 : (x.tdiv y).natAbs = x.natAbs / y.natAbs := by rw [Int.natAbs_tdiv]; rfl
  have h2 := Nat.div_le_self x.natAbs y.natAbs
  by_cases hm : x = -2 ^ (w - 1)
  · have hy : y ≠ -1 := fun q => h ⟨hm, q⟩
    by_cases h0 : 0 ≤ y
    · have : x.tdiv y ≤ 0 := by
        have hp : (0 : Int) < 2 ^ (w - 1) := by positivity
        have := Int.tdiv_nonneg (a := -x) (b := y) (by omega) h0
        rw [Int.neg_tdiv] at this; omega
      have hp : (0 : Int) < 2 ^ (w - 1) := by positivity
      omega
    · have h3 : 2 ≤ y.natAbs := by omega
      have h4 : x.natAbs / y.natAbs ≤ x.natAbs / 2 := Nat.div_le_div_left h3 (by omega)
      have hp : (0 : Int) < 2 ^ (w - 1) := by positivity
      omega
  · omega

/-- C119, remainder: for values of `T`, the second not 0, the one undefined case is the least value of a signed `T` of 32 bits or more with -1; otherwise the result is the exact remainder, with the sign of the first operand. -/
theorem C119_modulus {w : Nat} (hw : 1 ≤ w) (sg : Bool) {x y : Int} (hx : inRange w sg x = true) (hy : inRange w sg y = true) (h0 : y ≠ 0) :
    (sg = true ∧ 32 ≤ w ∧ x = -2 ^ (w - 1) ∧ y = -1 → modulus w sg x y = .error .overflow) ∧
    (¬ (sg = true ∧ 32 ≤ w ∧ x = -2 ^ (w - 1) ∧ y = -1) → modulus w sg x y = .ok (x.tmod y)) := by
  have hp : (0 : Int) < 2 ^ (w - 1) := by positivity
  have h3 := two_pow hw
  have f1 := fit_means hw sg (x.tdiv y)
  have f2 := fit_means hw sg (x.tmod y)
  have hd : inRange w sg x = true → ¬ (sg = true ∧ 32 ≤ w ∧ x = -2 ^ (w - 1) ∧ y = -1) → ¬ ((sg = true ∨ w < 32) ∧ ¬ (-2 ^ (max w 32 - 1) ≤ x.tdiv y ∧ x.tdiv y < 2 ^ (max w 32 - 1))) := by
    rintro hx hn ⟨g1, g2⟩
    apply g2
    rcases Nat.lt_or_ge w 32 with hl | hl
    · have e : (2 : Int) ^ w ≤ 2 ^ (max w 32 - 1) := pow_le_pow_right₀ (by norm_num) (by omega)
      have hb : -2 ^ (max w 32 - 1) < x ∧ x < 2 ^ (max w 32 - 1) := by
        unfold inRange at hx; cases sg <;> simp at hx <;> omega
      exact tdiv_range (w := max w 32) ⟨by omega, hb.2⟩ (fun q => by omega)
    · have hs : sg = true := by rcases g1 with g | g; exacts [g, absurd g (by omega)]
      rw [show max w 32 = w by omega]
      unfold inRange at hx; rw [if_pos hs] at hx
      exact tdiv_range (by simpa using hx) (fun q => hn ⟨hs, hl, q⟩)
  have habs : (x.tmod y).natAbs = x.natAbs % y.natAbs := by rw [Int.natAbs_tmod]
  have hle := Nat.mod_le x.natAbs y.natAbs
  have hlt := Nat.mod_lt x.natAbs (show 0 < y.natAbs by omega)
  have hsg : 0 ≤ x → 0 ≤ x.tmod y := fun h => Int.tmod_nonneg y h
  refine ⟨fun h => ?_, fun hn => ?_⟩
  · obtain ⟨g1, g2, g3, g4⟩ := h
    have ht : x.tdiv y = 2 ^ (w - 1) := by rw [g3, g4, Int.tdiv_neg, Int.neg_tdiv, Int.tdiv_one, neg_neg]
    unfold Means at f1
    rw [if_pos ⟨Or.inl g1, by rw [ht, show max w 32 = w by omega]; omega⟩] at f1
    unfold modulus; rw [if_neg h0, f1]
  · unfold Means at f1 f2
    rw [if_neg (hd hx hn)] at f1
    obtain ⟨v, e1, _⟩ := f1
    have hself : IsOf w sg (x.tmod y) (x.tmod y) := by
      refine ⟨?_, ?_, 0, by simp⟩ <;> (unfold inRange at hx hy; cases sg <;> simp at hx hy ⊢) <;> omega
    have hno : ¬ ((sg = true ∨ w < 32) ∧ ¬ (-2 ^ (max w 32 - 1) ≤ x.tmod y ∧ x.tmod y < 2 ^ (max w 32 - 1))) := by
      rintro ⟨g1, g2⟩
      apply g2
      rcases Nat.lt_or_ge w 32 with hl | hl
      · have e : (2 : Int) ^ w ≤ 2 ^ (max w 32 - 1) := pow_le_pow_right₀ (by norm_num) (by omega)
        have a := hself.lo; have b := hself.hi
        cases sg <;> simp at a b <;> omega
      · have hs : sg = true := by rcases g1 with g | g; exacts [g, absurd g (by omega)]
        have a := hself.lo; have b := hself.hi
        rw [if_pos hs] at a b
        rw [show max w 32 = w by omega]; exact ⟨a, b⟩
    rw [if_neg hno] at f2
    obtain ⟨r, e2, h2⟩ := f2
    unfold modulus; rw [if_neg h0, e1]
    show fit w sg (x.tmod y) = _
    rw [e2, isOf_unique hw h2 hself]

/-! ## Bits -/

theorem testBit_div (z : Int) (i : Nat) : z.testBit i = decide (z / 2 ^ i % 2 = 1) := by
  cases z with
  | ofNat m =>
    show m.testBit i = _
    rw [Nat.testBit_eq_decide_div_mod_eq]
    have : (Int.ofNat m) / 2 ^ i % 2 = ((m / 2 ^ i % 2 : Nat) : Int) := by push_cast; rfl
    rw [this]
    apply decide_eq_decide.mpr; omega
  | negSucc m =>
    show (!m.testBit i) = _
    rw [Nat.testBit_eq_decide_div_mod_eq, Int.negSucc_ediv m (by positivity)]
    have : ((m : Int).ediv (2 ^ i)) = ((m / 2 ^ i : Nat) : Int) := by push_cast; rfl
    rw [← decide_not]
    apply decide_eq_decide.mpr
    have h2 : (m : Int) / 2 ^ i = ((m / 2 ^ i : Nat) : Int) := by push_cast; rfl
    first | rw [this] | rw [h2]
    omega

theorem testBit_add_mul {z k : Int} {w i : Nat} (h : i < w) : (z + k * 2 ^ w).testBit i = z.testBit i := by
  rw [testBit_div, testBit_div]
  have e : (2 : Int) ^ w = 2 ^ (w - i) * 2 ^ i := by rw [← pow_add]; congr 1; omega
  have e2 : (2 : Int) ^ (w - i) = 2 * 2 ^ (w - i - 1) := two_pow (by omega)
  rw [e, ← mul_assoc, Int.add_mul_ediv_right _ _ (by positivity), e2, show k * (2 * 2 ^ (w - i - 1)) = 2 * (k * 2 ^ (w - i - 1)) by ring, Int.add_mul_emod_self_left]

theorem isOf_bit {w : Nat} {sg : Bool} {z r : Int} (h : IsOf w sg z r) {i : Nat} (hi : i < w) : r.testBit i = z.testBit i := by
  obtain ⟨_, _, k, hk⟩ := h; rw [hk, testBit_add_mul hi]

/-- The operations on bits give the value of `T` whose bits are as named. -/
theorem C119_bits {w : Nat} (hw : 1 ≤ w) (sg : Bool) (x y : Int) :
    (inRange w sg (bitAnd w sg x y) = true ∧ ∀ i, i < w → (bitAnd w sg x y).testBit i = (x.testBit i && y.testBit i)) ∧
    (inRange w sg (bitOr w sg x y) = true ∧ ∀ i, i < w → (bitOr w sg x y).testBit i = (x.testBit i || y.testBit i)) ∧
    (inRange w sg (bitXor w sg x y) = true ∧ ∀ i, i < w → (bitXor w sg x y).testBit i = (x.testBit i != y.testBit i)) ∧
    (inRange w sg (bitNot w sg x) = true ∧ ∀ i, i < w → (bitNot w sg x).testBit i = !x.testBit i) := by
  have key : ∀ z, IsOf w sg z (conv w sg (conv (pw w) (psg w sg) z)) := fun z => isOf_pw (conv_isOf hw sg _) (conv_isOf (by unfold pw; omega) _ z).same
  have rng : ∀ {z r}, IsOf w sg z r → inRange w sg r = true := by
    intro z r h
    have a := h.lo; have b := h.hi
    unfold inRange; cases sg <;> simp at a b ⊢ <;> exact ⟨a, b⟩
  refine ⟨⟨rng (key _), fun i hi => ?_⟩, ⟨rng (key _), fun i hi => ?_⟩, ⟨rng (key _), fun i hi => ?_⟩, ⟨rng (key _), fun i hi => ?_⟩⟩
  · exact (isOf_bit (key _) hi).trans (Int.testBit_land _ _ _)
  · exact (isOf_bit (key _) hi).trans (Int.testBit_lor _ _ _)
  · exact (isOf_bit (key _) hi).trans (Int.testBit_lxor _ _ _)
  · exact (isOf_bit (key _) hi).trans (Int.testBit_lnot _ _)

/-- The logical operations give 1 or 0, in a type that has the value 1. -/
theorem C119_logical {w : Nat} (sg : Bool) (hw : 1 ≤ w) (h1 : sg = true → 2 ≤ w) (x y : Int) :
    logicalAnd w sg x y = (if x ≠ 0 ∧ y ≠ 0 then 1 else 0) ∧ logicalOr w sg x y = (if x ≠ 0 ∨ y ≠ 0 then 1 else 0) ∧ logicalNot w sg x = (if x = 0 then 1 else 0) := by
  have key : ∀ b : Int, b = 0 ∨ b = 1 → conv w sg b = b := by
    intro b hb
    have h3 := two_pow hw
    have hp : (0 : Int) < 2 ^ (w - 1) := by positivity
    refine isOf_unique hw (conv_isOf hw sg b) ⟨?_, ?_, 0, by simp⟩
    · cases sg <;> simp <;> omega
    · cases sg with
      | false => simp; omega
      | true =>
        have h4 := two_pow (w := w - 1) (by have := h1 rfl; omega)
        have hq : (0 : Int) < 2 ^ (w - 1 - 1) := by positivity
        simp only [if_true]; omega
  refine ⟨key _ ?_, key _ ?_, key _ ?_⟩ <;> (split <;> simp)

/-! ## Examples and findings -/

example : Total (fun x : Int => x) (fun a b => decide (a < b)) (fun a b => decide (a = b)) := ⟨fun _ _ => decide_eq_true_iff, fun _ _ => decide_eq_true_iff⟩
example : TotalV (fun x : Int => x) (fun n : Nat => (n : Int)) ⟨fun a b => decide (a < b), fun b a => decide ((b : Int) < a), fun a b => decide (a = b)⟩ :=
  ⟨fun _ _ => decide_eq_true_iff, fun _ _ => decide_eq_true_iff, fun _ _ => decide_eq_true_iff⟩
/-- Bytes wrap, `int` overflows, and so does the product of two 16 bit values. -/
example : plus 8 false 200 100 = .ok 44 ∧ plus 8 true 100 100 = .ok (-56) ∧ plus 32 true 2147483647 1 = .error .overflow ∧ plus 32 false 4294967295 1 = .ok 0 ∧
    multiplies 16 false 65535 65535 = .error .overflow ∧ minus 64 false 0 1 = .ok 18446744073709551615 := by decide +kernel
example : divides 32 true (-7) 2 = .ok (-3) ∧ modulus 32 true (-7) 2 = .ok (-1) ∧ divides 32 true (-2147483648) (-1) = .error .overflow ∧ divides 8 true (-128) (-1) = .ok (-128) ∧ modulus 8 true (-128) (-1) = .ok 0 := by decide +kernel
example : bitNot 8 false 15 = 240 ∧ bitNot 8 true 15 = -16 ∧ bitAnd 8 true (-1) 6 = 6 ∧ logicalNot 8 false 0 = 1 := by decide +kernel
/-- `greater_equal<>()(3, 3)` is false, `greater_equal<int>()(3, 3)` is true. -/
theorem greater_equal_differs : greaterEqualV ⟨fun a b : Nat => decide (a < b), fun b a => decide (b < a), fun a b => decide (a = b)⟩ 3 3 = false ∧ greaterEqual (fun a b : Nat => decide (a < b)) 3 3 = true := by decide

end Etl.FunctionObj
