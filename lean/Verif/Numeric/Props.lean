import Verif.Numeric.Model
import Mathlib.Tactic.Linarith
import Mathlib.Tactic.Ring
import Mathlib.Tactic.FieldSimp
/-!
# C101: iota, midpoint, lerp
-/
namespace Etl.Numeric

/-! ## Specification -/

/-- `std::midpoint` of integers: half way from `a` to `b`, rounded towards `a`. -/
def midSpec (a b : Int) : Int := a + (b - a).tdiv 2

example : midSpec 0 5 = 2 ∧ midSpec 5 0 = 3 ∧ midSpec (-128) 127 = -1 ∧ midSpec 127 (-128) = 0 := by decide

theorem midSpec_le {a b : Int} (h : a ≤ b) : midSpec a b = a + (b - a) / 2 := by
  rw [midSpec, Int.tdiv_eq_ediv_of_nonneg (by omega)]

theorem midSpec_gt {a b : Int} (h : b < a) : midSpec a b = a - (a - b) / 2 := by
  rw [midSpec, show b - a = -(a - b) by omega, Int.neg_tdiv, Int.tdiv_eq_ediv_of_nonneg (by omega)]
  omega

/-! ## Words -/

theorem two_pow_pred (w : Nat) (hw : 0 < w) : (2 : Int) ^ w = 2 * 2 ^ (w - 1) := by
  obtain ⟨k, rfl⟩ := Nat.exists_eq_succ_of_ne_zero (Nat.pos_iff_ne_zero.1 hw)
  rw [Nat.succ_sub_one, pow_succ]; ring

theorem natCast_pow2 (w : Nat) : ((2 ^ w : Nat) : Int) = 2 ^ w := by push_cast; rfl

/-- the two readings of a word -/
theorem readings (w : Nat) (hw : 0 < w) (a : BitVec w) : (a.toInt = a.toNat ∧ (a.toNat : Int) < 2 ^ (w - 1)) ∨ (a.toInt = (a.toNat : Int) - 2 ^ w ∧ 2 ^ (w - 1) ≤ (a.toNat : Int) ∧ (a.toNat : Int) < 2 ^ w) := by
  have h1 := two_pow_pred w hw
  have h2 := natCast_pow2 w
  have h3 := a.isLt
  have h4 : (a.toNat : Int) < 2 ^ w := by rw [← h2]; exact_mod_cast h3
  rw [BitVec.toInt_eq_toNat_cond]
  split_ifs with h
  · left
    have : (2 * a.toNat : Int) < 2 ^ w := by rw [← h2]; exact_mod_cast h
    exact ⟨rfl, by omega⟩
  · right
    have : (2 ^ w : Int) ≤ 2 * a.toNat := by rw [← h2]; exact_mod_cast (Nat.not_lt.1 h)
    rw [h2]
    exact ⟨rfl, by omega, h4⟩

/-- a word read back as an unsigned number -/
theorem ofInt_nat (w : Nat) (x y k : Int) (h : x = y + k * 2 ^ w) (h0 : 0 ≤ y) (h1 : y < 2 ^ w) : ((BitVec.ofInt w x).toNat : Int) = y := by
  rw [BitVec.toNat_ofInt, natCast_pow2, Int.toNat_of_nonneg (Int.emod_nonneg _ (by positivity)), h, Int.add_mul_emod_self_right]
  exact Int.emod_eq_of_lt h0 h1

/-- a word read back as a signed number -/
theorem ofInt_int (w : Nat) (hw : 0 < w) (x y k : Int) (h : x = y + k * 2 ^ w) (h0 : -2 ^ (w - 1) ≤ y) (h1 : y < 2 ^ (w - 1)) : (BitVec.ofInt w x).toInt = y := by
  have h2 := two_pow_pred w hw
  by_cases hy : 0 ≤ y
  · have := ofInt_nat w x y k h hy (by omega)
    rcases readings w hw (BitVec.ofInt w x) with ⟨r, _⟩ | ⟨_, r, _⟩ <;> omega
  · have := ofInt_nat w x (y + 2 ^ w) (k - 1) (by rw [h]; ring) (by omega) (by omega)
    rcases readings w hw (BitVec.ofInt w x) with ⟨_, r⟩ | ⟨r, _, _⟩ <;> omega

theorem shr1 (x : Int) : x >>> 1 = x / 2 := by rw [Int.shiftRight_eq_div_pow]; rfl

theorem bv_sub (w : Nat) (a b : BitVec w) (y k : Int) (h : (a.toNat : Int) - b.toNat = y + k * 2 ^ w) (h0 : 0 ≤ y) (h1 : y < 2 ^ w) : ((a - b).toNat : Int) = y := by
  have e : a - b = BitVec.ofInt w ((a.toNat : Int) - b.toNat) := by
    apply BitVec.eq_of_toNat_eq
    rw [BitVec.toNat_ofInt, BitVec.toNat_sub, natCast_pow2]
    have := a.isLt
    have := b.isLt
    have hb : (b.toNat : Int) ≤ 2 ^ w := by rw [← natCast_pow2]; exact_mod_cast this.le
    have : (((2 ^ w - b.toNat + a.toNat) % 2 ^ w : Nat) : Int) = ((a.toNat : Int) - b.toNat) % 2 ^ w := by
      rw [Int.natCast_mod, natCast_pow2, Int.natCast_add, Int.natCast_sub (by omega), natCast_pow2]
      rw [show (2 : Int) ^ w - b.toNat + a.toNat = ((a.toNat : Int) - b.toNat) + 1 * 2 ^ w by ring, Int.add_mul_emod_self_right]
    rw [← this]; rfl
  rw [e]
  exact ofInt_nat w _ y k h h0 h1

/-! ## C101 -/

/-- **C101**, iota: the range is filled with `value`, `value + 1`, ..., nothing else changes size. -/
theorem C101_iota {w : Nat} (xs : List (BitVec w)) (v : BitVec w) :
    (iota xs v).length = xs.length ∧ ∀ i, i < xs.length → (iota xs v)[i]? = some (v + BitVec.ofNat w i) := by
  induction xs generalizing v with
  | nil => exact ⟨rfl, fun i h => absurd h (Nat.not_lt_zero i)⟩
  | cons x xs ih =>
    obtain ⟨h1, h2⟩ := ih (v + 1#w)
    refine ⟨by simp [iota, h1], fun i h => ?_⟩
    cases i with
    | zero => simp [iota]
    | succ i =>
      rw [List.length_cons] at h
      show (iota xs (v + 1#w))[i]? = _
      rw [h2 i (by omega), BitVec.add_assoc]
      congr 2
      rw [Nat.add_comm i 1, BitVec.ofNat_add]

example : iota [7#8, 7#8, 7#8] 254#8 = [254#8, 255#8, 0#8] := by decide

/-- **C101**, midpoint of unsigned integers of every width: half way, rounded towards the first, without wrapping around. -/
theorem C101_unsigned (w : Nat) (hw : 0 < w) (a b : BitVec w) : ((midUnsigned w a b).toNat : Int) = midSpec a.toNat b.toNat := by
  have ha : (a.toNat : Int) < 2 ^ w := by rw [← natCast_pow2]; exact_mod_cast a.isLt
  have hb : (b.toNat : Int) < 2 ^ w := by rw [← natCast_pow2]; exact_mod_cast b.isLt
  unfold midUnsigned
  simp only [shr1]
  by_cases h : a.toNat > b.toNat
  · rw [if_pos h, if_pos h, midSpec_gt (by omega)]
    have key : ((BitVec.ofInt w ((a.toNat : Int) - ((a.toNat : Int) - b.toNat) / 2)).toNat : Int) = a.toNat - (a.toNat - b.toNat) / 2 :=
      ofInt_nat w _ _ 0 (by omega) (by omega) (by omega)
    split_ifs
    · exact key
    · have d := bv_sub w a b (a.toNat - b.toNat) 0 (by omega) (by omega) (by omega)
      have s : (((a - b) >>> 1).toNat : Int) = (a.toNat - b.toNat) / 2 := by
        rw [BitVec.toNat_ushiftRight, Nat.shiftRight_eq_div_pow]; omega
      exact bv_sub w a _ _ 0 (by omega) (by omega) (by omega)
  · rw [if_neg h, if_neg h, midSpec_le (by omega)]
    have key : ((BitVec.ofInt w ((a.toNat : Int) + ((b.toNat : Int) - a.toNat) / 2)).toNat : Int) = a.toNat + (b.toNat - a.toNat) / 2 :=
      ofInt_nat w _ _ 0 (by omega) (by omega) (by omega)
    split_ifs
    · exact key
    · have d := bv_sub w b a (b.toNat - a.toNat) 0 (by omega) (by omega) (by omega)
      have s : (((b - a) >>> 1).toNat : Int) = (b.toNat - a.toNat) / 2 := by
        rw [BitVec.toNat_ushiftRight, Nat.shiftRight_eq_div_pow]; omega
      have e : (a + (b - a) >>> 1).toNat = (a.toNat + ((b - a) >>> 1).toNat) % 2 ^ w := BitVec.toNat_add ..
      rw [e, Nat.mod_eq_of_lt]
      · push_cast; omega
      · have : ((a.toNat + ((b - a) >>> 1).toNat : Nat) : Int) < (2 ^ w : Nat) := by rw [natCast_pow2]; push_cast; omega
        exact_mod_cast this

theorem signed_wide (w : Nat) (hw : 32 ≤ w) (a b : BitVec w) : ∃ r, midSigned w a b = .ok r ∧ r.toInt = midSpec a.toInt b.toInt := by
  have hp : promoted w = false := by simp [promoted]; omega
  have h2 := two_pow_pred w (by omega)
  have ra := readings w (by omega) a
  have rb := readings w (by omega) b
  simp only [midSigned, hp, Bool.false_eq_true, if_false]
  by_cases h : a.toInt > b.toInt
  · rw [if_pos h, midSpec_gt (by omega)]
    have d : ((a - b).toNat : Int) = a.toInt - b.toInt := by
      rcases ra with ⟨r1, r2⟩ | ⟨r1, r2, r3⟩ <;> rcases rb with ⟨s1, s2⟩ | ⟨s1, s2, s3⟩
      · exact bv_sub w a b _ 0 (by omega) (by omega) (by omega)
      · exact bv_sub w a b _ (-1) (by omega) (by omega) (by omega)
      · exact bv_sub w a b _ 1 (by omega) (by omega) (by omega)
      · exact bv_sub w a b _ 0 (by omega) (by omega) (by omega)
    have sN : (((a - b) >>> 1).toNat : Int) = (a.toInt - b.toInt) / 2 := by
      rw [BitVec.toNat_ushiftRight, Nat.shiftRight_eq_div_pow]; omega
    have s : ((a - b) >>> 1).toInt = (a.toInt - b.toInt) / 2 := by
      rcases readings w (by omega) ((a - b) >>> 1) with ⟨r, _⟩ | ⟨_, r, _⟩ <;> omega
    rw [s, signedResult, if_pos (by omega)]
    exact ⟨_, rfl, ofInt_int w (by omega) _ _ 0 (by omega) (by omega) (by omega)⟩
  · rw [if_neg h, midSpec_le (by omega)]
    have d : ((b - a).toNat : Int) = b.toInt - a.toInt := by
      rcases ra with ⟨r1, r2⟩ | ⟨r1, r2, r3⟩ <;> rcases rb with ⟨s1, s2⟩ | ⟨s1, s2, s3⟩
      · exact bv_sub w b a _ 0 (by omega) (by omega) (by omega)
      · exact bv_sub w b a _ 1 (by omega) (by omega) (by omega)
      · exact bv_sub w b a _ (-1) (by omega) (by omega) (by omega)
      · exact bv_sub w b a _ 0 (by omega) (by omega) (by omega)
    have sN : (((b - a) >>> 1).toNat : Int) = (b.toInt - a.toInt) / 2 := by
      rw [BitVec.toNat_ushiftRight, Nat.shiftRight_eq_div_pow]; omega
    have s : ((b - a) >>> 1).toInt = (b.toInt - a.toInt) / 2 := by
      rcases readings w (by omega) ((b - a) >>> 1) with ⟨r, _⟩ | ⟨_, r, _⟩ <;> omega
    rw [s, signedResult, if_pos (by omega)]
    exact ⟨_, rfl, ofInt_int w (by omega) _ _ 0 (by omega) (by omega) (by omega)⟩

/-- **C101**, midpoint of signed integers, for `int` and wider types: always defined, half way, rounded towards the first. -/
theorem C101_signed (w : Nat) (hw : 32 ≤ w) (a b : BitVec w) : ∃ r, midSigned w a b = .ok r ∧ r.toInt = midSpec a.toInt b.toInt := signed_wide w hw a b

/-- **C101**, midpoint of signed integers of every width.  Missing: types narrower than `int` with the first argument negative and the
second not, where the result is wrong (`C101_signed_narrow`). -/
theorem C101_signed_partial (w : Nat) (hw : 0 < w) (a b : BitVec w) (h : 32 ≤ w ∨ 0 ≤ a.toInt ∨ b.toInt < 0) :
    ∃ r, midSigned w a b = .ok r ∧ r.toInt = midSpec a.toInt b.toInt := by
  by_cases hw32 : 32 ≤ w
  · exact signed_wide w hw32 a b
  have hp : promoted w = true := by simp [promoted]; omega
  have h2 := two_pow_pred w hw
  have ra := readings w hw a
  have rb := readings w hw b
  simp only [midSigned, hp, if_true, shr1]
  by_cases hg : a.toInt > b.toInt
  · rw [if_pos hg, midSpec_gt (by omega)]
    have d : ((BitVec.ofInt w ((a.toNat : Int) - b.toNat)).toNat : Int) = a.toInt - b.toInt := by
      rcases ra with ⟨r1, r2⟩ | ⟨r1, r2, r3⟩ <;> rcases rb with ⟨s1, s2⟩ | ⟨s1, s2, s3⟩
      · exact ofInt_nat w _ _ 0 (by omega) (by omega) (by omega)
      · exact ofInt_nat w _ _ (-1) (by omega) (by omega) (by omega)
      · exact ofInt_nat w _ _ 1 (by omega) (by omega) (by omega)
      · exact ofInt_nat w _ _ 0 (by omega) (by omega) (by omega)
    refine ⟨_, rfl, ?_⟩
    have t : (BitVec.ofInt w ((a.toInt - b.toInt) / 2)).toInt = (a.toInt - b.toInt) / 2 := ofInt_int w hw _ _ 0 (by omega) (by omega) (by omega)
    rw [d, t]
    exact ofInt_int w hw _ _ 0 (by omega) (by omega) (by omega)
  · rw [if_neg hg, midSpec_le (by omega)]
    refine ⟨_, rfl, ?_⟩
    have t : (BitVec.ofInt w (((b.toNat : Int) - a.toNat) / 2)).toInt = (b.toInt - a.toInt) / 2 := by
      refine ofInt_int w hw _ _ 0 ?_ (by omega) (by omega)
      rcases ra with ⟨r1, r2⟩ | ⟨r1, r2, r3⟩ <;> rcases rb with ⟨s1, s2⟩ | ⟨s1, s2, s3⟩ <;> omega
    rw [t]
    exact ofInt_int w hw _ _ 0 (by omega) (by omega) (by omega)

/-- **Finding** (C101).  For `signed char`, `short` and every signed type narrower than `int`, `midpoint(a, b)` with `a < 0 ≤ b` is wrong for
*every* such pair: it is off by half the range of the type, `2 ^ (w - 1)` (the second branch of the code lacks the conversion to the
unsigned type that the first one has, so that a negative `int` is shifted). -/
theorem C101_signed_narrow (w : Nat) (hw : 2 ≤ w) (h32 : w < 32) (a b : BitVec w) (ha : a.toInt < 0) (hb : 0 ≤ b.toInt) :
    ∃ r, midSigned w a b = .ok r ∧ r.toInt ≠ midSpec a.toInt b.toInt ∧ (r.toInt = midSpec a.toInt b.toInt + 2 ^ (w - 1) ∨ r.toInt = midSpec a.toInt b.toInt - 2 ^ (w - 1)) := by
  have hp : promoted w = true := by simp [promoted]; omega
  have h2 := two_pow_pred w (by omega)
  have h3 := two_pow_pred (w - 1) (by omega)
  have h4 : (0 : Int) < 2 ^ (w - 1 - 1) := by positivity
  have ra := readings w (by omega) a
  have rb := readings w (by omega) b
  simp only [midSigned, hp, if_true, shr1]
  rw [if_neg (by omega), midSpec_le (by omega)]
  refine ⟨_, rfl, ?_⟩
  have t : (BitVec.ofInt w (((b.toNat : Int) - a.toNat) / 2)).toInt = (b.toInt - a.toInt) / 2 - 2 ^ (w - 1) := by
    refine ofInt_int w (by omega) _ _ 0 ?_ (by omega) (by omega)
    rcases ra with ⟨r1, r2⟩ | ⟨r1, r2, r3⟩ <;> rcases rb with ⟨s1, s2⟩ | ⟨s1, s2, s3⟩ <;> omega
  rw [t]
  by_cases hc : a.toInt + (b.toInt - a.toInt) / 2 - 2 ^ (w - 1) < -2 ^ (w - 1)
  · rw [ofInt_int w (by omega) _ (a.toInt + (b.toInt - a.toInt) / 2 + 2 ^ (w - 1)) (-1) (by omega) (by omega) (by omega)]
    omega
  · rw [ofInt_int w (by omega) _ (a.toInt + (b.toInt - a.toInt) / 2 - 2 ^ (w - 1)) 0 (by omega) (by omega) (by omega)]
    omega

/-- `etl::midpoint<int8_t>(-100, 100)` is -128 instead of 0; the other order gives 0 -/
example : (midSigned 8 (BitVec.ofInt 8 (-100)) 100#8).map BitVec.toInt = .ok (-128) ∧ midSpec (-100) 100 = 0 ∧
    (midSigned 8 100#8 (BitVec.ofInt 8 (-100))).map BitVec.toInt = .ok 0 := by decide +kernel

/-- **C101**, midpoint of positions (pointers and iterators): between the two, half way, rounded towards the lower one for pointers and random
access iterators in both orders, and for the other iterators with the first before the second. -/
theorem C101_iterator (a b : Nat) : midIterator a b = (a + b) / 2 ∧ midIterator a b = midIterator b a ∧ (a ≤ b → midForward a b = (a + b) / 2) := by
  refine ⟨?_, ?_, fun h => ?_⟩
  · unfold midIterator; split_ifs <;> omega
  · unfold midIterator; split_ifs <;> omega
  · unfold midForward; omega

/-- **C101**, midpoint of floating point numbers (no rounding, but overflow).  Missing: pairs whose sum overflows
(`C101_float_overflow`). -/
theorem C101_float_partial (big small a b : Rat) (h0 : 0 < big) (hsum : |a + b| ≤ big) : midFloat big small a b = .fin ((a + b) / 2) := by
  have hhi : F.of big (big * 2) = .inf false := by
    rw [F.of, if_pos (by linarith)]
  rw [abs_le] at hsum
  have hs : F.of big (a + b) = .fin (a + b) := by
    rw [F.of, if_neg (by linarith [hsum.2]), if_neg (by linarith [hsum.1])]
  simp only [midFloat, hhi, hs]
  rfl

/-- **Finding** (C101).  `midpoint` of finite floating point numbers is infinite whenever their sum overflows, for instance
`midpoint(max, max)`: `hi` is `max() * 2`, which is itself infinite, so the guarded branches are never taken. -/
theorem C101_float_overflow (big small a b : Rat) (h0 : 0 < big) (hsum : big < a + b) : midFloat big small a b = .inf false := by
  have hhi : F.of big (big * 2) = .inf false := by
    rw [F.of, if_pos (by linarith)]
  have hs : F.of big (a + b) = .inf false := by
    rw [F.of, if_pos (by linarith)]
  simp only [midFloat, hhi, hs]
  rfl

example : midFloat 100 1 100 100 = .inf false ∧ midFloat 100 1 60 20 = .fin 40 := by decide +kernel

/-- **C101**, lerp in exact arithmetic: the ends at 0 and 1, the same value if the ends coincide, monotone in `t`, and between the ends for `t`
between 0 and 1. -/
theorem C101_lerp (a b t u : Rat) :
    lerp a b 0 = a ∧ lerp a b 1 = b ∧ lerp a a t = a ∧ (a ≤ b → t ≤ u → lerp a b t ≤ lerp a b u) ∧ (b ≤ a → t ≤ u → lerp a b u ≤ lerp a b t) ∧
    (0 ≤ t → t ≤ 1 → min a b ≤ lerp a b t ∧ lerp a b t ≤ max a b) := by
  refine ⟨by simp [lerp], by simp [lerp], by simp [lerp], fun h1 h2 => ?_, fun h1 h2 => ?_, fun h1 h2 => ?_⟩
  · unfold lerp; nlinarith
  · unfold lerp; nlinarith
  · unfold lerp
    rcases le_total a b with h | h
    · rw [min_eq_left h, max_eq_right h]; constructor <;> nlinarith
    · rw [min_eq_right h, max_eq_left h]; constructor <;> nlinarith

end Etl.Numeric
