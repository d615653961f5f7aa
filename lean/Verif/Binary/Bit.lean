/-
Model of /repo/include/etl/bit.h (the branches that do not forward to std), byte.h and the function objects of binary.h l.2283-2390.
Unsigned values of `w` bits are naturals below 2^w; signed values are integers.
-/
import Verif.Binary.Props

namespace Etl.Binary

/-! ## Model -/

/-- `bit_width`, bit.h l.157-167: `bits - countl_zero(value)`, with `count_leading_zeros` of the width (`clz`) as argument. -/
def bitWidth (w : Nat) (clz : Nat → Nat) (v : Nat) : Nat := w - clz v

/-- `T(1) << k`, as in bit.h l.188 and l.209: the operand is promoted to at least 32 bits; shifting by the width of the promoted type or more is undefined; the result is
converted back to `T`. -/
def oneShl (w k : Nat) : Res Nat := if max w 32 ≤ k then .error .overflow else .ok (trunc w (1 <<< k))

/-- `bit_ceil`, l.172-190 -/
def bitCeil (w : Nat) (clz : Nat → Nat) (v : Nat) : Res Nat := if v = 0 then .ok 1 else oneShl w (bitWidth w clz (v - 1))

/-- `bit_floor`, l.195-213 -/
def bitFloor (w : Nat) (clz : Nat → Nat) (v : Nat) : Res Nat := if v = 0 then .ok 0 else oneShl w (bitWidth w clz v - 1)

/-- `has_single_bit`, l.99-105: `(value & (value - 1)) == 0`; for 0 the subtraction wraps (or is -1 after promotion). -/
def hasSingleBit (w v : Nat) : Bool := (v &&& trunc w (v + (2 ^ w - 1))) == 0

/-- `rotl`, l.218-231, with an `int` distance of 32 bits: `-n` is undefined for the least `int`. -/
def rotlI (w v : Nat) (n : Int) : Res Nat := if n < 0 then if n = -2 ^ 31 then .error .overflow else .ok (rotr w v (-n).toNat) else .ok (rotl w v n.toNat)
/-- `rotr`, l.236-249 -/
def rotrI (w v : Nat) (n : Int) : Res Nat := if n < 0 then if n = -2 ^ 31 then .error .overflow else .ok (rotl w v (-n).toNat) else .ok (rotr w v n.toNat)

/-- byte.h l.55-62: `etl::byte(static_cast<unsigned int>(b) << shift)`; a shift outside 0..31 is undefined. -/
def byteShl (b : Nat) (s : Int) : Res Nat := if s < 0 ∨ 32 ≤ s then .error .overflow else .ok (trunc 8 (trunc 32 (b <<< s.toNat)))
/-- l.67-74 -/
def byteShr (b : Nat) (s : Int) : Res Nat := if s < 0 ∨ 32 ≤ s then .error .overflow else .ok (trunc 8 (b >>> s.toNat))
/-- l.101-104, l.109-112, l.117-120 (and the assigning forms l.125-144) -/
def byteOr (a b : Nat) : Nat := trunc 8 (a ||| b)
def byteAnd (a b : Nat) : Nat := trunc 8 (a &&& b)
def byteXor (a b : Nat) : Nat := trunc 8 (a ^^^ b)
/-- l.149-152: `~static_cast<unsigned int>(b)` of 32 bits, converted to `unsigned char` -/
def byteNot (b : Nat) : Nat := trunc 8 (2 ^ 32 - 1 - b)
/-- `to_integer<T>`, l.44-50, to an unsigned type of `w` bits -/
def byteToInteger (w b : Nat) : Nat := trunc w b

/-- `binary_not`, `binary_and`, `binary_or`, `binary_xor`, binary.h l.2283-2390, for a type of `w` bits given by its bit pattern: the operand is promoted, the result
converted back. The promotion of an unsigned narrow operand sets its high bits to 0, so that `~` sets them to 1: they are cut off again. -/
def binNot (w v : Nat) : Nat := trunc w (2 ^ (max w 32) - 1 - v)
def binAnd (w p v : Nat) : Nat := trunc w (v &&& p)
def binOr (w p v : Nat) : Nat := trunc w (v ||| p)
def binXor (w p v : Nat) : Nat := trunc w (v ^^^ p)

/-! ## Specification -/

/-- `n` is the number of bits needed to write `v`. -/
def IsWidth (v n : Nat) : Prop := v < 2 ^ n ∧ (0 < n → 2 ^ (n - 1) ≤ v)

/-- `p` is the greatest power of two that is not above `v`. -/
def IsFloor (v p : Nat) : Prop := (∃ k, p = 2 ^ k) ∧ p ≤ v ∧ ∀ k, 2 ^ k ≤ v → 2 ^ k ≤ p

/-- `p` is the least power of two that is not below `v`. -/
def IsCeil (v p : Nat) : Prop := (∃ k, p = 2 ^ k) ∧ v ≤ p ∧ ∀ k, v ≤ 2 ^ k → p ≤ 2 ^ k

/-- Bit `i` of the bit pattern of `v` (of `w` bits) rotated left by `n` (right for negative `n`). -/
def IsRotated (w v : Nat) (n : Int) (r : Nat) : Prop := r < 2 ^ w ∧ ∀ i, i < w → r.testBit (((i : Int) + n) % w).toNat = v.testBit i

/-! ## Proofs -/

theorem width_of_leading {w v n : Nat} (hv : v < 2 ^ w) (h : IsLeading false w v n) : IsWidth v (w - n) := by
  obtain ⟨h1, h2, h3⟩ := h
  constructor
  · apply Nat.lt_pow_two_of_testBit
    intro i hi
    by_cases hiw : i < w
    · have := h2 (w - 1 - i) (by omega)
      rwa [show w - 1 - (w - 1 - i) = i by omega] at this
    · exact testBit_ge hv (by omega)
  · intro h0
    have := h3 (by omega)
    rw [show w - n - 1 = w - 1 - n by omega]
    have hb : v.testBit (w - 1 - n) = true := by simpa using this
    exact Nat.ge_two_pow_of_testBit hb

theorem width_le {v n m : Nat} (h : IsWidth v n) (hm : v < 2 ^ m) : n ≤ m := by
  by_contra hc
  have := h.2 (by omega)
  have h2 : 2 ^ m ≤ 2 ^ (n - 1) := Nat.pow_le_pow_right (by omega) (by omega)
  omega

theorem oneShl_ok {w k : Nat} (h : k < w) : oneShl w k = .ok (2 ^ k) := by
  unfold oneShl
  rw [if_neg (by omega), Nat.shiftLeft_eq, Nat.one_mul]
  unfold trunc
  rw [Nat.mod_eq_of_lt (Nat.pow_lt_pow_right (by omega) h)]

theorem floor_of_width {w v : Nat} {clz : Nat → Nat} (h : IsWidth v (bitWidth w clz v)) (hb : bitWidth w clz v ≤ w) (hv : v ≠ 0) :
    ∃ p, bitFloor w clz v = .ok p ∧ IsFloor v p := by
  have h0 : 0 < bitWidth w clz v := by
    by_contra hc
    have := h.1
    rw [show bitWidth w clz v = 0 by omega] at this
    omega
  refine ⟨2 ^ (bitWidth w clz v - 1), ?_, ⟨_, rfl⟩, h.2 h0, fun k hk => ?_⟩
  · unfold bitFloor
    rw [if_neg hv, oneShl_ok (by omega)]
  · have := h.1
    have hlt : 2 ^ k < 2 ^ bitWidth w clz v := by omega
    have := (Nat.pow_lt_pow_iff_right (by omega : 1 < 2)).1 hlt
    exact Nat.pow_le_pow_right (by omega) (by omega)

theorem ceil_of_width {w v : Nat} {clz : Nat → Nat} (hv : v ≠ 0) (h : IsWidth (v - 1) (bitWidth w clz (v - 1))) (hfit : v ≤ 2 ^ (w - 1)) (hw : 0 < w) :
    ∃ p, bitCeil w clz v = .ok p ∧ IsCeil v p := by
  have hle : bitWidth w clz (v - 1) ≤ w - 1 := width_le h (by omega)
  refine ⟨2 ^ bitWidth w clz (v - 1), ?_, ⟨_, rfl⟩, by have := h.1; omega, fun k hk => ?_⟩
  · unfold bitCeil
    rw [if_neg hv, oneShl_ok (by omega)]
  · exact Nat.pow_le_pow_right (by omega) (width_le h (by omega))

/-- The leading-zero counter of the given width, in the domain where it is right: all values of 8, 16 and 32 bits, and the values of 64 bits outside [2^28, 2^32). -/
def CountsZeros (w : Nat) (clz : Nat → Nat) (v : Nat) : Prop :=
  (w = 8 ∧ clz = clz8 ∧ v < 2 ^ 8) ∨ (w = 16 ∧ clz = clz16 ∧ v < 2 ^ 16) ∨ (w = 32 ∧ clz = clz32 ∧ v < 2 ^ 32) ∨
    (w = 64 ∧ clz = clz64 ∧ v < 2 ^ 64 ∧ (v < 2 ^ 28 ∨ 2 ^ 32 ≤ v))

theorem bitWidth_ok {w v : Nat} {clz : Nat → Nat} (h : CountsZeros w clz v) : IsWidth v (bitWidth w clz v) := by
  rcases h with ⟨rfl, rfl, h⟩ | ⟨rfl, rfl, h⟩ | ⟨rfl, rfl, h⟩ | ⟨rfl, rfl, h, h2⟩
  · exact width_of_leading h ((C51_count_leading_zeros_partial v).1 h)
  · exact width_of_leading h ((C51_count_leading_zeros_partial v).2.1 h)
  · exact width_of_leading h ((C51_count_leading_zeros_partial v).2.2 h)
  · exact width_of_leading h (C51_count_leading_zeros64_partial v h h2)

/-- C108, `bit_width`, `bit_floor`, `bit_ceil`: all values of 8, 16 and 32 bits; for 64 bits the values (and for `bit_ceil` the values less one) outside [2^28, 2^32), where the
counter of leading zeros is wrong. -/
theorem C108_bit_width_partial {w v : Nat} {clz : Nat → Nat} (h : CountsZeros w clz v) :
    IsWidth v (bitWidth w clz v) ∧ bitWidth w clz v ≤ w ∧ (v = 0 → bitFloor w clz v = .ok 0) ∧ (v ≠ 0 → ∃ p, bitFloor w clz v = .ok p ∧ IsFloor v p) := by
  have hw := bitWidth_ok h
  have hle : bitWidth w clz v ≤ w := by unfold bitWidth; omega
  exact ⟨hw, hle, fun h0 => by unfold bitFloor; rw [if_pos h0], floor_of_width hw hle⟩

theorem C108_bit_ceil_partial {w v : Nat} {clz : Nat → Nat} (h : CountsZeros w clz (v - 1)) (hfit : v ≤ 2 ^ (w - 1)) : ∃ p, bitCeil w clz v = .ok p ∧ IsCeil v p := by
  by_cases hv : v = 0
  · refine ⟨1, by unfold bitCeil; rw [if_pos hv], ⟨0, rfl⟩, by omega, fun k _ => Nat.two_pow_pos k⟩
  · exact ceil_of_width hv (bitWidth_ok h) hfit (by rcases h with h | h | h | h <;> omega)

example : CountsZeros 8 clz8 200 ∧ bitFloor 8 clz8 200 = .ok 128 ∧ bitWidth 8 clz8 200 = 8 := ⟨.inl ⟨rfl, rfl, by omega⟩, rfl, rfl⟩
example : CountsZeros 64 clz64 (2 ^ 33 + 1) ∧ bitFloor 64 clz64 (2 ^ 33 + 1) = .ok (2 ^ 33) := ⟨.inr (.inr (.inr ⟨rfl, rfl, by omega, .inr (by omega)⟩)), by decide +kernel⟩
example : CountsZeros 16 clz16 (300 - 1) ∧ bitCeil 16 clz16 300 = .ok 512 := ⟨.inr (.inl ⟨rfl, rfl, by omega⟩), by decide +kernel⟩

/-- Finding: the width and the floor of a value of 64 bits in [2^28, 2^32) are wrong: 2^30 has 31 bits and is a power of two, its floor is reported as 2^31. -/
theorem bit_floor64_wrong : bitWidth 64 clz64 (2 ^ 30) = 32 ∧ bitFloor 64 clz64 (2 ^ 30) = .ok (2 ^ 31) ∧ bitCeil 64 clz64 (2 ^ 30 + 1) = .ok (2 ^ 32) ∧ ¬ IsFloor (2 ^ 30) (2 ^ 31) := by
  refine ⟨by decide +kernel, by decide +kernel, by decide +kernel, fun h => ?_⟩
  exact absurd h.2.1 (by decide)

/-- When the power of two does not fit, `bit_ceil` yields 0 for types of less than 32 bits and shifts by the width (undefined) for wider types. -/
theorem bit_ceil_overflow {w v : Nat} {clz : Nat → Nat} (h : CountsZeros w clz (v - 1)) (hv : 2 ^ (w - 1) < v) : bitCeil w clz v = if w < 32 then .ok 0 else .error .overflow := by
  have hb := bitWidth_ok h
  have hle : bitWidth w clz (v - 1) ≤ w := by unfold bitWidth; omega
  have hge : bitWidth w clz (v - 1) = w := by
    by_contra hc
    have h1 := hb.1
    have h2 : 2 ^ bitWidth w clz (v - 1) ≤ 2 ^ (w - 1) := Nat.pow_le_pow_right (by omega) (by omega)
    omega
  unfold bitCeil oneShl
  have hv0 : ¬ v = 0 := by intro h0; rw [h0] at hv; exact absurd hv (Nat.not_lt_zero _)
  rw [if_neg hv0, hge]
  by_cases hw : w < 32
  · rw [if_pos hw, if_neg (by omega), Nat.shiftLeft_eq, Nat.one_mul]
    unfold trunc
    rw [Nat.mod_self]
  · rw [if_neg hw, if_pos (by omega)]

/-- C108, `has_single_bit`: right for every value but 0. -/
theorem C108_has_single_bit_partial {w v : Nat} (hv : v < 2 ^ w) (h0 : v ≠ 0) : hasSingleBit w v = true ↔ ∃ k, v = 2 ^ k := by
  have e : trunc w (v + (2 ^ w - 1)) = v - 1 := by
    unfold trunc
    have := Nat.two_pow_pos w
    rw [show v + (2 ^ w - 1) = v - 1 + 2 ^ w by omega, Nat.add_mod_right, Nat.mod_eq_of_lt (by omega)]
  unfold hasSingleBit
  rw [e, beq_iff_eq, Nat.and_sub_one_eq_zero_iff_isPowerOfTwo h0]
  rfl

/-- Finding: `has_single_bit(0)` is true (std: false). -/
theorem has_single_bit_zero (w : Nat) : hasSingleBit w 0 = true := by
  unfold hasSingleBit
  rw [Nat.zero_and]; rfl

theorem rot_mod {w : Nat} {i d : Nat} (hw : 0 < w) : (((i : Int) + (d : Int)) % w).toNat = (i + d) % w := by
  rw [← Int.natCast_add, ← Int.natCast_mod, Int.toNat_natCast]

theorem rotl_is {w v d : Nat} (hw : 0 < w) (hv : v < 2 ^ w) : IsRotated w v d (rotl w v d) :=
  ⟨(rot_lt hv).1, fun i hi => by rw [rot_mod hw]; exact rotl_bits hw hv hi⟩

theorem rotr_is {w v d : Nat} (hw : 0 < w) (hv : v < 2 ^ w) : IsRotated w v (-(d : Int)) (rotr w v d) := by
  refine ⟨(rot_lt hv).2, fun i hi => ?_⟩
  have hpos : (0 : Int) < w := by omega
  have h1 := Int.emod_nonneg ((i : Int) + -(d : Int)) (by omega : (w : Int) ≠ 0)
  have h2 := Int.emod_lt_of_pos ((i : Int) + -(d : Int)) hpos
  obtain ⟨j, hj⟩ := Int.eq_ofNat_of_zero_le h1
  rw [hj, Int.toNat_natCast]
  have hjw : j < w := by omega
  rw [rotr_bits hw hv hjw]
  congr 1
  have h3 : (((j + d : Nat) : Int)) % w = i := by
    rw [Int.natCast_add, ← hj, Int.emod_add_emod, show (i : Int) + -(d : Int) + d = i by omega, Int.emod_eq_of_lt (by omega) (by omega)]
  omega

/-- C108, `rotl` and `rotr` with a signed distance (except the least `int`): a rotation by `n` bits, to the left for positive `n`; `rotr` by `n` is `rotl` by `-n`. -/
theorem C108_rotate {w v : Nat} {n : Int} (hw : 0 < w) (hv : v < 2 ^ w) (hn : n ≠ -2 ^ 31) (hn2 : n ≠ 2 ^ 31) :
    (∃ r, rotlI w v n = .ok r ∧ IsRotated w v n r) ∧ (∃ r, rotrI w v n = .ok r ∧ IsRotated w v (-n) r) := by
  unfold rotlI rotrI
  by_cases h : n < 0
  · rw [if_pos h, if_pos h, if_neg hn, if_neg hn]
    obtain ⟨k, hk⟩ := Int.eq_ofNat_of_zero_le (by omega : 0 ≤ -n)
    rw [hk, Int.toNat_natCast]
    refine ⟨⟨_, rfl, ?_⟩, _, rfl, rotl_is hw hv⟩
    have := rotr_is (d := k) hw hv
    rwa [show -(k : Int) = n by omega] at this
  · rw [if_neg h, if_neg h]
    obtain ⟨k, hk⟩ := Int.eq_ofNat_of_zero_le (by omega : 0 ≤ n)
    rw [hk, Int.toNat_natCast]
    exact ⟨⟨_, rfl, rotl_is hw hv⟩, _, rfl, rotr_is hw hv⟩

example : rotlI 8 0x81 (-1) = .ok 0xC0 ∧ rotrI 8 0x81 (-9) = .ok 0x03 := ⟨rfl, rfl⟩

/-- C108, `etl::byte`: the bits of the results. -/
theorem C108_byte {a b : Nat} (ha : a < 256) (hb : b < 256) :
    (∀ s : Nat, s < 32 → ∃ r, byteShl a s = .ok r ∧ r < 256 ∧ ∀ i, i < 8 → r.testBit i = (decide (s ≤ i) && a.testBit (i - s))) ∧
    (∀ s : Nat, s < 32 → ∃ r, byteShr a s = .ok r ∧ r < 256 ∧ ∀ i, r.testBit i = a.testBit (i + s)) ∧
    (byteOr a b < 256 ∧ byteAnd a b < 256 ∧ byteXor a b < 256 ∧ byteNot a = 255 - a) ∧
    (∀ i, (byteOr a b).testBit i = (a.testBit i || b.testBit i) ∧ (byteAnd a b).testBit i = (a.testBit i && b.testBit i) ∧ (byteXor a b).testBit i = (a.testBit i ^^ b.testBit i)) ∧
    (∀ w, 8 ≤ w → byteToInteger w a = a) := by
  have ha8 : ∀ i, 8 ≤ i → a.testBit i = false := fun i hi => testBit_ge (w := 8) (by omega) hi
  have hb8 : ∀ i, 8 ≤ i → b.testBit i = false := fun i hi => testBit_ge (w := 8) (by omega) hi
  refine ⟨fun s hs => ⟨_, by unfold byteShl; rw [if_neg (by omega)], trunc_lt 8 _, fun i hi => ?_⟩, fun s hs => ⟨_, by unfold byteShr; rw [if_neg (by omega)], trunc_lt 8 _, fun i => ?_⟩,
    ⟨trunc_lt 8 _, trunc_lt 8 _, trunc_lt 8 _, ?_⟩, fun i => ⟨?_, ?_, ?_⟩, fun w hw => ?_⟩
  · rw [Int.toNat_natCast, testBit_trunc, testBit_trunc, Nat.testBit_shiftLeft]
    simp [hi, show i < 32 by omega]
  · rw [Int.toNat_natCast, testBit_trunc, Nat.testBit_shiftRight, Nat.add_comm]
    by_cases hi : i < 8
    · simp [hi]
    · simp [hi, ha8 (i + s) (by omega)]
  · unfold byteNot trunc; omega
  · unfold byteOr; rw [testBit_trunc, Nat.testBit_or]
    by_cases hi : i < 8
    · simp [hi]
    · simp [hi, ha8 i (by omega), hb8 i (by omega)]
  · unfold byteAnd; rw [testBit_trunc, Nat.testBit_and]
    by_cases hi : i < 8
    · simp [hi]
    · simp [hi, ha8 i (by omega)]
  · unfold byteXor; rw [testBit_trunc, Nat.testBit_xor]
    by_cases hi : i < 8
    · simp [hi]
    · simp [hi, ha8 i (by omega), hb8 i (by omega)]
  · unfold byteToInteger trunc
    have : 2 ^ 8 ≤ 2 ^ w := Nat.pow_le_pow_right (by omega) hw
    exact Nat.mod_eq_of_lt (by omega)

example : byteShl 0x81 1 = .ok 0x02 ∧ byteNot 0x0F = 0xF0 := ⟨rfl, rfl⟩

theorem testBit_compl {n v i : Nat} (hv : v < 2 ^ n) : (2 ^ n - 1 - v).testBit i = (decide (i < n) && !v.testBit i) := by
  rw [Nat.sub_sub, Nat.add_comm, Nat.testBit_two_pow_sub_succ hv]

/-- C108, the function objects `binary_not`, `binary_and`, `binary_or`, `binary_xor` act bit by bit, on every width; not, and xor with one parameter, undo themselves. -/
theorem C108_function_objects {w p v : Nat} (hp : p < 2 ^ w) (hv : v < 2 ^ w) :
    (∀ i, i < w → (binNot w v).testBit i = !v.testBit i ∧ (binAnd w p v).testBit i = (v.testBit i && p.testBit i) ∧ (binOr w p v).testBit i = (v.testBit i || p.testBit i) ∧
      (binXor w p v).testBit i = (v.testBit i ^^ p.testBit i)) ∧ binNot w v < 2 ^ w ∧ binNot w (binNot w v) = v ∧ binXor w p (binXor w p v) = v := by
  have hv2 : ∀ u, u < 2 ^ w → u < 2 ^ (max w 32) := fun u hu => Nat.lt_of_lt_of_le hu (Nat.pow_le_pow_right (by omega) (by omega))
  have hN : ∀ u, u < 2 ^ w → ∀ i, i < w → (binNot w u).testBit i = !u.testBit i := by
    intro u hu i hi
    unfold binNot
    rw [testBit_trunc, testBit_compl (hv2 u hu)]
    simp [hi]
  have hX : ∀ u i, i < w → (binXor w p u).testBit i = (u.testBit i ^^ p.testBit i) := by
    intro u i hi
    unfold binXor
    rw [testBit_trunc, Nat.testBit_xor]
    simp [hi]
  refine ⟨fun i hi => ⟨hN v hv i hi, ?_, ?_, hX v i hi⟩, trunc_lt _ _, ?_, ?_⟩
  · unfold binAnd; rw [testBit_trunc, Nat.testBit_and]; simp [hi]
  · unfold binOr; rw [testBit_trunc, Nat.testBit_or]; simp [hi]
  · refine eq_of_bits (trunc_lt _ _) hv fun i hi => ?_
    rw [hN (binNot w v) (trunc_lt _ _) i hi, hN v hv i hi, Bool.not_not]
  · refine eq_of_bits (trunc_lt _ _) hv fun i hi => ?_
    rw [hX _ i hi, hX v i hi]
    cases v.testBit i <;> cases p.testBit i <;> rfl

example : binNot 8 0x0F = 0xF0 ∧ binXor 8 0xFF 0x0F = 0xF0 := ⟨rfl, rfl⟩

end Etl.Binary
