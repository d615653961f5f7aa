import Verif.StdHash.Model
import Verif.Hash.Props
import Mathlib.Tactic.Linarith
import Mathlib.Data.Nat.Log
/-!
# C100: `etl::hash` agrees with equality
-/
namespace Etl.StdHash
open Fcs

/-! ## Specification -/

/-- What an IEEE 754 binary format with `m` mantissa bits and `e` exponent bits stands for. -/
inductive FVal where
  | nan
  | inf (neg : Bool)
  /-- a finite value, as a multiple of the smallest subnormal -/
  | fin (v : Int)
  deriving DecidableEq, Repr

/-- The value of a bit pattern: sign, `e` exponent bits, `m` mantissa bits, from the top. -/
def fval (e m : Nat) (x : BitVec (1 + e + m)) : FVal :=
  let mant := x.toNat % 2 ^ m
  let expo := x.toNat / 2 ^ m % 2 ^ e
  let neg := decide (2 ^ (e + m) ≤ x.toNat)
  if expo = 2 ^ e - 1 then (if mant = 0 then .inf neg else .nan)
  else
    let mag : Nat := if expo = 0 then mant else (2 ^ m + mant) * 2 ^ (expo - 1)
    .fin (if neg then - (mag : Int) else (mag : Int))

/-- `==` of two floating point numbers -/
def feq (e m : Nat) (x y : BitVec (1 + e + m)) : Prop := fval e m x ≠ .nan ∧ fval e m x = fval e m y

/-- 1.0f, -2.5f, the smallest subnormal, infinity -/
example : fval 8 23 0x3F800000#32 = .fin (2 ^ 149) ∧ fval 8 23 0xC0200000#32 = .fin (-(5 * 2 ^ 148)) ∧ fval 8 23 1#32 = .fin 1 ∧ fval 8 23 0xFF800000#32 = .inf true ∧
    fval 8 23 0x7FC00000#32 = .nan ∧ feq 8 23 0x80000000#32 0#32 := by
  refine ⟨by decide +kernel, by decide +kernel, by decide +kernel, by decide +kernel, by decide +kernel, ?_⟩
  constructor
  · decide +kernel
  · decide +kernel

/-- the text hash of the FNV specification, folded to 16 bits where `size_t` has 16 -/
def textSpec : (z : SizeT) → List Byte → Nat
  | .s16, bs => (Hash.fnv1aSpec 32 2166136261 16777619 bs % 2 ^ 16) ^^^ (Hash.fnv1aSpec 32 2166136261 16777619 bs / 2 ^ 16)
  | .s32, bs => Hash.fnv1aSpec 32 2166136261 16777619 bs
  | .s64, bs => Hash.fnv1aSpec 64 14695981039346656037 1099511628211 bs

/-- the bytes of a value in memory -/
def bytesSpec (big : Bool) (n : Nat) (v : BitVec n) : List Byte :=
  if big then ((List.range (n / 8)).map fun i => BitVec.ofNat 8 (v.toNat / 256 ^ i)).reverse
  else (List.range (n / 8)).map fun i => BitVec.ofNat 8 (v.toNat / 256 ^ i)

example : bytesSpec false 32 0x12345678#32 = [0x78#8, 0x56#8, 0x34#8, 0x12#8] ∧ bytesSpec true 16 0x1234#16 = [0x12#8, 0x34#8] := by decide +kernel

/-! ## Integers, enumerations, pointers, texts -/

theorem fnv_range (w : Nat) (basis prime : BitVec w) (bs : List Byte) (s : Fcs Unit (BitVec w)) :
    addRange (Hash.fnv1aPolicy w basis prime) s bs = .ok ⟨bs.foldl (fun s b => (s ^^^ b.setWidth w) * prime) s.check, s.pol⟩ := by
  induction bs generalizing s with
  | nil => rfl
  | cons b bs ih =>
    simp only [addRange, addByte, Hash.fnv1aPolicy]
    exact ih _

theorem fnv1a_eq (w : Nat) (hw : 8 ≤ w) (basis prime : BitVec w) (bs : List Byte) : (fnv1a w basis prime bs).toNat = Hash.fnv1aSpec w basis.toNat prime.toNat bs := by
  simp only [fnv1a, constructRange, fnv_range]
  rw [← Hash.fnv1a_fold hw]
  rfl

theorem generic_eq (z : SizeT) (bs : List Byte) : (genericHash z bs).toNat = textSpec z bs := by
  cases z with
  | s16 =>
    have h := fnv1a_eq 32 (by omega) Hash.basis32 Hash.prime32 bs
    have hlt := (fnv1a 32 Hash.basis32 Hash.prime32 bs).isLt
    show ((fnv1a 32 Hash.basis32 Hash.prime32 bs ^^^ (fnv1a 32 Hash.basis32 Hash.prime32 bs >>> 16)).setWidth 16).toNat = _
    rw [BitVec.toNat_setWidth, BitVec.toNat_xor, BitVec.toNat_ushiftRight, Nat.xor_mod_two_pow, Nat.shiftRight_eq_div_pow, h]
    rw [h] at hlt
    show _ ^^^ Hash.fnv1aSpec 32 2166136261 16777619 bs / 2 ^ 16 % 2 ^ 16 = (Hash.fnv1aSpec 32 2166136261 16777619 bs % 2 ^ 16) ^^^ (Hash.fnv1aSpec 32 2166136261 16777619 bs / 2 ^ 16)
    have hlt' : Hash.fnv1aSpec 32 2166136261 16777619 bs < 2 ^ 32 := hlt
    rw [Nat.mod_eq_of_lt (a := Hash.fnv1aSpec 32 2166136261 16777619 bs / 2 ^ 16) (by omega)]
    rfl
  | s32 => exact fnv1a_eq 32 (by omega) _ _ bs
  | s64 => exact fnv1a_eq 64 (by omega) _ _ bs

/-- **C100**, integers: on a platform where the type fits in `size_t`, the hash of an unsigned value is the value, and of a signed value
the value modulo `2 ^ bits`; so values of *any* two such types that are equal hash to the same thing and different values of one
signedness never collide. -/
theorem C100_int (z : SizeT) (big : Bool) (n : Nat) (h : n ≤ z.bits) (v : BitVec n) :
    (hashInt z big false n v).toNat = v.toNat ∧ (hashInt z big true n v).toInt = v.toInt := by
  have hp : v.toNat < 2 ^ z.bits := Nat.lt_of_lt_of_le v.isLt (Nat.pow_le_pow_right (by omega) h)
  constructor
  · simp [hashInt, h, castSize, Nat.mod_eq_of_lt hp]
  · simp only [hashInt, h, castSize, if_true]
    exact BitVec.toInt_signExtend_of_le h

theorem objectBytes_eq (big : Bool) (n : Nat) (v : BitVec n) : objectBytes big n v = bytesSpec big n v := by
  have : ((List.range (n / 8)).map fun i => v.extractLsb' (8 * i) 8) = (List.range (n / 8)).map fun i => BitVec.ofNat 8 (v.toNat / 256 ^ i) := by
    refine List.map_congr_left fun i _ => ?_
    apply BitVec.eq_of_toNat_eq
    rw [BitVec.extractLsb'_toNat, BitVec.toNat_ofNat, Nat.shiftRight_eq_div_pow, pow_mul]
    rfl
  simp only [objectBytes, bytesSpec, this]

/-- **C100**, texts: the hash of a text is the FNV-1a hash of its characters' bytes, for characters of any width, so two texts with the same
characters have the same hash in whatever string or view they are held. -/
theorem C100_text (z : SizeT) (big : Bool) (n : Nat) (text : List (BitVec n)) : (hashText z big n text).toNat = textSpec z (text.flatMap (bytesSpec big n)) := by
  rw [hashText, generic_eq, funext (objectBytes_eq big n)]

/-- for 8 bit characters these are the characters -/
theorem C100_text8 (z : SizeT) (big : Bool) (text : List (BitVec 8)) : (hashText z big 8 text).toNat = textSpec z text := by
  rw [C100_text]
  congr 1
  induction text with
  | nil => rfl
  | cons c cs ih =>
    have hc : bytesSpec big 8 c = [c] := by
      cases big <;> simp [bytesSpec]
    rw [List.flatMap_cons, ih, hc]; rfl

/-- **C100**, integers and pointers that do not fit in `size_t` are hashed by the FNV-1a hash of their bytes. -/
theorem C100_wide (z : SizeT) (big signed : Bool) (n : Nat) (h : z.bits < n) (v : BitVec n) :
    (hashInt z big signed n v).toNat = textSpec z (bytesSpec big n v) ∧ (hashPtr z big n v).toNat = textSpec z (bytesSpec big n v) := by
  constructor
  · rw [hashInt, if_neg (by omega), generic_eq, objectBytes_eq]
  · rw [hashPtr, if_neg (by omega), generic_eq, objectBytes_eq]

example : SizeT.s32.bits < 64 := by decide

/-- **C100**, enumerations that fit in `size_t` are hashed as their underlying values, whatever the platform. -/
theorem C100_enum (z : SizeT) (big signed : Bool) (n : Nat) (h : n ≤ z.bits) (v : BitVec n) :
    hashEnum z big signed n v = hashInt z big signed n v := by
  simp [hashEnum, hashInt, h]

/-- **C100**, enumerations that do not fit are hashed by the FNV-1a hash of the bytes of their value as `unsigned long long` (sign extended when the underlying type is signed). -/
theorem C100_enum_wide (z : SizeT) (big signed : Bool) (n : Nat) (h : z.bits < n) (hz : z.bits < 64) (v : BitVec n) :
    (hashEnum z big signed n v).toNat = textSpec z (bytesSpec big 64 (if signed then v.signExtend 64 else v.setWidth 64)) := by
  rw [hashEnum, if_neg (by omega)]
  exact (C100_wide z big false 64 hz _).1

/-- **C100**, pointers as wide as `size_t`: distinct pointers never collide. -/
theorem C100_pointer (z : SizeT) (big : Bool) (p q : BitVec z.bits) : hashPtr z big z.bits p = hashPtr z big z.bits q ↔ p = q := by
  simp [hashPtr]

/-! ## Floating point -/

theorem parts (e m : Nat) (x : BitVec (1 + e + m)) : x.toNat = (if 2 ^ (e + m) ≤ x.toNat then 1 else 0) * 2 ^ (e + m) + x.toNat / 2 ^ m % 2 ^ e * 2 ^ m + x.toNat % 2 ^ m ∧
    x.toNat / 2 ^ m % 2 ^ e < 2 ^ e ∧ x.toNat % 2 ^ m < 2 ^ m := by
  have hlt : x.toNat < 2 * 2 ^ (e + m) := by
    have h1 := x.isLt
    have h2 : 2 ^ (1 + e + m) = 2 * 2 ^ (e + m) := by rw [show (1 + e + m) = (e + m) + 1 by omega, pow_succ]; omega
    omega
  refine ⟨?_, Nat.mod_lt _ (by positivity), Nat.mod_lt _ (by positivity)⟩
  have h1 := Nat.div_add_mod x.toNat (2 ^ m)
  have h2 := Nat.div_add_mod (x.toNat / 2 ^ m) (2 ^ e)
  have h3 : x.toNat / 2 ^ m / 2 ^ e = x.toNat / 2 ^ (e + m) := by rw [Nat.div_div_eq_div_mul, ← pow_add, Nat.add_comm m e]
  have h4 : x.toNat / 2 ^ (e + m) = if 2 ^ (e + m) ≤ x.toNat then 1 else 0 := by
    split_ifs with h
    · exact Nat.div_eq_of_lt_le (by omega) (by omega)
    · exact Nat.div_eq_of_lt (by omega)
  rw [h3, h4] at h2
  have h5 : 2 ^ m * (x.toNat / 2 ^ m) = 2 ^ m * (2 ^ e * (if 2 ^ (e + m) ≤ x.toNat then 1 else 0)) + 2 ^ m * (x.toNat / 2 ^ m % 2 ^ e) := by
    rw [← Nat.mul_add, h2]
  rw [← h1]
  conv_lhs => rw [h5]
  rw [h1, pow_add]; ring

theorem mag_inj {m a b p q : Nat} (ha : a < 2 ^ m) (hb : b < 2 ^ m) (h : (if p = 0 then a else (2 ^ m + a) * 2 ^ (p - 1)) = (if q = 0 then b else (2 ^ m + b) * 2 ^ (q - 1))) : p = q ∧ a = b := by
  have step : ∀ (a b : Nat), a < 2 ^ m → b < 2 ^ m → ∀ k d : Nat, (2 ^ m + a) * 2 ^ k = (2 ^ m + b) * 2 ^ (k + d) → d = 0 := by
    intro a b ha hb k d h
    by_contra hd
    rw [pow_add, Nat.mul_comm (2 ^ k), ← Nat.mul_assoc] at h
    have h' := Nat.eq_of_mul_eq_mul_right (by positivity) h
    have : 2 ≤ 2 ^ d := by
      calc 2 = 2 ^ 1 := rfl
        _ ≤ 2 ^ d := Nat.pow_le_pow_right (by omega) (by omega)
    nlinarith
  rcases Nat.eq_zero_or_pos p with rfl | hp
  · rcases Nat.eq_zero_or_pos q with rfl | hq
    · simpa using h
    · rw [if_pos rfl, if_neg (by omega)] at h
      have : 1 ≤ 2 ^ (q - 1) := Nat.one_le_two_pow
      nlinarith
  · rcases Nat.eq_zero_or_pos q with rfl | hq
    · rw [if_neg (by omega), if_pos rfl] at h
      have : 1 ≤ 2 ^ (p - 1) := Nat.one_le_two_pow
      nlinarith
    · rw [if_neg (by omega), if_neg (by omega)] at h
      have hpq : p = q := by
        rcases Nat.le_total p q with hle | hle
        · have := step a b ha hb (p - 1) (q - p) (by rw [show p - 1 + (q - p) = q - 1 by omega]; exact h)
          omega
        · have := step b a hb ha (q - 1) (p - q) (by rw [show q - 1 + (p - q) = p - 1 by omega]; exact h.symm)
          omega
      subst hpq
      have := Nat.eq_of_mul_eq_mul_right (by positivity) h
      exact ⟨rfl, by omega⟩

theorem zero_iff (e m : Nat) (x : BitVec (1 + e + m)) : isZero (1 + e + m) x = true ↔ x.toNat % 2 ^ (e + m) = 0 := by
  simp only [isZero, beq_iff_eq]
  rw [← BitVec.toNat_inj, BitVec.toNat_setWidth, show 1 + e + m - 1 = e + m by omega]
  simp

/-- two patterns with the same value are the same pattern or the two zeros -/
theorem feq_iff (e m : Nat) (he : 0 < e) (x y : BitVec (1 + e + m)) : feq e m x y ↔ fval e m x ≠ .nan ∧ (x = y ∨ (isZero (1 + e + m) x = true ∧ isZero (1 + e + m) y = true)) := by
  obtain ⟨hx, hxe, hxm⟩ := parts e m x
  obtain ⟨hy, hye, hym⟩ := parts e m y
  have h2e : 2 ≤ 2 ^ e := by
    calc 2 = 2 ^ 1 := rfl
      _ ≤ 2 ^ e := Nat.pow_le_pow_right (by omega) (by omega)
  have zero_val : ∀ z : BitVec (1 + e + m), z.toNat / 2 ^ m % 2 ^ e * 2 ^ m + z.toNat % 2 ^ m = z.toNat % 2 ^ (e + m) := by
    intro z
    rw [Nat.add_comm e m, pow_add, Nat.mod_mul]; ring
  unfold feq
  refine and_congr_right fun hn => ?_
  constructor
  · intro h
    rw [zero_iff, zero_iff, ← zero_val x, ← zero_val y]
    have key : (x.toNat / 2 ^ m % 2 ^ e = y.toNat / 2 ^ m % 2 ^ e ∧ x.toNat % 2 ^ m = y.toNat % 2 ^ m ∧ ((2 ^ (e + m) ≤ x.toNat) ↔ (2 ^ (e + m) ≤ y.toNat))) ∨
        (x.toNat / 2 ^ m % 2 ^ e = 0 ∧ x.toNat % 2 ^ m = 0 ∧ y.toNat / 2 ^ m % 2 ^ e = 0 ∧ y.toNat % 2 ^ m = 0) := by
      simp only [fval] at h hn
      generalize x.toNat / 2 ^ m % 2 ^ e = p at *
      generalize y.toNat / 2 ^ m % 2 ^ e = q at *
      generalize x.toNat % 2 ^ m = a at *
      generalize y.toNat % 2 ^ m = b at *
      by_cases h1 : p = 2 ^ e - 1
      · rw [if_pos h1] at h hn
        by_cases h2 : a = 0
        · rw [if_pos h2] at h
          by_cases h3 : q = 2 ^ e - 1
          · rw [if_pos h3] at h
            by_cases h4 : b = 0
            · rw [if_pos h4] at h
              simp only [FVal.inf.injEq, decide_eq_decide] at h
              exact .inl ⟨by omega, by omega, h⟩
            · rw [if_neg h4] at h; cases h
          · rw [if_neg h3] at h; cases h
        · rw [if_neg h2] at hn; exact absurd rfl hn
      · rw [if_neg h1] at h
        by_cases h3 : q = 2 ^ e - 1
        · rw [if_pos h3] at h
          by_cases h4 : b = 0
          · rw [if_pos h4] at h; cases h
          · rw [if_neg h4] at h; cases h
        · rw [if_neg h3] at h
          simp only [FVal.fin.injEq, decide_eq_true_eq] at h
          have hmag : (if p = 0 then a else (2 ^ m + a) * 2 ^ (p - 1)) = (if q = 0 then b else (2 ^ m + b) * 2 ^ (q - 1)) := by
            split_ifs at h ⊢ <;> omega
          obtain ⟨rfl, rfl⟩ := mag_inj hxm hym hmag
          by_cases hz : (if p = 0 then a else (2 ^ m + a) * 2 ^ (p - 1)) = 0
          · right
            by_cases hp : p = 0
            · rw [if_pos hp] at hz
              exact ⟨hp, hz, hp, hz⟩
            · rw [if_neg hp] at hz
              have : 0 < (2 ^ m + a) * 2 ^ (p - 1) := by positivity
              omega
          · left
            refine ⟨rfl, rfl, ?_⟩
            generalize (if p = 0 then a else (2 ^ m + a) * 2 ^ (p - 1)) = g at *
            split_ifs at h with u v v <;> first | (constructor <;> intro _ <;> assumption) | (constructor <;> intro _ <;> contradiction) | omega
    rcases key with ⟨k1, k2, k3⟩ | ⟨k1, k2, k3, k4⟩
    · left
      apply BitVec.eq_of_toNat_eq
      rw [hx, hy, k1, k2]
      simp only [k3]
    · right
      rw [k1, k2, k3, k4]; simp
  · rintro (rfl | ⟨h1, h2⟩)
    · rfl
    · rw [zero_iff, ← zero_val] at h1 h2
      have hpos : 0 < 2 ^ m := by positivity
      have a1 : x.toNat / 2 ^ m % 2 ^ e = 0 := by
        rcases Nat.eq_zero_or_pos (x.toNat / 2 ^ m % 2 ^ e) with h | h
        · exact h
        · have := Nat.mul_pos h hpos; omega
      have a2 : y.toNat / 2 ^ m % 2 ^ e = 0 := by
        rcases Nat.eq_zero_or_pos (y.toNat / 2 ^ m % 2 ^ e) with h | h
        · exact h
        · have := Nat.mul_pos h hpos; omega
      have b1 : x.toNat % 2 ^ m = 0 := by omega
      have b2 : y.toNat % 2 ^ m = 0 := by omega
      simp only [fval, a1, a2, b1, b2]
      have h0 : ¬ 0 = 2 ^ e - 1 := by clear hx hy h1 h2 hxm hym; omega
      rw [if_neg h0, if_neg h0]
      simp

/-- **C100**, floating point as wide as `size_t` (float with a 32 bit `size_t`, double with a 64 bit one): numbers that compare equal,
the two zeros among them, have the same hash, and numbers that do not compare equal (and are no NaN) never collide. -/
theorem C100_float (z : SizeT) (big : Bool) (e m : Nat) (he : 0 < e) (hz : z.bits = 1 + e + m) (x y : BitVec (1 + e + m)) (hx : fval e m x ≠ .nan) :
    hashFloat z big (1 + e + m) x = hashFloat z big (1 + e + m) y ↔ feq e m x y := by
  rw [feq_iff e m he]
  have inj : ∀ a b : BitVec (1 + e + m), a.setWidth z.bits = b.setWidth z.bits ↔ a = b := by
    intro a b
    constructor
    · intro h
      apply BitVec.eq_of_toNat_eq
      have := congrArg BitVec.toNat h
      rw [BitVec.toNat_setWidth, BitVec.toNat_setWidth, hz, Nat.mod_eq_of_lt a.isLt, Nat.mod_eq_of_lt b.isLt] at this
      exact this
    · rintro rfl; rfl
  simp only [hashFloat, hz, if_true]
  rw [inj]
  have z0 : isZero (1 + e + m) 0#(1 + e + m) = true := by simp [isZero]
  by_cases h1 : isZero (1 + e + m) x = true
  · rw [if_pos h1]
    by_cases h2 : isZero (1 + e + m) y = true
    · rw [if_pos h2]; exact ⟨fun _ => ⟨hx, .inr ⟨h1, h2⟩⟩, fun _ => rfl⟩
    · rw [if_neg h2]
      constructor
      · intro h; rw [← h] at h2; exact absurd z0 h2
      · rintro ⟨_, rfl | ⟨_, h⟩⟩
        · exact absurd h1 h2
        · exact absurd h h2
  · rw [if_neg h1]
    by_cases h2 : isZero (1 + e + m) y = true
    · rw [if_pos h2]
      constructor
      · intro h; rw [h] at h1; exact absurd z0 h1
      · rintro ⟨_, rfl | ⟨h, _⟩⟩
        · exact absurd h2 h1
        · exact absurd h h1
    · rw [if_neg h2]
      constructor
      · intro h; exact ⟨hx, .inl h⟩
      · rintro ⟨_, h | ⟨h, _⟩⟩
        · exact h
        · exact absurd h h1

/-- the hypotheses are met by double on a 64 bit and float on a 32 bit platform -/
example : SizeT.s64.bits = 1 + 11 + 52 ∧ SizeT.s32.bits = 1 + 8 + 23 := by decide

/-- **C100**, floating point of another width than `size_t`: missing is the equality of the hashes of the two zeros, which is false (see
`C100_float_zeros`). -/
theorem C100_float_partial (z : SizeT) (big : Bool) (e m : Nat) (he : 0 < e) (x y : BitVec (1 + e + m)) (h : feq e m x y) (hnz : isZero (1 + e + m) x = false) :
    hashFloat z big (1 + e + m) x = hashFloat z big (1 + e + m) y := by
  rcases ((feq_iff e m he x y).1 h).2 with rfl | ⟨h1, _⟩
  · rfl
  · rw [h1] at hnz; cases hnz

/-- **Finding** (C100).  Where `size_t` is not as wide as the type, `0.0` and `-0.0` compare equal and have different hashes: `hash<float>`
with a 64 bit `size_t`, `hash<double>` with a 32 or a 16 bit one, whatever the byte order.  The normalisation of the zeros is
done only in the other branch. -/
theorem C100_float_zeros (big : Bool) :
    feq 8 23 0x00000000#32 0x80000000#32 ∧ hashFloat .s64 big 32 0x00000000#32 ≠ hashFloat .s64 big 32 0x80000000#32 ∧
    feq 11 52 0x0000000000000000#64 0x8000000000000000#64 ∧ hashFloat .s32 big 64 0x0000000000000000#64 ≠ hashFloat .s32 big 64 0x8000000000000000#64 ∧
    hashFloat .s16 big 64 0x0000000000000000#64 ≠ hashFloat .s16 big 64 0x8000000000000000#64 := by
  refine ⟨⟨by decide +kernel, by decide +kernel⟩, ?_, ⟨by decide +kernel, by decide +kernel⟩, ?_, ?_⟩ <;> cases big <;> decide +kernel

end Etl.StdHash
