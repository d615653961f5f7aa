import Verif.Limits.Model
import Mathlib.Tactic.Ring
import Mathlib.Tactic.Linarith

/-!
# limits.h and integral_limits.h (C118)
-/
namespace Etl.Limits

/-- Does the language count the type among the signed ones? -/
def Signed (p : Plat) : T → Prop
  | .char => p.charSigned = true
  | .wchar => p.wcharSigned = true
  | .schar => True
  | .short => True
  | .int => True
  | .long => True
  | .llong => True
  | _ => False

/-- The values an object of the type can have. -/
def Value (p : Plat) (t : T) (v : Int) : Prop :=
  (t = .bool ∧ (v = 0 ∨ v = 1)) ∨ (t ≠ .bool ∧ Signed p t ∧ -2 ^ (width p t - 1) ≤ v ∧ v < 2 ^ (width p t - 1)) ∨ (t ≠ .bool ∧ ¬ Signed p t ∧ 0 ≤ v ∧ v < 2 ^ width p t)

/-- What the language says of every platform; a byte of eight bits. -/
structure PlatOk (p : Plat) : Prop where
  byte : p.charBit = 8
  char : p.size .char = 1 ∧ p.size .schar = 1 ∧ p.size .uchar = 1 ∧ p.size .char8 = 1
  pos : ∀ t, 1 ≤ p.size t

theorem conv_id {n : Nat} (hn : 1 ≤ n) {s : Bool} {v : Int} (h1 : s = true → -2 ^ (n - 1) ≤ v ∧ v < 2 ^ (n - 1)) (h2 : s = false → 0 ≤ v ∧ v < 2 ^ n) : conv n s v = v := by
  have hp : (2 : Int) ^ n = 2 * 2 ^ (n - 1) := by
    obtain ⟨m, rfl⟩ : ∃ m, n = m + 1 := ⟨n - 1, by omega⟩
    rw [Nat.add_sub_cancel, Int.pow_succ]; omega
  unfold conv
  rw [hp]
  have hpos : (0 : Int) < 2 ^ (n - 1) := Int.pow_pos (by omega)
  generalize (2 : Int) ^ (n - 1) = x at *
  cases s with
  | true =>
    obtain ⟨a, b⟩ := h1 rfl
    rcases Int.lt_or_le v 0 with h | h
    · have : v % (2 * x) = v + 2 * x := by
        rw [← Int.add_emod_right]; exact Int.emod_eq_of_lt (by omega) (by omega)
      rw [this, if_pos (by simp; omega)]; omega
    · have : v % (2 * x) = v := Int.emod_eq_of_lt (by omega) (by omega)
      rw [this, if_neg (by simp; omega)]
  | false =>
    obtain ⟨a, b⟩ := h2 rfl
    rw [hp] at b
    have : v % (2 * x) = v := Int.emod_eq_of_lt (by omega) (by omega)
    rw [this, if_neg (by simp)]

theorem width_pos {p : Plat} (h : PlatOk p) (t : T) : 8 ≤ width p t := by
  unfold width; rw [h.byte]; have := h.pos t; omega

theorem isSigned_iff {p : Plat} (h : PlatOk p) (t : T) : isSigned p t = true ↔ Signed p t := by
  cases t with
  | char =>
    have hw : width p .char = 8 := by unfold width; rw [h.byte, h.char.1]
    simp only [isSigned, Signed, hw]
    cases p.charSigned <;> decide
  | wchar =>
    have hw := width_pos h .wchar
    simp only [isSigned, Signed, decide_eq_true_eq]
    cases hs : p.wcharSigned with
    | true =>
      rw [conv_id (by omega) (fun _ => ?_) (by simp)]
      · simp
      · have : (0 : Int) < 2 ^ (width p .wchar - 1) := Int.pow_pos (by omega)
        omega
    | false =>
      simp only [conv, Bool.false_and, Bool.false_eq_true, if_false, iff_false]
      have : (0 : Int) < 2 ^ width p .wchar := Int.pow_pos (by omega)
      have := Int.emod_nonneg (-1) (b := 2 ^ width p .wchar) (by omega)
      omega
  | _ => simp [isSigned, Signed]

theorem isUnsigned_iff {p : Plat} (h : PlatOk p) (t : T) (ht : t = .char ∨ t = .wchar) : isUnsigned p t = true ↔ ¬ Signed p t := by
  rcases ht with rfl | rfl
  · have hw : width p .char = 8 := by unfold width; rw [h.byte, h.char.1]
    simp only [isUnsigned, Signed, hw]
    cases p.charSigned <;> decide
  · have hw := width_pos h .wchar
    simp only [isUnsigned, Signed, decide_eq_true_eq]
    cases hs : p.wcharSigned with
    | true =>
      rw [conv_id (by omega) (fun _ => ?_) (by simp)]
      · simp
      · have : (0 : Int) < 2 ^ (width p .wchar - 1) := Int.pow_pos (by omega)
        omega
    | false =>
      simp only [conv, Bool.false_and, Bool.false_eq_true, if_false, not_false_eq_true, iff_true]
      have h2 : (2 : Int) ≤ 2 ^ width p .wchar := by
        obtain ⟨m, hm⟩ : ∃ m, width p .wchar = m + 1 := ⟨width p .wchar - 1, by omega⟩
        rw [hm, Int.pow_succ]
        have : (0 : Int) < 2 ^ m := Int.pow_pos (by omega)
        omega
      have : (-1 : Int) % 2 ^ width p .wchar = 2 ^ width p .wchar - 1 := by
        rw [← Int.add_emod_right]; exact Int.emod_eq_of_lt (by omega) (by omega)
      rw [this]; omega

/-- The specification of the row of a type. -/
structure Describes (p : Plat) (t : T) (r : Row) : Prop where
  range : ∀ v, Value p t v ↔ r.min ≤ v ∧ v ≤ r.max
  lowest : r.lowest = r.min
  digits : r.max = 2 ^ r.digits - 1
  signed : r.isSigned = true ↔ Signed p t
  modulo : r.isModulo = true ↔ ¬ Signed p t ∧ t ≠ .bool
  digits10 : r.digits ≤ 195 → (10 : Int) ^ r.digits10 ≤ r.max + 1 ∧ r.max < 10 ^ (r.digits10 + 1)

theorem digits10_ok (d : Nat) (h : d ≤ 195) : (10 : Int) ^ d10 d ≤ 2 ^ d - 1 + 1 ∧ (2 : Int) ^ d - 1 < 10 ^ (d10 d + 1) := by
  have key : ∀ d : Fin 196, 10 ^ Ratio.digits10 d ≤ 2 ^ (d : Nat) ∧ 2 ^ (d : Nat) < 10 ^ (Ratio.digits10 d + 1) := by decide +kernel
  obtain ⟨a, b⟩ := key ⟨d, by omega⟩
  have a' : ((10 ^ Ratio.digits10 d : Nat) : Int) ≤ (2 ^ d : Nat) := by exact_mod_cast a
  have b' : ((2 ^ d : Nat) : Int) < (10 ^ (Ratio.digits10 d + 1) : Nat) := by exact_mod_cast b
  push_cast at a' b'
  constructor
  · unfold d10; omega
  · unfold d10; omega

theorem signed_row {p : Plat} {t : T} (hs : Signed p t) (hb : t ≠ .bool) (d : Nat) (hd : d = width p t - 1) : Describes p t ⟨sMin p t, sMax p t, sMin p t, d, d10 d, true, false⟩ where
  range v := by
    simp only [Value, hb, hs, false_and, not_true_eq_false, ne_eq, not_false_eq_true, true_and, false_or, or_false, sMin, sMax]; omega
  lowest := rfl
  digits := by show sMax p t = 2 ^ d - 1; rw [hd]; rfl
  signed := by simp [hs]
  modulo := by simp [hs]
  digits10 h := by show (10 : Int) ^ d10 d ≤ sMax p t + 1 ∧ sMax p t < 10 ^ (d10 d + 1); unfold sMax; rw [← hd]; exact digits10_ok d h

theorem unsigned_row {p : Plat} {t : T} (hs : ¬ Signed p t) (hb : t ≠ .bool) (d : Nat) (hd : d = width p t) : Describes p t ⟨0, uMax p t, 0, d, d10 d, false, true⟩ where
  range v := by
    simp only [Value, hb, hs, false_and, and_false, ne_eq, not_false_eq_true, true_and, false_or, uMax]; omega
  lowest := rfl
  digits := by show uMax p t = 2 ^ d - 1; rw [hd]; rfl
  signed := by simp [hs]
  modulo := by simp [hs, hb]
  digits10 h := by show (10 : Int) ^ d10 d ≤ uMax p t + 1 ∧ uMax p t < 10 ^ (d10 d + 1); unfold uMax; rw [← hd]; exact digits10_ok d h

/-- **C118** for all types but `char8_t`: `min` and `max` are the ends of the range of values of the type on the platform, `lowest` is `min`, `digits` is the number of value bits, `digits10` the number of decimal digits that always fit, and the flags are right. -/
theorem C118_numeric_limits_partial (p : Plat) (h : PlatOk p) (t : T) (ht : t ≠ .char8) : Describes p t (numericLimits p t) := by
  have hc : width p .schar = width p .char := by unfold width; rw [h.char.2.1, h.char.1]
  have hu : width p .uchar = width p .char := by unfold width; rw [h.char.2.2.1, h.char.1]
  cases t with
  | char8 => exact absurd rfl ht
  | bool =>
    refine ⟨fun v => ?_, rfl, rfl, by simp [numericLimits, Signed], by simp [numericLimits], fun _ => (by decide : (10 : Int) ^ 0 ≤ 1 + 1 ∧ (1 : Int) < 10 ^ (0 + 1))⟩
    simp only [Value, numericLimits, true_and, ne_eq, not_true_eq_false, false_and, or_false]; omega
  | char =>
    have hw := width_pos h .char
    cases hs : p.charSigned with
    | true =>
      have hS : Signed p .char := hs
      have h1 : isSigned p .char = true := (isSigned_iff h .char).2 hS
      have h2 : isUnsigned p .char = false := by
        cases hx : isUnsigned p .char with
        | false => rfl
        | true => exact absurd hS ((isUnsigned_iff h .char (.inl rfl)).1 hx)
      have hpos : (0 : Int) < 2 ^ (width p .char - 1) := Int.pow_pos (by omega)
      have hm : conv (width p .char) true (sMin p .schar) = sMin p .char := by
        have : sMin p .schar = sMin p .char := by unfold sMin; rw [hc]
        rw [this]; exact conv_id (by omega) (fun _ => by unfold sMin; omega) (by simp)
      have hM : conv (width p .char) true (sMax p .schar) = sMax p .char := by
        have : sMax p .schar = sMax p .char := by unfold sMax; rw [hc]
        rw [this]; exact conv_id (by omega) (fun _ => by unfold sMax; omega) (by simp)
      have := signed_row hS (by simp) (width p .char - 1) rfl
      simp only [numericLimits, charMin, charMax, hs, h1, h2, if_true, hm, hM, one]
      exact this
    | false =>
      have hS : ¬ Signed p .char := by simp [Signed, hs]
      have h1 : isSigned p .char = false := by
        cases hx : isSigned p .char with
        | false => rfl
        | true => exact absurd ((isSigned_iff h .char).1 hx) hS
      have h2 : isUnsigned p .char = true := (isUnsigned_iff h .char (.inl rfl)).2 hS
      have hpos : (0 : Int) < 2 ^ width p .char := Int.pow_pos (by omega)
      have hm : conv (width p .char) false 0 = 0 := conv_id (by omega) (by simp) (fun _ => by omega)
      have hM : conv (width p .char) false (uMax p .uchar) = uMax p .char := by
        have : uMax p .uchar = uMax p .char := by unfold uMax; rw [hu]
        rw [this]; exact conv_id (by omega) (by simp) (fun _ => by unfold uMax; omega)
      have := unsigned_row hS (by simp) (width p .char) rfl
      simp only [numericLimits, charMin, charMax, hs, h1, h2, if_false, Bool.false_eq_true, hm, hM, one]
      exact this
  | wchar =>
    cases hs : p.wcharSigned with
    | true =>
      have hS : Signed p .wchar := hs
      have h1 : isSigned p .wchar = true := (isSigned_iff h .wchar).2 hS
      have h2 : isUnsigned p .wchar = false := by
        cases hx : isUnsigned p .wchar with
        | false => rfl
        | true => exact absurd hS ((isUnsigned_iff h .wchar (.inr rfl)).1 hx)
      simp only [numericLimits, wcharMin, wcharMax, hs, h1, h2, if_true, one]
      exact signed_row hS (by simp) (width p .wchar - 1) rfl
    | false =>
      have hS : ¬ Signed p .wchar := by simp [Signed, hs]
      have h1 : isSigned p .wchar = false := by
        cases hx : isSigned p .wchar with
        | false => rfl
        | true => exact absurd ((isSigned_iff h .wchar).1 hx) hS
      have h2 : isUnsigned p .wchar = true := (isUnsigned_iff h .wchar (.inr rfl)).2 hS
      simp only [numericLimits, wcharMin, wcharMax, hs, h1, h2, if_false, Bool.false_eq_true, one]
      exact unsigned_row hS (by simp) (width p .wchar) rfl
  | schar => exact signed_row (t := .schar) trivial (by simp) _ (by rw [hc]; rfl)
  | short => exact signed_row (t := .short) trivial (by simp) _ rfl
  | int => exact signed_row (t := .int) trivial (by simp) _ rfl
  | long => exact signed_row (t := .long) trivial (by simp) _ rfl
  | llong => exact signed_row (t := .llong) trivial (by simp) _ rfl
  | uchar => exact unsigned_row (t := .uchar) (fun h => h) (by simp) _ rfl
  | char16 => exact unsigned_row (t := .char16) (fun h => h) (by simp) _ rfl
  | char32 => exact unsigned_row (t := .char32) (fun h => h) (by simp) _ rfl
  | ushort => exact unsigned_row (t := .ushort) (fun h => h) (by simp) _ rfl
  | uint => exact unsigned_row (t := .uint) (fun h => h) (by simp) _ rfl
  | ulong => exact unsigned_row (t := .ulong) (fun h => h) (by simp) _ rfl
  | ullong => exact unsigned_row (t := .ullong) (fun h => h) (by simp) _ rfl

/-- **C118** for `integral_limits`: where it is defined, the range, the width and the signedness are right; so is the type named, but for `unsigned long long`. -/
theorem C118_integral_limits_partial (p : Plat) (h : PlatOk p) (t : T) (r : IRow) (hr : integralLimits p t = some r) :
    (∀ v, Value p t v ↔ r.min ≤ v ∧ v ≤ r.max) ∧ r.bits = width p t ∧ (r.isSigned = true ↔ Signed p t) ∧ (t ≠ .ullong → r.valueType = t) := by
  have hc : width p .schar = width p .char := by unfold width; rw [h.char.2.1, h.char.1]
  have hu : width p .uchar = width p .char := by unfold width; rw [h.char.2.2.1, h.char.1]
  have hb : ∀ t, p.charBit * (p.size t / p.size .char) = width p t := fun t => by unfold width; rw [h.char.1, Nat.div_one]
  have h8 : ∀ t, p.size t = 1 → p.charBit = width p t := fun t ht => by unfold width; rw [ht, Nat.mul_one]
  have sg : ∀ t, Signed p t → t ≠ .bool → ∀ v, Value p t v ↔ sMin p t ≤ v ∧ v ≤ sMax p t := fun t hs hb => (signed_row hs hb _ rfl).range
  have us : ∀ t, ¬ Signed p t → t ≠ .bool → ∀ v, Value p t v ↔ 0 ≤ v ∧ v ≤ uMax p t := fun t hs hb => (unsigned_row hs hb _ rfl).range
  cases t with
  | schar => injection hr with hr; subst hr; exact ⟨sg _ trivial (by simp), h8 _ h.char.2.1, isSigned_iff h .schar, fun _ => rfl⟩
  | uchar => injection hr with hr; subst hr; exact ⟨us _ (fun h => h) (by simp), h8 _ h.char.2.2.1, isSigned_iff h .uchar, fun _ => rfl⟩
  | char =>
    injection hr with hr; subst hr
    refine ⟨?_, h8 _ h.char.1, isSigned_iff h .char, fun _ => rfl⟩
    cases hs : p.charSigned with
    | true =>
      have hS : Signed p .char := hs
      have h1 : isSigned p .char = true := (isSigned_iff h .char).2 hS
      have e1 : sMin p .schar = sMin p .char := by unfold sMin; rw [hc]
      have e2 : sMax p .schar = sMax p .char := by unfold sMax; rw [hc]
      simp only [h1, if_true, e1, e2]
      exact sg _ hS (by simp)
    | false =>
      have hS : ¬ Signed p .char := by simp [Signed, hs]
      have h1 : isSigned p .char = false := by
        cases hx : isSigned p .char with
        | false => rfl
        | true => exact absurd ((isSigned_iff h .char).1 hx) hS
      have hw := width_pos h .char
      have hpos : (0 : Int) < 2 ^ width p .char := Int.pow_pos (by omega)
      have hM : conv (width p .char) false (uMax p .uchar) = uMax p .char := by
        have : uMax p .uchar = uMax p .char := by unfold uMax; rw [hu]
        rw [this]; exact conv_id (by omega) (by simp) (fun _ => by unfold uMax; omega)
      simp only [h1, if_false, Bool.false_eq_true, hM]
      exact us _ hS (by simp)
  | short => injection hr with hr; subst hr; exact ⟨sg _ trivial (by simp), hb _, isSigned_iff h .short, fun _ => rfl⟩
  | ushort => injection hr with hr; subst hr; exact ⟨us _ (fun h => h) (by simp), hb _, isSigned_iff h .ushort, fun _ => rfl⟩
  | int => injection hr with hr; subst hr; exact ⟨sg _ trivial (by simp), hb _, isSigned_iff h .int, fun _ => rfl⟩
  | uint => injection hr with hr; subst hr; exact ⟨us _ (fun h => h) (by simp), hb _, isSigned_iff h .uint, fun _ => rfl⟩
  | long => injection hr with hr; subst hr; exact ⟨sg _ trivial (by simp), hb _, isSigned_iff h .long, fun _ => rfl⟩
  | ulong => injection hr with hr; subst hr; exact ⟨us _ (fun h => h) (by simp), hb _, isSigned_iff h .ulong, fun _ => rfl⟩
  | llong => injection hr with hr; subst hr; exact ⟨sg _ trivial (by simp), hb _, isSigned_iff h .llong, fun _ => rfl⟩
  | ullong => injection hr with hr; subst hr; exact ⟨us _ (fun h => h) (by simp), hb _, isSigned_iff h .ullong, fun e => absurd rfl e⟩
  | bool => cases hr
  | char8 => cases hr
  | char16 => cases hr
  | char32 => cases hr
  | wchar => cases hr

/-- Which types `integral_limits` has. -/
theorem C118_which (p : Plat) (t : T) : integralLimits p t = none ↔ t ∈ [T.bool, .char8, .char16, .char32, .wchar] := by
  cases t <;> simp [integralLimits]

/-- The traits `is_signed` and `is_unsigned` without the STL: the first is right for every type.
**Finding**: the second answers false for the three types `char8_t`, `char16_t` and `char32_t`, which are unsigned; it is right for the others. -/
theorem C118_traits_partial (p : Plat) (h : PlatOk p) (t : T) : (isSigned p t = true ↔ Signed p t) ∧ (isUnsigned p t = true ↔ ¬ Signed p t ∧ t ∉ [T.char8, .char16, .char32]) := by
  refine ⟨isSigned_iff h t, ?_⟩
  cases t with
  | char => rw [isUnsigned_iff h .char (.inl rfl)]; simp
  | wchar => rw [isUnsigned_iff h .wchar (.inr rfl)]; simp
  | _ => simp [isUnsigned, Signed]

/-- A 64 bit Linux. -/
def lp64 : Plat where
  charBit := 8
  size | .bool => 1 | .char => 1 | .uchar => 1 | .schar => 1 | .char8 => 1 | .char16 => 2 | .char32 => 4 | .wchar => 4 | .short => 2 | .ushort => 2 | .int => 4 | .uint => 4 | .long => 8 | .ulong => 8 | .llong => 8 | .ullong => 8
  charSigned := true
  wcharSigned := true

theorem lp64_ok : PlatOk lp64 := ⟨rfl, ⟨rfl, rfl, rfl, rfl⟩, fun t => by cases t <;> decide⟩

example : Describes lp64 .int ⟨-2147483648, 2147483647, -2147483648, 31, 9, true, false⟩ := C118_numeric_limits_partial lp64 lp64_ok .int (by simp)
example : integralLimits lp64 .char = some ⟨.char, -128, 127, 8, true⟩ := by decide +kernel

/-- **Finding**: where `char` is signed, the `numeric_limits` of the unsigned type `char8_t` are taken from those of `char`: its least value is 128 and its greatest is 127. -/
theorem C118_char8 (p : Plat) (h : PlatOk p) (hs : p.charSigned = true) : (numericLimits p .char8).min = 128 ∧ (numericLimits p .char8).lowest = 128 ∧ (numericLimits p .char8).max = 127 ∧ (numericLimits p .char8).digits = 8 ∧ (∀ v, Value p .char8 v ↔ 0 ≤ v ∧ v ≤ 255) := by
  have hw : width p .char8 = 8 := by unfold width; rw [h.byte, h.char.2.2.2]
  have hc : width p .schar = 8 := by unfold width; rw [h.byte, h.char.2.1]
  have h1 : p.charBit * p.size .char8 = 8 := hw
  refine ⟨?_, ?_, ?_, ?_, fun v => ?_⟩
  · simp only [numericLimits, charMin, hs, if_true, hw, sMin, hc]; decide
  · simp only [numericLimits, charMin, hs, if_true, hw, sMin, hc]; decide
  · simp only [numericLimits, charMax, hs, if_true, hw, sMax, hc]; decide
  · simp only [numericLimits, h1, isSigned, one]; rfl
  · simp only [Value, hw, Signed]; simp; omega

/-- **Finding**: the range is right where `char` is unsigned, but even then `char8_t`, an unsigned type, is said not to be modular. -/
theorem C118_char8_unsigned (p : Plat) (h : PlatOk p) (hs : p.charSigned = false) : (∀ v, Value p .char8 v ↔ (numericLimits p .char8).min ≤ v ∧ v ≤ (numericLimits p .char8).max) ∧ (numericLimits p .char8).isModulo = false := by
  have hw : width p .char8 = 8 := by unfold width; rw [h.byte, h.char.2.2.2]
  have hu : width p .uchar = 8 := by unfold width; rw [h.byte, h.char.2.2.1]
  have e1 : (numericLimits p .char8).min = 0 := by simp only [numericLimits, charMin, hs, if_false, Bool.false_eq_true, hw]; decide
  have e2 : (numericLimits p .char8).max = 255 := by simp only [numericLimits, charMax, hs, if_false, Bool.false_eq_true, hw, uMax, hu]; decide
  refine ⟨fun v => ?_, rfl⟩
  rw [e1, e2]
  simp only [Value, hw, Signed]; simp; omega

/-- **Finding**: `integral_limits<unsigned long long>::value_type` is `unsigned long`, a smaller type on many platforms. -/
theorem C118_value_type (p : Plat) : (integralLimits p .ullong).map IRow.valueType = some .ulong := rfl

/-- **Finding**: on a platform with bytes of 16 bits and signed `char`, `is_signed<char>` looks at `char(255)`, which is not negative there: `char` passes for unsigned. -/
theorem C118_wide_char : ∃ p : Plat, p.charBit = 16 ∧ (∀ t, p.size t = 1) ∧ Signed p .char ∧ isSigned p .char = false ∧ isUnsigned p .char = true ∧ (numericLimits p .char).isSigned = false ∧ (numericLimits p .char).min < 0 :=
  ⟨⟨16, fun _ => 1, true, true⟩, rfl, fun _ => rfl, rfl, by decide, by decide, by decide, by decide⟩

end Etl.Limits
