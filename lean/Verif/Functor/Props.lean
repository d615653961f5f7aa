/-
C99: limiter, threshold, quantize, rescale, invert.  Specification, theorems, findings.
-/
import Mathlib.Tactic.FieldSimp
import Mathlib.Tactic.Positivity
import Mathlib.Tactic.Ring
import Mathlib.Data.BitVec
import Verif.Functor.Model

namespace Etl.Functor

/-- C99: a limiter returns the value if it lies between the limits, and otherwise the limit it lies beyond: always a value between the limits, and no value between the limits is nearer; a second limiter changes nothing; the order of two values is kept. -/
theorem C99_limiter {α : Type} [LinearOrder α] (lowest highest : α) (h : lowest ≤ highest) (value : α) :
    lowest ≤ limiter (fun a b => decide (a < b)) lowest highest value ∧ limiter (fun a b => decide (a < b)) lowest highest value ≤ highest ∧
    (lowest ≤ value → value ≤ highest → limiter (fun a b => decide (a < b)) lowest highest value = value) ∧
    (value ≤ lowest → limiter (fun a b => decide (a < b)) lowest highest value = lowest) ∧ (highest ≤ value → limiter (fun a b => decide (a < b)) lowest highest value = highest) ∧
    ∀ other, value ≤ other → limiter (fun a b => decide (a < b)) lowest highest value ≤ limiter (fun a b => decide (a < b)) lowest highest other := by
  have e : ∀ v, limiter (fun a b => decide (a < b)) lowest highest v = max lowest (min v highest) := by
    intro v
    unfold limiter
    simp only [decide_eq_true_eq]
    split
    · next h1 => exact (max_eq_left ((min_le_left _ _).trans h1.le)).symm
    · next h1 =>
      split
      · next h2 => rw [min_eq_right h2.le, max_eq_right h]
      · next h2 => rw [min_eq_left (not_lt.mp h2), max_eq_right (not_lt.mp h1)]
  simp only [e]
  refine ⟨le_max_left _ _, max_le h (min_le_right _ _), fun h1 h2 => ?_, fun h1 => ?_, fun h1 => ?_, fun o ho => ?_⟩
  · rw [min_eq_left h2, max_eq_right h1]
  · exact max_eq_left ((min_le_left _ _).trans h1)
  · rw [min_eq_right h1, max_eq_right h]
  · exact max_le_max le_rfl (min_le_min ho le_rfl)

/-- C99: a threshold returns the one value for the inputs the comparison puts before the threshold, the other for the rest. -/
theorem C99_threshold {α : Type} (compare : α → α → Bool) (t a b value : α) : (compare value t = true → threshold compare t a b value = a) ∧ (compare value t = false → threshold compare t a b value = b) :=
  ⟨fun h => by unfold threshold; rw [h]; rfl, fun h => by unfold threshold; rw [h]; rfl⟩

theorem quantizeLoop_ok {α : Type} (compare : α → α → Bool) (ts qs : List α) (value : α) (fuel : Nat) : ∀ i, i + fuel ≤ ts.length → i + fuel < qs.length → (∀ k (hk : k < ts.length), k < i → compare value ts[k] = false) →
    ∃ (j : Nat) (hj : j < qs.length), quantizeLoop compare ts qs value i fuel = .ok qs[j] ∧ i ≤ j ∧ j ≤ i + fuel ∧ (∀ k (hk : k < ts.length), k < j → compare value ts[k] = false) ∧ (j < i + fuel → ∃ hj : j < ts.length, compare value ts[j] = true) := by
  induction fuel with
  | zero =>
    intro i _ h2 h3
    refine ⟨i, by omega, ?_, le_rfl, le_rfl, h3, fun h => absurd h (lt_irrefl _)⟩
    unfold quantizeLoop; rw [List.getElem?_eq_getElem (by omega)]
  | succ fuel ih =>
    intro i h1 h2 h3
    unfold quantizeLoop
    rw [List.getElem?_eq_getElem (show i < ts.length by omega)]
    simp only
    cases hc : compare value ts[i] with
    | true =>
      refine ⟨i, by omega, ?_, le_rfl, by omega, h3, fun _ => ⟨by omega, hc⟩⟩
      rw [if_pos rfl, List.getElem?_eq_getElem (show i < qs.length by omega)]
    | false =>
      rw [if_neg (by simp)]
      obtain ⟨j, hj, e, a1, a2, a3, a4⟩ := ih (i + 1) (by omega) (by omega) (fun k hk hki => by
        rcases Nat.lt_succ_iff_lt_or_eq.mp hki with h | h
        · exact h3 k hk h
        · subst h; exact hc)
      exact ⟨j, hj, e, by omega, by omega, a3, fun h => a4 (by omega)⟩

/-- C99: a quantizer with n values and n - 1 thresholds, for every order: the value it returns is the one whose number is that of the first threshold the input comes before, or the last one if it comes before none; nothing outside the arrays is read. -/
theorem C99_quantize {α : Type} (W : Nat) (compare : α → α → Bool) (ts qs : List α) (value : α) (hq : qs.length = ts.length + 1) (hW : qs.length < 2 ^ W) :
    ∃ (j : Nat) (hj : j < qs.length), quantize W compare ts qs qs.length value = .ok qs[j] ∧ (∀ k (hk : k < ts.length), k < j → compare value ts[k] = false) ∧ (∀ hj : j < ts.length, compare value ts[j] = true) := by
  have e : (qs.length + (2 ^ W - 1)) % 2 ^ W = ts.length := by
    rw [show qs.length + (2 ^ W - 1) = ts.length + 2 ^ W by omega, Nat.add_mod_right, Nat.mod_eq_of_lt (by omega)]
  unfold quantize
  rw [e]
  obtain ⟨j, hj, e, _, _, a3, a4⟩ := quantizeLoop_ok compare ts qs value ts.length 0 (by omega) (by omega) (fun k _ h => absurd h (Nat.not_lt_zero _))
  exact ⟨j, hj, e, a3, fun h => (a4 (by omega)).2⟩

theorem trunc_mono {a b : ℚ} (h : a ≤ b) : trunc a ≤ trunc b := by
  unfold trunc
  split
  · next h1 => rw [if_pos (h1.trans h)]; exact Int.floor_le_floor h
  · next h1 =>
    split
    · next h2 => exact (Int.ceil_le.mpr (by push_cast; linarith [not_le.mp h1])).trans (Int.floor_nonneg.mpr h2)
    · exact Int.ceil_le_ceil h
theorem trunc_int (n : ℤ) : trunc (n : ℚ) = n := by unfold trunc; split <;> simp
theorem trunc_near (q : ℚ) : |(trunc q : ℚ) - q| < 1 := by
  unfold trunc
  split
  · rw [abs_sub_lt_iff]; constructor <;> linarith [Int.floor_le q, Int.lt_floor_add_one q]
  · rw [abs_sub_lt_iff]; constructor <;> linarith [Int.le_ceil q, Int.ceil_lt_add_one q]

/-- C99: rescaling (in exact arithmetic), for every input range that is not empty and every output range, increasing or not: it maps the ends of the one range to the ends of the other, differs by less than one from the straight line between them, keeps the order of inputs
if the output range increases and reverses it if it decreases, and maps the input range into the output range. -/
theorem C99_rescale (imin imax omin omax : ℤ) (h : imin < imax) :
    ∃ f : ℤ → ℤ, (∀ v, rescale imin imax omin omax v = .ok (f v)) ∧ f imin = omin ∧ f imax = omax ∧
      (∀ v, |(f v : ℚ) - (omin + (v - imin : ℤ) * ((omax - omin : ℤ) : ℚ) / (imax - imin : ℤ))| < 1) ∧
      (omin ≤ omax → ∀ v u, v ≤ u → f v ≤ f u) ∧ (omax ≤ omin → ∀ v u, v ≤ u → f u ≤ f v) ∧
      (∀ v, imin ≤ v → v ≤ imax → min omin omax ≤ f v ∧ f v ≤ max omin omax) := by
  have hd : (0 : ℚ) < ((imax - imin : ℤ) : ℚ) := by exact_mod_cast sub_pos.mpr h
  obtain ⟨f, hf⟩ : ∃ f : ℤ → ℤ, f = fun value => trunc (((value - imin : ℤ) : ℚ) * (((omax - omin : ℤ) : ℚ) / ((imax - imin : ℤ) : ℚ))) + omin := ⟨_, rfl⟩
  have h1 : f imin = omin := by rw [hf]; simp [trunc]
  have h2 : f imax = omax := by
    rw [hf]; simp only
    rw [mul_div_cancel₀ _ hd.ne', trunc_int]; ring
  have up : omin ≤ omax → ∀ v u, v ≤ u → f v ≤ f u := by
    intro ho v u hvu
    rw [hf]; simp only
    have hm : (0 : ℚ) ≤ ((omax - omin : ℤ) : ℚ) / ((imax - imin : ℤ) : ℚ) := div_nonneg (by exact_mod_cast sub_nonneg.mpr ho) hd.le
    have : ((v - imin : ℤ) : ℚ) ≤ ((u - imin : ℤ) : ℚ) := by exact_mod_cast sub_le_sub_right hvu imin
    linarith [trunc_mono (mul_le_mul_of_nonneg_right this hm)]
  have down : omax ≤ omin → ∀ v u, v ≤ u → f u ≤ f v := by
    intro ho v u hvu
    rw [hf]; simp only
    have hm : ((omax - omin : ℤ) : ℚ) / ((imax - imin : ℤ) : ℚ) ≤ 0 := div_nonpos_of_nonpos_of_nonneg (by exact_mod_cast sub_nonpos.mpr ho) hd.le
    have : ((v - imin : ℤ) : ℚ) ≤ ((u - imin : ℤ) : ℚ) := by exact_mod_cast sub_le_sub_right hvu imin
    linarith [trunc_mono (mul_le_mul_of_nonpos_right this hm)]
  refine ⟨f, fun v => ?_, h1, h2, fun v => ?_, up, down, fun v hv1 hv2 => ?_⟩
  · unfold rescale; rw [if_neg (by omega), hf]
  · have := trunc_near (((v - imin : ℤ) : ℚ) * (((omax - omin : ℤ) : ℚ) / ((imax - imin : ℤ) : ℚ)))
    rw [hf]
    simp only
    rw [mul_div_assoc, Int.cast_add]
    rw [show ∀ a b c : ℚ, a + b - (b + c) = a - c from fun a b c => by ring]
    exact this
  · rcases le_total omin omax with ho | ho
    · have a := up ho _ _ hv1; have b := up ho _ _ hv2
      rw [h1] at a; rw [h2] at b
      rw [min_eq_left ho, max_eq_right ho]; exact ⟨a, b⟩
    · have a := down ho _ _ hv1; have b := down ho _ _ hv2
      rw [h1] at a; rw [h2] at b
      rw [min_eq_right ho, max_eq_left ho]; exact ⟨b, a⟩

/-- C99: inverting twice gives the value back, whatever the offset, the minuend and the value; without parameters, an unsigned value is subtracted from the largest, a signed one from zero. -/
theorem C99_invert {w : Nat} (offset minuend value : BitVec w) : invert offset minuend (invert offset minuend value) = value ∧ (invertDefault false value).toNat = 2 ^ w - 1 - value.toNat ∧ invertDefault true value = -value := by
  refine ⟨?_, ?_, ?_⟩
  · unfold invert
    ring
  · unfold invertDefault invert
    simp only [Bool.false_eq_true, if_false, BitVec.sub_zero]
    have := value.isLt
    rw [BitVec.toNat_sub_of_le (by rw [BitVec.le_def, BitVec.toNat_allOnes]; omega), BitVec.toNat_allOnes]
  · unfold invertDefault invert
    simp

/-! ### Concrete cases -/

example : [1, 4, 7, 12].map (limiter (fun a b => decide (a < b)) 3 10) = [3, 4, 7, 10] := by decide
example : [0, 5, 10, 25].map (fun v => (quantize 64 (fun a b => decide (a < b)) [5, 10, 20] [100, 101, 102, 103] 4 v).toOption) = [some 100, some 101, some 102, some 103] := by decide +kernel
example : [0, 5, 10, 7].map (fun v => (rescale 0 10 100 0 v).toOption) = [some 100, some 50, some 0, some 30] := by decide +kernel
example : invertDefault (w := 8) false 200#8 = 55#8 ∧ invertDefault (w := 8) true 1#8 = 255#8 := by decide

/-! ### Findings -/

/-- a quantizer for zero values counts 2^64 - 1 levels and reads beyond the thresholds -/
theorem C99_quantize_empty (value : Nat) : quantize 64 (fun a b => decide (a < b)) [] [] 0 value = .error .outside := rfl
/-- the smallest signed value is its own inverse -/
theorem C99_invert_lowest : invertDefault (w := 8) true 128#8 = 128#8 := by decide

end Etl.Functor
