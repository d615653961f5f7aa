import Verif.Ratio.Model
import Verif.Maths.Props
import Mathlib.Data.Rat.Lemmas
import Mathlib.Data.Nat.Choose.Basic
import Mathlib.RingTheory.Coprime.Lemmas
import Mathlib.Algebra.Order.Ring.Abs
import Mathlib.Tactic.FieldSimp
import Mathlib.Tactic.Ring
import Mathlib.Tactic.Linarith

/-!
# C114: compile time ratios are exact rational numbers
-/
namespace Etl.Ratio

/-! ## Specification -/

/-- The rational number a ratio stands for. -/
def val (r : R) : ℚ := (r.num : ℚ) / (r.den : ℚ)
/-- In lowest terms with a positive denominator. -/
def Lowest (r : R) : Prop := 0 < r.den ∧ Int.gcd r.num r.den = 1
/-- Numerator and denominator have at most `n` bits. -/
def Small (n : Nat) (r : R) : Prop := |r.num| < 2 ^ n ∧ |r.den| < 2 ^ n

/-! ## The operations of the compiler -/

theorem chk_sound {x y : Int} (h : chk x = some y) : y = x := by
  unfold chk at h; split at h
  · exact (Option.some.inj h).symm
  · cases h
theorem chk_ok {x : Int} (h1 : -2 ^ 63 ≤ x) (h2 : x < 2 ^ 63) : chk x = some x := by unfold chk; rw [if_pos ⟨h1, h2⟩]
theorem divC_sound {a b y : Int} (h : divC a b = some y) : b ≠ 0 ∧ y = a.tdiv b := by
  unfold divC at h; split at h
  · cases h
  · rename_i hb; exact ⟨hb, chk_sound h⟩

theorem gcd_sound {A B g : Int} (h : gcd A B = some g) : g = (Int.gcd A B : Int) := by
  induction A, B using gcd.induct with
  | case1 A hA =>
    unfold gcd at h; rw [dif_pos rfl, if_pos hA] at h
    rw [chk_sound h, Int.gcd_zero_right]; omega
  | case2 A hA =>
    unfold gcd at h; rw [dif_pos rfl, if_neg hA] at h
    rw [← Option.some.inj h, Int.gcd_zero_right]; omega
  | case3 A B hB hm => unfold gcd at h; rw [dif_neg hB, if_pos hm] at h; cases h
  | case4 A B hB hm ih =>
    unfold gcd at h; rw [dif_neg hB, if_neg hm] at h
    rw [ih h]; simp only [Int.gcd, Int.natAbs_tmod]
    rw [Nat.gcd_comm, ← Nat.gcd_rec, Nat.gcd_comm]

theorem gcd_ok {A B : Int} (h1 : -2 ^ 63 < A) (h2 : A < 2 ^ 63) (h3 : -2 ^ 63 < B) (h4 : B < 2 ^ 63) : gcd A B = some (Int.gcd A B : Int) := by
  induction A, B using gcd.induct with
  | case1 A hA =>
    unfold gcd; rw [dif_pos rfl, if_pos hA, chk_ok (by omega) (by omega), Int.gcd_zero_right]; congr 1; omega
  | case2 A hA =>
    unfold gcd; rw [dif_pos rfl, if_neg hA, Int.gcd_zero_right]; congr 1; omega
  | case3 A B hB hm => omega
  | case4 A B hB hm ih =>
    unfold gcd; rw [dif_neg hB, if_neg hm, ih h3 h4 ?_ ?_]
    · congr 1; simp only [Int.gcd, Int.natAbs_tmod]
      rw [Nat.gcd_comm B.natAbs, ← Nat.gcd_rec, Nat.gcd_comm]
    all_goals
      have := Int.natAbs_tmod A B
      have := Nat.mod_lt A.natAbs (Int.natAbs_pos.mpr hB)
      omega

theorem tdiv_exact {a b : Int} (h : b ∣ a) : a.tdiv b * b = a := Int.tdiv_mul_cancel h

/-! ## Arithmetic -/

theorem lcm_sound {A B l : Int} (h : lcm A B = some l) : l = (Int.lcm A B : Int) := by
  unfold lcm at h
  simp only [bind, Option.bind_eq_some_iff] at h
  obtain ⟨p, hp, q, hq, g, hg, hd⟩ := h
  have e1 := chk_sound hp
  obtain ⟨hg0, e2⟩ := divC_sound hd
  have e3 := gcd_sound hg
  have hq' : q = |A * B| := by
    split at hq
    · rw [chk_sound hq, e1, abs_of_neg (by omega)]
    · rw [← Option.some.inj hq, e1, abs_of_nonneg (by omega)]
  rw [e2, hq', e3]
  have : |A * B| = (Int.gcd A B : Int) * (Int.lcm A B : Int) := by
    rw [← Int.natCast_mul, Int.gcd_mul_lcm, Int.abs_eq_natAbs, Int.natAbs_mul]
  rw [this, Int.mul_tdiv_cancel_left _ (by omega)]

/-- `reduce` keeps the value and gives lowest terms. -/
theorem reduce_sound {r c : R} (hd : 0 < r.den) (h : reduce r = some c) : val c = val r ∧ Lowest c := by
  unfold reduce at h
  simp only [bind, Option.bind_eq_some_iff, pure, Option.some.injEq] at h
  obtain ⟨g, hg, n, hn, d, hd', rfl⟩ := h
  obtain ⟨hg0, en⟩ := divC_sound hn
  obtain ⟨-, ed⟩ := divC_sound hd'
  have eg := gcd_sound hg
  have g1 : g ∣ r.num := by rw [eg]; exact Int.gcd_dvd_left ..
  have g2 : g ∣ r.den := by rw [eg]; exact Int.gcd_dvd_right ..
  have hgp : 0 < g := by omega
  have x1 : n * g = r.num := by rw [en]; exact tdiv_exact g1
  have x2 : d * g = r.den := by rw [ed]; exact tdiv_exact g2
  have hdp : 0 < d := by
    by_contra hh
    have : d * g ≤ 0 := Int.mul_nonpos_of_nonpos_of_nonneg (by omega) (by omega)
    omega
  refine ⟨?_, hdp, ?_⟩
  · unfold val
    dsimp only
    rw [← x1, ← x2]; push_cast
    have : (g : ℚ) ≠ 0 := by exact_mod_cast hg0
    rw [mul_div_mul_right _ _ this]
  · dsimp only
    have e : Int.gcd n d * g.natAbs = g.natAbs := by
      have : Int.gcd (n * g) (d * g) = Int.gcd n d * g.natAbs := Int.gcd_mul_right ..
      rw [← this, x1, x2, eg]; simp
    exact Nat.eq_of_mul_eq_mul_right (by omega : 0 < g.natAbs) (by rw [e, Nat.one_mul])

theorem add_sound {a b c : R} (h : add a b = some c) : val c = val a + val b ∧ Lowest c := by
  unfold add at h
  simp only [bind, Option.bind_eq_some_iff] at h
  obtain ⟨l, hl, p, hp, x, hx, q, hq, y, hy, z, hz, hr⟩ := h
  have el := lcm_sound hl
  obtain ⟨ha, ex⟩ := divC_sound hx
  obtain ⟨hb, ey⟩ := divC_sound hy
  rw [chk_sound hp] at ex; rw [chk_sound hq] at ey
  have d1 : a.den ∣ l := by rw [el]; exact Int.dvd_lcm_left ..
  have d2 : b.den ∣ l := by rw [el]; exact Int.dvd_lcm_right ..
  have hl0 : 0 < l := by
    have : 0 < Int.lcm a.den b.den := Nat.pos_of_ne_zero (Int.lcm_ne_zero ha hb)
    omega
  have x1 : x * a.den = a.num * l := by rw [ex]; exact tdiv_exact (Dvd.dvd.mul_left d1 _)
  have y1 : y * b.den = b.num * l := by rw [ey]; exact tdiv_exact (Dvd.dvd.mul_left d2 _)
  obtain ⟨hv, hlow⟩ := reduce_sound (r := ⟨z, l⟩) hl0 hr
  refine ⟨?_, hlow⟩
  rw [hv, chk_sound hz]; unfold val; push_cast
  have c1 : (l : ℚ) ≠ 0 := by exact_mod_cast (by omega : l ≠ 0)
  have c2 : (a.den : ℚ) ≠ 0 := by exact_mod_cast ha
  have c3 : (b.den : ℚ) ≠ 0 := by exact_mod_cast hb
  have x2 : (x : ℚ) * a.den = a.num * l := by exact_mod_cast x1
  have y2 : (y : ℚ) * b.den = b.num * l := by exact_mod_cast y1
  rw [add_div, (div_eq_div_iff c1 c2).mpr x2, (div_eq_div_iff c1 c3).mpr y2]

theorem subtract_sound {a b c : R} (h : subtract a b = some c) : val c = val a - val b ∧ Lowest c := by
  unfold subtract at h
  simp only [bind, Option.bind_eq_some_iff] at h
  obtain ⟨n, hn, h⟩ := h
  obtain ⟨h1, h2⟩ := add_sound h
  refine ⟨?_, h2⟩
  rw [h1, chk_sound hn]; unfold val; push_cast; ring

/-- The product, if nothing overflows. -/
def mulR (a b : R) : R := ⟨a.num.tdiv (Int.gcd a.num b.den) * b.num.tdiv (Int.gcd b.num a.den), a.den.tdiv (Int.gcd b.num a.den) * b.den.tdiv (Int.gcd a.num b.den)⟩

theorem multiply_is {a b c : R} (h : multiply a b = some c) : c = mulR a b := by
  unfold multiply at h
  simp only [bind, Option.bind_eq_some_iff, pure, Option.some.injEq] at h
  obtain ⟨g1, hg1, g2, hg2, x, hx, y, hy, n, hn, z, hz, w, hw, d, hd, rfl⟩ := h
  unfold mulR
  rw [chk_sound hn, chk_sound hd, (divC_sound hx).2, (divC_sound hy).2, (divC_sound hz).2, (divC_sound hw).2, gcd_sound hg1, gcd_sound hg2]

/-- `x` divided by the gcd of `x` and `y`. -/
theorem div_gcd (x y : Int) : x.tdiv (Int.gcd x y) * (Int.gcd x y : Int) = x ∧ y.tdiv (Int.gcd x y) * (Int.gcd x y : Int) = y :=
  ⟨tdiv_exact (Int.gcd_dvd_left ..), tdiv_exact (Int.gcd_dvd_right ..)⟩

theorem div_gcd_coprime {x y : Int} (h : y ≠ 0) : IsCoprime (x.tdiv (Int.gcd x y)) (y.tdiv (Int.gcd x y)) := by
  have hg : 0 < Int.gcd x y := Int.gcd_pos_of_ne_zero_right _ h
  obtain ⟨h1, h2⟩ := div_gcd x y
  rw [Int.isCoprime_iff_gcd_eq_one]
  have e : Int.gcd (x.tdiv (Int.gcd x y) * (Int.gcd x y : Int)) (y.tdiv (Int.gcd x y) * (Int.gcd x y : Int)) = Int.gcd (x.tdiv (Int.gcd x y)) (y.tdiv (Int.gcd x y)) * (Int.gcd x y) := Int.gcd_mul_right ..
  rw [h1, h2] at e
  exact Nat.eq_of_mul_eq_mul_right hg (by rw [← e, Nat.one_mul])

theorem mulR_val {a b : R} (ha : a.den ≠ 0) (hb : b.den ≠ 0) : val (mulR a b) = val a * val b ∧ (mulR a b).den ≠ 0 := by
  obtain ⟨x1, x2⟩ := div_gcd a.num b.den
  obtain ⟨x3, x4⟩ := div_gcd b.num a.den
  have z2 : b.den.tdiv (Int.gcd a.num b.den) ≠ 0 := fun hh => hb (by rw [← x2, hh]; simp)
  have z4 : a.den.tdiv (Int.gcd b.num a.den) ≠ 0 := fun hh => ha (by rw [← x4, hh]; simp)
  refine ⟨?_, mul_ne_zero z4 z2⟩
  have p1 : ((Int.gcd a.num b.den : Int) : ℚ) ≠ 0 := by exact_mod_cast (Int.gcd_pos_of_ne_zero_right _ hb).ne'
  have p2 : ((Int.gcd b.num a.den : Int) : ℚ) ≠ 0 := by exact_mod_cast (Int.gcd_pos_of_ne_zero_right _ ha).ne'
  unfold val mulR
  dsimp only
  generalize (Int.gcd a.num b.den : Int) = g1 at *
  generalize (Int.gcd b.num a.den : Int) = g2 at *
  rw [div_mul_div_comm]
  have w : (a.num : ℚ) * b.num = ((a.num.tdiv g1 * b.num.tdiv g2 : Int) : ℚ) * (g1 * g2) := by
    rw [show (a.num : ℚ) = ((a.num.tdiv g1 * g1 : Int) : ℚ) by rw [x1], show (b.num : ℚ) = ((b.num.tdiv g2 * g2 : Int) : ℚ) by rw [x3]]; push_cast; ring
  have v : (a.den : ℚ) * b.den = ((a.den.tdiv g2 * b.den.tdiv g1 : Int) : ℚ) * (g1 * g2) := by
    rw [show (a.den : ℚ) = ((a.den.tdiv g2 * g2 : Int) : ℚ) by rw [x4], show (b.den : ℚ) = ((b.den.tdiv g1 * g1 : Int) : ℚ) by rw [x2]]; push_cast; ring
  rw [w, v, mul_div_mul_right _ _ (mul_ne_zero p1 p2)]

theorem tdiv_pos {x g : Int} (h : x.tdiv g * g = x) (hx : 0 < x) (hg : 0 ≤ g) : 0 < x.tdiv g := by
  by_contra hh
  have : x.tdiv g * g ≤ 0 := Int.mul_nonpos_of_nonpos_of_nonneg (by omega) hg
  omega

theorem mulR_lowest {a b : R} (ha : Lowest a) (hb : Lowest b) : Lowest (mulR a b) := by
  obtain ⟨x1, x2⟩ := div_gcd a.num b.den
  obtain ⟨x3, x4⟩ := div_gcd b.num a.den
  have c1 : IsCoprime a.num a.den := Int.isCoprime_iff_gcd_eq_one.mpr ha.2
  have c2 : IsCoprime b.num b.den := Int.isCoprime_iff_gcd_eq_one.mpr hb.2
  have c3 := div_gcd_coprime (x := a.num) (y := b.den) hb.1.ne'
  have c4 := div_gcd_coprime (x := b.num) (y := a.den) ha.1.ne'
  refine ⟨mul_pos (tdiv_pos x4 ha.1 (by omega)) (tdiv_pos x2 hb.1 (by omega)), ?_⟩
  rw [← Int.isCoprime_iff_gcd_eq_one]
  unfold mulR; dsimp only
  refine IsCoprime.mul_left (IsCoprime.mul_right ?_ c3) (IsCoprime.mul_right c4 ?_)
  · exact (c1.of_isCoprime_of_dvd_left ⟨_, x1.symm⟩).of_isCoprime_of_dvd_right ⟨_, x4.symm⟩
  · exact (c2.of_isCoprime_of_dvd_left ⟨_, x3.symm⟩).of_isCoprime_of_dvd_right ⟨_, x2.symm⟩

theorem lowest_unique {r : R} (h : Lowest r) : (val r).num = r.num ∧ ((val r).den : Int) = r.den :=
  ⟨Rat.num_div_eq_of_coprime h.1 h.2, Rat.den_div_eq_of_coprime h.1 h.2⟩

/-! ## When a program compiles -/

/-- All of `intmax_t` but its least value. -/
def InRange (x : Int) : Prop := |x| < 2 ^ 63

theorem chk_abs {x : Int} (h : |x| < 2 ^ 63) : chk x = some x := by rw [abs_lt] at h; exact chk_ok (by omega) h.2
theorem gcd_abs {x y : Int} (h : |x| < 2 ^ 63) (h' : |y| < 2 ^ 63) : gcd x y = some (Int.gcd x y : Int) := by
  rw [abs_lt] at h h'; exact gcd_ok (by omega) h.2 (by omega) h'.2
theorem abs_tdiv_le (x y : Int) : |x.tdiv y| ≤ |x| := by
  rw [Int.abs_eq_natAbs, Int.abs_eq_natAbs, Int.natAbs_tdiv]
  exact_mod_cast Nat.div_le_self ..
theorem divC_abs {x y : Int} (h : |x| < 2 ^ 63) (hy : y ≠ 0) : divC x y = some (x.tdiv y) := by
  unfold divC; rw [if_neg hy]; exact chk_abs (lt_of_le_of_lt (abs_tdiv_le x y) h)
theorem abs_mul_lt {x y : Int} {m n : Nat} (h : |x| < 2 ^ m) (h' : |y| < 2 ^ n) : |x * y| < 2 ^ (m + n) := by
  rw [abs_mul, pow_add]; exact mul_lt_mul'' h h' (abs_nonneg _) (abs_nonneg _)

theorem multiply_ok {a b : R} (ha : a.den ≠ 0) (hb : b.den ≠ 0) (r1 : InRange a.num) (r2 : InRange a.den) (r3 : InRange b.num) (r4 : InRange b.den)
    (p1 : InRange (mulR a b).num) (p2 : InRange (mulR a b).den) : multiply a b = some (mulR a b) := by
  have n1 : (Int.gcd a.num b.den : Int) ≠ 0 := by exact_mod_cast (Int.gcd_pos_of_ne_zero_right _ hb).ne'
  have n2 : (Int.gcd b.num a.den : Int) ≠ 0 := by exact_mod_cast (Int.gcd_pos_of_ne_zero_right _ ha).ne'
  unfold multiply
  rw [gcd_abs r1 r4, gcd_abs r3 r2]
  simp only [bind, Option.bind, pure, divC_abs r1 n1, divC_abs r2 n2, divC_abs r3 n2, divC_abs r4 n1]
  rw [chk_abs (x := a.num.tdiv _ * _) p1]; dsimp only
  rw [chk_abs (x := a.den.tdiv _ * _) p2]; rfl

theorem lcm_ok {A B : Int} (hA : A ≠ 0) (hB : B ≠ 0) (h1 : |A| < 2 ^ 20) (h2 : |B| < 2 ^ 20) : lcm A B = some (Int.lcm A B : Int) ∧ |(Int.lcm A B : Int)| < 2 ^ 40 := by
  have hp := abs_mul_lt h1 h2
  have hg : (Int.gcd A B : Int) ≠ 0 := by exact_mod_cast (Int.gcd_pos_of_ne_zero_right _ hB).ne'
  have e : ∃ l, lcm A B = some l := by
    unfold lcm
    rw [chk_abs (lt_trans hp (by norm_num)), gcd_abs (lt_trans h1 (by norm_num)) (lt_trans h2 (by norm_num))]
    simp only [bind, Option.bind]
    by_cases hn : A * B < 0
    · rw [if_pos hn, chk_abs (by rw [abs_neg]; exact lt_trans hp (by norm_num))]
      exact ⟨_, divC_abs (by rw [abs_neg]; exact lt_trans hp (by norm_num)) hg⟩
    · rw [if_neg hn]; exact ⟨_, divC_abs (lt_trans hp (by norm_num)) hg⟩
  obtain ⟨l, hl⟩ := e
  have := lcm_sound hl
  refine ⟨by rw [hl, this], lt_of_le_of_lt ?_ hp⟩
  rw [Int.abs_eq_natAbs, Int.abs_eq_natAbs, Int.natAbs_natCast, Int.natAbs_mul]
  exact_mod_cast Nat.le_of_dvd (Nat.mul_pos (Int.natAbs_pos.mpr hA) (Int.natAbs_pos.mpr hB)) (Nat.lcm_dvd_mul _ _)

theorem add_ok {a b : R} (ha : a.den ≠ 0) (hb : b.den ≠ 0) (h1 : Small 20 a) (h2 : Small 20 b) : ∃ c, add a b = some c := by
  obtain ⟨e, hl⟩ := lcm_ok ha hb h1.2 h2.2
  have hl0 : (Int.lcm a.den b.den : Int) ≠ 0 := by exact_mod_cast Int.lcm_ne_zero ha hb
  have k1 := abs_mul_lt h1.1 hl
  have k2 := abs_mul_lt h2.1 hl
  have t1 := lt_of_le_of_lt (abs_tdiv_le (a.num * (Int.lcm a.den b.den : Int)) a.den) k1
  have t2 := lt_of_le_of_lt (abs_tdiv_le (b.num * (Int.lcm a.den b.den : Int)) b.den) k2
  have t3 := lt_of_le_of_lt (abs_add_le _ _) (add_lt_add t1 t2)
  unfold add
  rw [e]
  simp only [bind, Option.bind]
  rw [chk_abs (lt_trans k1 (by norm_num))]; dsimp only
  rw [divC_abs (lt_trans k1 (by norm_num)) ha]; dsimp only
  rw [chk_abs (lt_trans k2 (by norm_num))]; dsimp only
  rw [divC_abs (lt_trans k2 (by norm_num)) hb]; dsimp only
  rw [chk_abs (lt_trans t3 (by norm_num))]; dsimp only
  unfold reduce
  dsimp only
  have r1 := lt_trans t3 (show (2 : Int) ^ (20 + 40) + 2 ^ (20 + 40) < 2 ^ 63 by norm_num)
  have r2 := lt_trans hl (show (2 : Int) ^ 40 < 2 ^ 63 by norm_num)
  have g0 : ∀ x : Int, (Int.gcd x (Int.lcm a.den b.den : Int) : Int) ≠ 0 := fun x => by exact_mod_cast (Int.gcd_pos_of_ne_zero_right _ hl0).ne'
  rw [gcd_abs r1 r2]
  simp only [bind, Option.bind]
  rw [divC_abs r1 (g0 _)]; dsimp only
  rw [divC_abs r2 (g0 _)]; exact ⟨_, rfl⟩

/-! ## The theorems -/

/-- C114 (partial): for ratios with denominators other than 0 (positive or negative), whatever compiles is exact: the value of the result is the sum, difference, product or quotient; sums and differences are in lowest terms with a positive
denominator, whatever the operands; products and quotients are if the operands are.
Missing, because false: the quotient by a ratio that is zero does not compile (`divide_by_zero`); a quotient by a negative ratio has a positive denominator (`negative_denominator`); products are in lowest terms
(`product_not_reduced`). -/
theorem C114_arithmetic_partial (a b : R) (ha : a.den ≠ 0) (hb : b.den ≠ 0) :
    (∀ c, add a b = some c → val c = val a + val b ∧ Lowest c) ∧ (∀ c, subtract a b = some c → val c = val a - val b ∧ Lowest c) ∧
    (∀ c, multiply a b = some c → val c = val a * val b ∧ c.den ≠ 0 ∧ (Lowest a → Lowest b → Lowest c)) ∧
    (b.num ≠ 0 → ∀ c, divide a b = some c → val c = val a / val b ∧ c.den ≠ 0 ∧ (Lowest a → Lowest b → 0 < b.num → Lowest c)) := by
  refine ⟨fun c h => add_sound h, fun c h => subtract_sound h, fun c h => ?_, fun hn c h => ?_⟩
  · rw [multiply_is h]; exact ⟨(mulR_val ha hb).1, (mulR_val ha hb).2, mulR_lowest⟩
  · rw [multiply_is h]
    obtain ⟨h1, h2⟩ := mulR_val (a := a) (b := ⟨b.den, b.num⟩) ha hn
    refine ⟨?_, h2, fun l1 l2 hp => mulR_lowest l1 ⟨hp, by rw [Int.gcd_comm]; exact l2.2⟩⟩
    rw [h1]; unfold val; dsimp only; rw [div_eq_mul_inv (_ / _) (_ / _), inv_div]

/-- C114: a product of ratios in lowest terms compiles exactly when it can be represented, and then it is the representation of the product in lowest terms. -/
theorem C114_product {a b : R} (ha : Lowest a) (hb : Lowest b) (r1 : InRange a.num) (r2 : InRange a.den) (r3 : InRange b.num) (r4 : InRange b.den)
    (n : InRange (val a * val b).num) (d : InRange ((val a * val b).den : Int)) : multiply a b = some ⟨(val a * val b).num, ((val a * val b).den : Int)⟩ := by
  have hv := (mulR_val ha.1.ne' hb.1.ne').1
  obtain ⟨u1, u2⟩ := lowest_unique (mulR_lowest ha hb)
  rw [hv] at u1 u2
  rw [u1] at n; rw [u2] at d
  rw [multiply_ok ha.1.ne' hb.1.ne' r1 r2 r3 r4 n d, u1, u2]

/-- C114: sums and differences of ratios of at most 20 bits compile. -/
theorem C114_compiles {a b : R} (ha : a.den ≠ 0) (hb : b.den ≠ 0) (h1 : Small 20 a) (h2 : Small 20 b) : (∃ c, add a b = some c) ∧ (∃ c, subtract a b = some c) := by
  refine ⟨add_ok ha hb h1 h2, ?_⟩
  unfold subtract
  simp only [bind, Option.bind, chk_abs (show |-b.num| < 2 ^ 63 by rw [abs_neg]; exact lt_trans h2.1 (by norm_num))]
  exact add_ok ha hb h1 ⟨by rw [abs_neg]; exact h2.1, h2.2⟩

/-- C114: the comparisons of ratios with positive denominators are those of the values, whenever they compile; and they do if all parts have at most 31 bits.  `ratio_equal` compares values if the ratios are in lowest terms. -/
theorem C114_compare {a b : R} (ha : 0 < a.den) (hb : 0 < b.den) :
    (∀ r, less a b = some r → (r = true ↔ val a < val b)) ∧ (∀ r, lessEqual a b = some r → (r = true ↔ val a ≤ val b)) ∧
    (∀ r, greater a b = some r → (r = true ↔ val b < val a)) ∧ (∀ r, greaterEqual a b = some r → (r = true ↔ val b ≤ val a)) ∧
    (Small 31 a → Small 31 b → less a b ≠ none ∧ lessEqual a b ≠ none ∧ greater a b ≠ none ∧ greaterEqual a b ≠ none) ∧
    (Lowest a → Lowest b → (equal a b = true ↔ val a = val b) ∧ (notEqual a b = true ↔ val a ≠ val b)) := by
  have qa : (0 : ℚ) < a.den := by exact_mod_cast ha
  have qb : (0 : ℚ) < b.den := by exact_mod_cast hb
  have hlt : ∀ x y : R, (0 : ℚ) < x.den → (0 : ℚ) < y.den → (x.num * y.den < y.num * x.den ↔ val x < val y) := fun x y hx hy => by
    unfold val; rw [div_lt_div_iff₀ hx hy]; exact_mod_cast Iff.rfl
  have hle : ∀ x y : R, (0 : ℚ) < x.den → (0 : ℚ) < y.den → (x.num * y.den ≤ y.num * x.den ↔ val x ≤ val y) := fun x y hx hy => by
    unfold val; rw [div_le_div_iff₀ hx hy]; exact_mod_cast Iff.rfl
  refine ⟨fun r h => ?_, fun r h => ?_, fun r h => ?_, fun r h => ?_, fun s1 s2 => ?_, fun l1 l2 => ?_⟩
  · unfold less at h
    simp only [bind, Option.bind_eq_some_iff, pure, Option.some.injEq] at h
    obtain ⟨x, hx, y, hy, rfl⟩ := h
    rw [chk_sound hx, chk_sound hy, decide_eq_true_iff]; exact hlt a b qa qb
  · unfold lessEqual at h
    simp only [bind, Option.bind_eq_some_iff, pure, Option.some.injEq] at h
    obtain ⟨x, hx, y, hy, rfl⟩ := h
    rw [chk_sound hx, chk_sound hy, decide_eq_true_iff]; exact hle a b qa qb
  · unfold greater at h
    simp only [bind, Option.bind_eq_some_iff, pure, Option.some.injEq] at h
    obtain ⟨x, hx, y, hy, rfl⟩ := h
    rw [chk_sound hx, chk_sound hy, decide_eq_true_iff]; exact hlt b a qb qa
  · unfold greaterEqual at h
    simp only [bind, Option.bind_eq_some_iff, pure, Option.some.injEq] at h
    obtain ⟨x, hx, y, hy, rfl⟩ := h
    rw [chk_sound hx, chk_sound hy, decide_eq_true_iff]; exact hle b a qb qa
  · have k1 := chk_abs (lt_trans (abs_mul_lt s1.1 s2.2) (by norm_num))
    have k2 := chk_abs (lt_trans (abs_mul_lt s2.1 s1.2) (by norm_num))
    simp [less, lessEqual, greater, greaterEqual, k1, k2]
  · have e : val a = val b ↔ a.num = b.num ∧ a.den = b.den := by
      obtain ⟨u1, u2⟩ := lowest_unique l1
      obtain ⟨v1, v2⟩ := lowest_unique l2
      constructor
      · intro h; rw [h] at u1 u2; exact ⟨by rw [← u1, v1], by rw [← u2, v2]⟩
      · rintro ⟨h1, h2⟩; unfold val; rw [h1, h2]
    refine ⟨?_, ?_⟩
    · rw [e]; simp [equal]
    · rw [Ne, e]; simp only [notEqual, Bool.or_eq_true, decide_eq_true_iff]; tauto

/-- C114: `permutations<N, K>` is the number of arrangements modulo 2^64, 0 if `K > N`. -/
theorem C114_permutations (K : Nat) : ∀ N, N < 2 ^ 64 → permutations N K = N.descFactorial K % 2 ^ 64 := by
  induction K with
  | zero => intro N _; rfl
  | succ K ih =>
    intro N hN
    unfold permutations
    cases N with
    | zero => simp
    | succ n =>
      rw [show (n + 1 + (2 ^ 64 - 1)) % 2 ^ 64 = n by omega, ih n (by omega), Nat.succ_descFactorial_succ, Nat.mul_mod_mod]

/-- C114 (partial): `combinations<N, K>` is the binomial coefficient if the number of arrangements fits into 64 bits.  Missing, because false (`combinations_overflow`): the same if only the coefficient itself fits. -/
theorem C114_combinations_partial {N K : Nat} (hN : N < 2 ^ 64) (hK : K ≤ N) (h : N.descFactorial K < 2 ^ 64) : combinations N K = some (N.choose K) := by
  have h1 : K.factorial ≤ N.descFactorial K := by
    rw [Nat.descFactorial_eq_factorial_mul_choose]
    exact Nat.le_mul_of_pos_right _ (Nat.choose_pos hK)
  unfold combinations
  rw [(Maths.C46_factorial K).1, Nat.mod_eq_of_lt (by omega), if_neg (Nat.factorial_pos K).ne', C114_permutations K N hN, Nat.mod_eq_of_lt h, Nat.choose_eq_descFactorial_div_factorial]

/-- C114: `digits10` is the number of decimal digits that every value of the type can hold, for types of up to 195 bits. -/
theorem C114_digits10 (d : Nat) (h : d ≤ 195) : 10 ^ digits10 d ≤ 2 ^ d ∧ 2 ^ d < 10 ^ (digits10 d + 1) := by
  have : ∀ d : Fin 196, 10 ^ digits10 d ≤ 2 ^ (d : Nat) ∧ 2 ^ (d : Nat) < 10 ^ (digits10 d + 1) := by decide +kernel
  exact this ⟨d, by omega⟩

/-! ## Examples -/

example : add ⟨1, 6⟩ ⟨-3, -4⟩ = some ⟨11, 12⟩ ∧ subtract ⟨1, 2⟩ ⟨1, 3⟩ = some ⟨1, 6⟩ ∧ multiply ⟨2, 3⟩ ⟨9, 4⟩ = some ⟨3, 2⟩ ∧ divide ⟨1, 2⟩ ⟨3, 4⟩ = some ⟨2, 3⟩ := by decide +kernel
example : Lowest ⟨355, 113⟩ ∧ Lowest ⟨1, 1000000000⟩ ∧ Small 20 ⟨239, 169⟩ := by refine ⟨⟨by decide, by decide⟩, ⟨by decide, by decide⟩, by decide, by decide⟩
example : multiply ⟨1, 1000000000⟩ ⟨1000000000, 1⟩ = some ⟨1, 1⟩ ∧ multiply ⟨1, 10000000000⟩ ⟨1, 10000000000⟩ = none := by decide +kernel
example : permutations 10 3 = 720 ∧ combinations 10 3 = some 120 ∧ permutations 3 5 = 0 ∧ digits10 31 = 9 ∧ digits10 64 = 19 := by decide +kernel

/-! ## Findings -/

/-- Division by a ratio that is zero compiles: the denominator of the result is 0. -/
theorem divide_by_zero : divide ⟨1, 2⟩ ⟨0, 3⟩ = some ⟨3, 0⟩ := by decide +kernel
/-- Division by a negative ratio gives a negative denominator, and comparisons of the result are wrong: (1/2) / (-1/3) is not less than 0. -/
theorem negative_denominator : divide ⟨1, 2⟩ ⟨-1, 3⟩ = some ⟨3, -2⟩ ∧ less ⟨3, -2⟩ ⟨0, 1⟩ = some false ∧ greater ⟨3, -2⟩ ⟨0, 1⟩ = some true := by decide +kernel
/-- Ratios are not reduced: `ratio<2, 4>` is not equal to `ratio<1, 2>`, nor is its product with `ratio<1, 1>`; `ratio_e` (326/120) is such a ratio. -/
theorem product_not_reduced : equal ⟨2, 4⟩ ⟨1, 2⟩ = false ∧ multiply ⟨2, 4⟩ ⟨1, 1⟩ = some ⟨2, 4⟩ ∧ Int.gcd 326 120 = 2 := by decide +kernel
/-- `combinations<30, 15>` is not 155117520: the arrangements overflow. -/
theorem combinations_overflow : (30 : Nat).choose 15 = 155117520 ∧ combinations 30 15 ≠ some 155117520 := by decide +kernel

end Etl.Ratio
