import Verif.Maths.Model
import Mathlib.Data.Nat.Factorial.Basic
import Mathlib.Data.Nat.Fib.Basic
import Mathlib.Data.Nat.GCD.Basic
import Mathlib.Tactic.SplitIfs
import Mathlib.Tactic.Linarith

/-!
# Properties of the integer mathematics functions (C46)
-/
namespace Etl.Maths

/-! ## Specification -/

/-- `g` is the greatest common divisor of the list. -/
def IsGcd (g : Nat) (l : List Nat) : Prop := (∀ x ∈ l, g ∣ x) ∧ ∀ d, (∀ x ∈ l, d ∣ x) → d ∣ g
/-- `m` is the least common multiple of the list. -/
def IsLcm (m : Nat) (l : List Nat) : Prop := (∀ x ∈ l, x ∣ m) ∧ ∀ d, (∀ x ∈ l, x ∣ d) → m ∣ d

/-! ## gcd -/

theorem gcdLoop_eq (a b : Nat) : gcdLoop a b = Nat.gcd a b := by
  induction b using Nat.strong_induction_on generalizing a with
  | _ b ih =>
    unfold gcdLoop
    split_ifs with h
    · subst h; simp
    · rw [ih _ (Nat.mod_lt _ (by omega)), Nat.gcd_comm a b, Nat.gcd_rec b a, Nat.gcd_comm]

theorem gcdU_eq {w a b : Nat} (ha : a < 2 ^ w) (hb : b < 2 ^ w) : gcdU w a b = Nat.gcd a b := by
  unfold gcdU
  split_ifs with h
  · rcases h with h | h <;> subst h <;> simp [Nat.mod_eq_of_lt, *]
  · exact gcdLoop_eq a b

theorem absU_eq {w : Nat} {v : Int} (hw : 0 < w) (h : -2 ^ (w - 1) ≤ v) : absU w v = v.natAbs := by
  unfold absU
  obtain ⟨k, rfl⟩ : ∃ k, w = k + 1 := ⟨w - 1, by omega⟩
  simp only [Nat.add_sub_cancel]
  split_ifs with h1 h2
  · have : (2 : Nat) ^ (k + 1) = 2 * 2 ^ k := by rw [Nat.pow_succ]; omega
    have h3 : ((2 : Int) ^ k) = ((2 ^ k : Nat) : Int) := by push_cast; rfl
    rw [this, h1, h3]
    have : 0 < 2 ^ k := Nat.two_pow_pos k
    generalize (2 : Nat) ^ k = n at *
    omega
  · omega
  · omega

theorem toSigned_eq {w n : Nat} (h : n < 2 ^ (w - 1)) : toSigned w n = n := by unfold toSigned; rw [if_pos h]

theorem natAbs_lt {w : Nat} {v : Int} (hw : 0 < w) (h : -2 ^ (w - 1) ≤ v) (h2 : v < 2 ^ (w - 1)) : v.natAbs < 2 ^ w := by
  obtain ⟨k, rfl⟩ : ∃ k, w = k + 1 := ⟨w - 1, by omega⟩
  simp only [Nat.add_sub_cancel] at h h2
  have : (2 : Nat) ^ (k + 1) = 2 * 2 ^ k := by rw [Nat.pow_succ]; omega
  have h3 : ((2 : Int) ^ k) = ((2 ^ k : Nat) : Int) := by push_cast; rfl
  have : 0 < 2 ^ k := Nat.two_pow_pos k
  rw [h3] at h h2
  generalize (2 : Nat) ^ k = n at *
  omega

theorem isGcd_pair (a b : Nat) : IsGcd (Nat.gcd a b) [a, b] := by
  refine ⟨?_, fun d hd => Nat.dvd_gcd (hd a (by simp)) (hd b (by simp))⟩
  intro x hx; simp only [List.mem_cons, List.not_mem_nil, or_false] at hx
  rcases hx with rfl | rfl
  · exact Nat.gcd_dvd_left _ _
  · exact Nat.gcd_dvd_right _ _

theorem isGcd_cons {g a b : Nat} {l : List Nat} (h : IsGcd g (Nat.gcd a b :: l)) : IsGcd g (a :: b :: l) := by
  obtain ⟨h1, h2⟩ := h
  refine ⟨?_, fun d hd => h2 d ?_⟩
  · intro x hx
    have h0 := h1 _ (List.mem_cons_self ..)
    simp only [List.mem_cons] at hx
    rcases hx with rfl | rfl | hx
    · exact h0.trans (Nat.gcd_dvd_left _ _)
    · exact h0.trans (Nat.gcd_dvd_right _ _)
    · exact h1 x (by simp [hx])
  · intro x hx; simp only [List.mem_cons] at hx
    rcases hx with rfl | hx
    · exact Nat.dvd_gcd (hd a (by simp)) (hd b (by simp))
    · exact hd x (by simp [hx])

theorem isGcd_one (l : List Nat) : IsGcd 1 (1 :: l) := ⟨fun x _ => Nat.one_dvd x, fun d hd => hd 1 (by simp)⟩

/-- C46, unsigned `gcd`. -/
theorem C46_gcd_unsigned {w a b : Nat} (ha : a < 2 ^ w) (hb : b < 2 ^ w) : IsGcd (gcdU w a b) [a, b] := by
  rw [gcdU_eq ha hb]; exact isGcd_pair a b

/-- C46, signed `gcd`: the greatest common divisor of the magnitudes; the only pairs without a representable result are those of `0` and the smallest value. -/
theorem C46_gcd_signed {w : Nat} {a b : Int} (hw : 0 < w) (ha : -2 ^ (w - 1) ≤ a ∧ a < 2 ^ (w - 1)) (hb : -2 ^ (w - 1) ≤ b ∧ b < 2 ^ (w - 1))
    (hfit : Nat.gcd a.natAbs b.natAbs < 2 ^ (w - 1)) : 0 ≤ gcdS w a b ∧ IsGcd (gcdS w a b).toNat [a.natAbs, b.natAbs] := by
  unfold gcdS
  rw [absU_eq hw ha.1, absU_eq hw hb.1, gcdU_eq (natAbs_lt hw ha.1 ha.2) (natAbs_lt hw hb.1 hb.2), toSigned_eq hfit]
  exact ⟨by omega, isGcd_pair _ _⟩

/-- C46, variadic `gcd` on unsigned values (initializer list version): early termination does not change the result. -/
theorem C46_gcd_many {w a : Nat} {l : List Nat} (ha : a < 2 ^ w) (hl : ∀ x ∈ l, x < 2 ^ w) : IsGcd (gcdMany (gcdU w) a l) (a :: l) := by
  induction l generalizing a with
  | nil => exact ⟨by simp [gcdMany], fun d hd => hd a (by simp)⟩
  | cons v vs ih =>
    have hv := hl v (by simp)
    simp only [gcdMany]
    rw [gcdU_eq ha hv]
    apply isGcd_cons
    split_ifs with h1
    · rw [h1]; exact isGcd_one vs
    · refine ih ?_ (fun x hx => hl x (by simp [hx]))
      rcases Nat.eq_zero_or_pos a with h | h
      · subst h; rw [Nat.gcd_zero_left]; exact hv
      · exact Nat.lt_of_le_of_lt (Nat.gcd_le_left v h) ha

/-- C46, variadic `gcd`, recursive version. -/
theorem C46_gcd_rec {w a b : Nat} {l : List Nat} (ha : a < 2 ^ w) (hb : b < 2 ^ w) (hl : ∀ x ∈ l, x < 2 ^ w) : IsGcd (gcdRec (gcdU w) a b l) (a :: b :: l) := by
  induction l generalizing a b with
  | nil => simp only [gcdRec]; rw [gcdU_eq ha hb]; exact isGcd_pair a b
  | cons v vs ih =>
    have hv := hl v (by simp)
    simp only [gcdRec]
    rw [gcdU_eq ha hb]
    apply isGcd_cons
    split_ifs with h1
    · rw [h1]; exact isGcd_one _
    · refine ih ?_ hv (fun x hx => hl x (by simp [hx]))
      rcases Nat.eq_zero_or_pos a with h | h
      · subst h; rw [Nat.gcd_zero_left]; exact hb
      · exact Nat.lt_of_le_of_lt (Nat.gcd_le_left b h) ha

/-! ## lcm -/

theorem lcmU_eq {w a b : Nat} (ha : a < 2 ^ w) (hb : b < 2 ^ w) (hfit : Nat.lcm a b < 2 ^ w) : lcmU w a b = Nat.lcm a b := by
  unfold lcmU
  split_ifs with h
  · rcases h with rfl | rfl <;> simp
  · rw [gcdU_eq ha hb, ← Nat.mul_div_assoc _ (Nat.gcd_dvd_right a b)]
    exact Nat.mod_eq_of_lt hfit

theorem isLcm_pair (a b : Nat) : IsLcm (Nat.lcm a b) [a, b] := by
  refine ⟨?_, fun d hd => Nat.lcm_dvd (hd a (by simp)) (hd b (by simp))⟩
  intro x hx; simp only [List.mem_cons, List.not_mem_nil, or_false] at hx
  rcases hx with rfl | rfl
  · exact Nat.dvd_lcm_left _ _
  · exact Nat.dvd_lcm_right _ _

theorem isLcm_cons {g a b : Nat} {l : List Nat} (h : IsLcm g (Nat.lcm a b :: l)) : IsLcm g (a :: b :: l) := by
  obtain ⟨h1, h2⟩ := h
  refine ⟨?_, fun d hd => h2 d ?_⟩
  · intro x hx
    have h0 := h1 _ (List.mem_cons_self ..)
    simp only [List.mem_cons] at hx
    rcases hx with rfl | rfl | hx
    · exact (Nat.dvd_lcm_left _ _).trans h0
    · exact (Nat.dvd_lcm_right _ _).trans h0
    · exact h1 x (by simp [hx])
  · intro x hx; simp only [List.mem_cons] at hx
    rcases hx with rfl | hx
    · exact Nat.lcm_dvd (hd a (by simp)) (hd b (by simp))
    · exact hd x (by simp [hx])

/-- C46, unsigned `lcm`, whenever the least common multiple fits. -/
theorem C46_lcm_unsigned {w a b m : Nat} (ha : a < 2 ^ w) (hb : b < 2 ^ w) (hm : IsLcm m [a, b]) (hfit : m < 2 ^ w) : lcmU w a b = m := by
  have h : m = Nat.lcm a b := Nat.dvd_antisymm (hm.2 _ (isLcm_pair a b).1) ((isLcm_pair a b).2 _ hm.1)
  rw [h] at hfit ⊢
  exact lcmU_eq ha hb hfit

/-- C46, signed `lcm`: least common multiple of the magnitudes. -/
theorem C46_lcm_signed {w : Nat} {a b : Int} {m : Nat} (hw : 0 < w) (ha : -2 ^ (w - 1) ≤ a ∧ a < 2 ^ (w - 1)) (hb : -2 ^ (w - 1) ≤ b ∧ b < 2 ^ (w - 1))
    (hm : IsLcm m [a.natAbs, b.natAbs]) (hfit : m < 2 ^ (w - 1)) : lcmS w a b = m := by
  unfold lcmS
  have : m < 2 ^ w := Nat.lt_of_lt_of_le hfit (Nat.pow_le_pow_right (by omega) (by omega))
  rw [absU_eq hw ha.1, absU_eq hw hb.1, C46_lcm_unsigned (natAbs_lt hw ha.1 ha.2) (natAbs_lt hw hb.1 hb.2) hm this, toSigned_eq hfit]

/-- C46, variadic `lcm` on unsigned values, provided the result fits (then so do all intermediate results when no value is zero; with a zero the running result
must not have overflowed before: the hypothesis `hfit` bounds the least common multiple of every prefix). -/
theorem C46_lcm_many {w a : Nat} {l : List Nat} (ha : a < 2 ^ w) (hl : ∀ x ∈ l, x < 2 ^ w)
    (hfit : ∀ p, p <+: l → ∀ m, IsLcm m (a :: p) → m < 2 ^ w) : IsLcm (lcmMany (lcmU w) a l) (a :: l) := by
  induction l generalizing a with
  | nil => exact ⟨by simp [lcmMany], fun d hd => hd a (by simp)⟩
  | cons v vs ih =>
    have hv := hl v (by simp)
    simp only [lcmMany]
    have h0 : Nat.lcm a v < 2 ^ w := hfit [v] (by simp) _ (isLcm_pair a v)
    rw [lcmU_eq ha hv h0]
    apply isLcm_cons
    split_ifs with h1
    · rw [h1]; exact ⟨fun x _ => Nat.dvd_zero x, fun d hd => hd 0 (by simp)⟩
    · refine ih h0 (fun x hx => hl x (by simp [hx])) ?_
      intro p hp m hm
      exact hfit (v :: p) (by simpa using hp) m (isLcm_cons hm)

/-! ## sqrt -/

theorem sqrtFrom_ok {VALUE r : Nat} (h1 : r * r ≤ VALUE) (h2 : VALUE < (r + 1) * (r + 1)) (hfit : (r + 1) * (r + 1) < 2 ^ 64) :
    ∀ (n I fuel : Nat), I + n = r + 1 → 1 ≤ I → n < fuel → sqrtFrom VALUE fuel I = .ok r := by
  intro n
  induction n with
  | zero =>
    intro I fuel hI _ hf
    obtain ⟨f, rfl⟩ : ∃ f, fuel = f + 1 := ⟨fuel - 1, by omega⟩
    have : I = r + 1 := by omega
    subst this
    rw [sqrtFrom, Nat.mod_eq_of_lt hfit, if_pos h2]; rfl
  | succ n ih =>
    intro I fuel hI hI1 hf
    obtain ⟨f, rfl⟩ : ∃ f, fuel = f + 1 := ⟨fuel - 1, by omega⟩
    have hle : I * I ≤ r * r := Nat.mul_le_mul (by omega) (by omega)
    rw [sqrtFrom, if_neg (by have := Nat.mod_le (I * I) (2 ^ 64); omega)]
    exact ih (I + 1) f (by omega) (by omega) (by omega)

/-- C46, `sqrt<VALUE>`: with enough template depth it is the integer square root, for `VALUE < (2^32 - 1)^2`. -/
theorem C46_sqrt {VALUE : Nat} (h : VALUE < (2 ^ 32 - 1) * (2 ^ 32 - 1)) :
    ∃ r, r * r ≤ VALUE ∧ VALUE < (r + 1) * (r + 1) ∧ ∀ fuel, r + 1 ≤ fuel → sqrtFrom VALUE fuel 1 = .ok r := by
  refine ⟨Nat.sqrt VALUE, Nat.sqrt_le VALUE, Nat.lt_succ_sqrt VALUE, fun fuel hf => ?_⟩
  refine sqrtFrom_ok (Nat.sqrt_le VALUE) (Nat.lt_succ_sqrt VALUE) ?_ (Nat.sqrt VALUE) 1 fuel (by omega) (by omega) (by omega)
  have : Nat.sqrt VALUE < 2 ^ 32 - 1 := Nat.sqrt_lt.2 h
  have h3 : Nat.sqrt VALUE + 1 ≤ 2 ^ 32 - 1 := by omega
  exact Nat.lt_of_le_of_lt (Nat.mul_le_mul h3 h3) (by decide)

/-! ## log and powers -/

theorem log_ok {BASE : Nat} (hb : 2 ≤ BASE) : ∀ (fuel NV : Nat), NV < fuel → ∃ v, log NV BASE fuel = .ok v ∧ (NV = 0 → v = 0) ∧ (NV ≠ 0 → BASE ^ v ≤ NV ∧ NV < BASE ^ (v + 1)) := by
  intro fuel
  induction fuel with
  | zero => intro NV h; omega
  | succ f ih =>
    intro NV hf
    unfold log
    by_cases h1 : NV = 1
    · subst h1; exact ⟨0, by simp, by simp, fun _ => ⟨by simp, by simp; omega⟩⟩
    rw [if_neg h1]
    by_cases h0 : NV = 0
    · subst h0; exact ⟨0, by simp, by simp, by simp⟩
    rw [if_neg h0, if_neg (by omega)]
    have hlt : NV / BASE < NV := Nat.div_lt_self (by omega) (by omega)
    obtain ⟨v, e1, e2, e3⟩ := ih (NV / BASE) (by omega)
    rw [e1]
    simp only [bind, Except.bind]
    by_cases hge : NV ≥ BASE
    · rw [if_pos hge]
      refine ⟨_, rfl, fun h => absurd h h0, fun _ => ?_⟩
      have hd : NV / BASE ≠ 0 := by
        have := Nat.div_pos hge (by omega); omega
      obtain ⟨a1, a2⟩ := e3 hd
      constructor
      · rw [Nat.add_comm 1 v, Nat.pow_succ]
        exact (Nat.le_div_iff_mul_le (by omega)).1 a1
      · rw [Nat.add_comm 1 v, Nat.pow_succ]
        exact (Nat.div_lt_iff_lt_mul (by omega)).1 a2
    · rw [if_neg hge]
      exact ⟨0, rfl, fun _ => rfl, fun _ => ⟨by simp; omega, by simp; omega⟩⟩

/-- C46, `log<NV, BASE>` (hence `log2`, `log10`): the floor of the logarithm, for every base of at least 2. -/
theorem C46_log {NV BASE : Nat} (hb : 2 ≤ BASE) (hn : NV ≠ 0) : ∃ v, (∀ fuel, NV < fuel → log NV BASE fuel = .ok v) ∧ BASE ^ v ≤ NV ∧ NV < BASE ^ (v + 1) := by
  obtain ⟨v, h1, _, h3⟩ := log_ok hb (NV + 1) NV (by omega)
  refine ⟨v, fun fuel hf => ?_, (h3 hn).1, (h3 hn).2⟩
  obtain ⟨u, g1, _, g3⟩ := log_ok hb fuel NV hf
  rw [g1]
  congr 1
  have a1 := h3 hn; have a2 := g3 hn
  have b1 := (Nat.pow_lt_pow_iff_right (show 1 < BASE by omega)).1 (Nat.lt_of_le_of_lt a1.1 a2.2)
  have b2 := (Nat.pow_lt_pow_iff_right (show 1 < BASE by omega)).1 (Nat.lt_of_le_of_lt a2.1 a1.2)
  omega

/-- C46, `power<NV, POWER>`: the power modulo 2^64. -/
theorem C46_power (NV p : Nat) : power NV p = NV ^ p % 2 ^ 64 ∧ (NV ^ p < 2 ^ 64 → power NV p = NV ^ p) := by
  have h : ∀ p, power NV p = NV ^ p % 2 ^ 64 := by
    intro p
    induction p with
    | zero => rfl
    | succ p ih => rw [power, ih, pow_succ NV p, Nat.mul_mod, Nat.mod_mod, ← Nat.mul_mod, Nat.mul_comm]
  rw [h]
  exact ⟨rfl, fun h1 => Nat.mod_eq_of_lt h1⟩

/-- C46, `power_of_2_round_up<NV>`: the least power of two that is at least `NV` (and at least 2). -/
theorem C46_round_up {NV : Nat} (h : NV ≤ 2 ^ 30) : ∃ k, (∀ fuel, NV < fuel → roundUp NV fuel = .ok (2 ^ k)) ∧ 1 ≤ k ∧ NV ≤ 2 ^ k ∧ ∀ j, 1 ≤ j → NV ≤ 2 ^ j → k ≤ j := by
  by_cases h0 : NV = 0
  · subst h0; exact ⟨1, fun fuel _ => rfl, by omega, by omega, fun j hj _ => hj⟩
  by_cases h1 : NV = 1
  · subst h1
    refine ⟨1, fun fuel hf => ?_, by omega, by omega, fun j hj _ => hj⟩
    obtain ⟨f, rfl⟩ : ∃ f, fuel = f + 1 := ⟨fuel - 1, by omega⟩
    rfl
  obtain ⟨v, e1, e2, e3⟩ := C46_log (NV := NV - 1) (BASE := 2) (by omega) (by omega)
  have hv : v < 30 := by
    apply (Nat.pow_lt_pow_iff_right (show 1 < 2 by omega)).1
    omega
  refine ⟨v + 1, fun fuel hf => ?_, by omega, by omega, fun j hj hn => ?_⟩
  · unfold roundUp
    rw [if_neg h0, e1 fuel (by omega)]
    show shl1 (v + 1) = _
    unfold shl1
    rw [if_pos (by omega), Nat.one_shiftLeft]
  · have : 2 ^ v < 2 ^ j := by omega
    have := (Nat.pow_lt_pow_iff_right (show 1 < 2 by omega)).1 this
    omega

/-- What `power_of_2_round_down<NV>` computes: the greatest power of two strictly below `NV` (`NV ≥ 3`). -/
theorem C46_round_down {NV : Nat} (h3 : 3 ≤ NV) (h : NV ≤ 2 ^ 31) : ∃ k, (∀ fuel, NV ≤ fuel → roundDown NV fuel = .ok (2 ^ k)) ∧ 2 ^ k < NV ∧ NV ≤ 2 ^ (k + 1) := by
  obtain ⟨v, e1, e2, e3⟩ := C46_log (NV := NV - 1) (BASE := 2) (by omega) (by omega)
  have hv : v < 31 := by
    apply (Nat.pow_lt_pow_iff_right (show 1 < 2 by omega)).1
    omega
  refine ⟨v, fun fuel hf => ?_, by omega, by omega⟩
  unfold roundDown
  rw [if_neg (by omega), if_neg (by omega), if_neg (by omega), e1 fuel (by omega)]
  show shl1 v = _
  unfold shl1
  rw [if_pos (by omega), Nat.one_shiftLeft]

/-- Finding: an exact power of two is rounded down to its half (8 becomes 4). -/
theorem round_down_of_power_is_half {k : Nat} (h2 : 2 ≤ k) (h : k ≤ 31) (fuel : Nat) (hf : 2 ^ k ≤ fuel) : roundDown (2 ^ k) fuel = .ok (2 ^ (k - 1)) := by
  have h4 : 2 ^ 2 ≤ 2 ^ k := Nat.pow_le_pow_right (by omega) h2
  obtain ⟨j, e1, e2, e3⟩ := C46_round_down (NV := 2 ^ k) (by omega) (Nat.pow_le_pow_right (by omega) h)
  rw [e1 fuel hf]
  have a := (Nat.pow_lt_pow_iff_right (show 1 < 2 by omega)).1 e2
  have b := (Nat.pow_le_pow_iff_right (show 1 < 2 by omega)).1 e3
  have : j = k - 1 := by omega
  rw [this]

theorem and_pred_pow (k : Nat) : 2 ^ k &&& (2 ^ k - 1) = 0 := by
  rw [Nat.and_two_pow_sub_one_eq_mod, Nat.mod_self]

/-- C46, `is_power_of_2<NV>`: true exactly for the powers of two from 2 on (1 is reported as false). -/
theorem C46_is_power_of_2 (NV : Nat) : isPower2 NV = true ↔ ∃ k, 1 ≤ k ∧ NV = 2 ^ k := by
  constructor
  · intro h
    unfold isPower2 at h
    split_ifs at h with h0 h1
    simp only [beq_iff_eq] at h
    obtain ⟨v, _, e2, e3⟩ := C46_log (NV := NV) (BASE := 2) (by omega) h0
    refine ⟨v, ?_, ?_⟩
    · by_contra hv
      have : v = 0 := by omega
      subst this; omega
    · by_contra hne
      have t1 : NV.testBit v = true := by
        rw [Nat.testBit_eq_decide_div_mod_eq]
        have : NV / 2 ^ v = 1 := Nat.div_eq_of_lt_le (by omega) (by rw [Nat.pow_succ] at e3; omega)
        simp [this]
      have t2 : (NV - 1).testBit v = true := by
        rw [Nat.testBit_eq_decide_div_mod_eq]
        have : (NV - 1) / 2 ^ v = 1 := Nat.div_eq_of_lt_le (by omega) (by rw [Nat.pow_succ] at e3; omega)
        simp [this]
      have : (NV &&& (NV - 1)).testBit v = true := by rw [Nat.testBit_and, t1, t2]; rfl
      rw [h] at this; simp at this
  · rintro ⟨k, hk, rfl⟩
    have : 2 ^ 1 ≤ 2 ^ k := Nat.pow_le_pow_right (by omega) hk
    unfold isPower2
    rw [if_neg (by omega), if_neg (by omega), and_pred_pow]; rfl

/-! ## factorial and fibonacci -/

/-- C46, `factorial<N>`: `N!` modulo 2^64, exact for N ≤ 20. -/
theorem C46_factorial (N : Nat) : factorial N = N.factorial % 2 ^ 64 ∧ (N ≤ 20 → factorial N = N.factorial) := by
  have h : ∀ n, factorial n = n.factorial % 2 ^ 64 := by
    intro n
    induction n with
    | zero => rfl
    | succ n ih => rw [factorial, ih, Nat.factorial_succ, Nat.mul_mod, Nat.mod_mod, ← Nat.mul_mod]
  refine ⟨h N, fun hN => ?_⟩
  rw [h]
  exact Nat.mod_eq_of_lt (Nat.lt_of_le_of_lt (Nat.factorial_le hN) (by decide))

/-- C46, `fibonacci<N>`: the Nth Fibonacci number modulo 2^64, exact for N ≤ 93. -/
theorem C46_fibonacci (N : Nat) : fibonacci N = Nat.fib N % 2 ^ 64 ∧ (N ≤ 93 → fibonacci N = Nat.fib N) := by
  have h : ∀ n, fibonacci n = Nat.fib n % 2 ^ 64 ∧ fibonacci (n + 1) = Nat.fib (n + 1) % 2 ^ 64 := by
    intro n
    induction n with
    | zero => exact ⟨rfl, rfl⟩
    | succ n ih =>
      refine ⟨ih.2, ?_⟩
      rw [fibonacci, ih.1, ih.2, Nat.fib_add_two, ← Nat.add_mod, Nat.add_comm]
  refine ⟨(h N).1, fun hN => ?_⟩
  rw [(h N).1]
  exact Nat.mod_eq_of_lt (Nat.lt_of_le_of_lt (Nat.fib_mono hN) (by decide +kernel))

/-! ## Examples -/
example : gcdS 8 (-128) 96 = 32 := by decide +kernel
example : Nat.gcd (Int.natAbs (-128)) (Int.natAbs 96) < 2 ^ (8 - 1) := by decide
example : gcdMany (gcdU 32) 12 [18, 35, 7] = 1 := by decide +kernel
example : lcmMany (lcmU 32) 4 [6, 10] = 60 := by decide +kernel
example : sqrtFrom 99 20 1 = .ok 9 := by rfl
example : log 1000 10 1001 = .ok 3 := by rfl
example : roundUp 1000 1001 = .ok 1024 := by rfl
example : roundDown 8 9 = .ok 4 := by rfl
example : isPower2 64 = true ∧ isPower2 65 = false := by decide

end Etl.Maths
