import Verif.Random.Model
import Mathlib.Dynamics.PeriodicPts.Lemmas
import Mathlib.Data.Nat.Prime.Basic
import Mathlib.Data.Finite.Prod
import Mathlib.Tactic.Ring

/-!
# Properties of the random number generators (C75)
-/
namespace Etl.Random

/-- C75: for every generator in every state, `range(low, high)` is between `low` and `high`, both possible, unless it is the whole of `uint32_t`. -/
theorem C75_range {S : Type} (g : Gen S) (s : S) (low high : U32) (h : low.toNat ≤ high.toNat) (hw : ¬ (low = 0 ∧ high = BitVec.allOnes 32)) :
    ∃ n s', range g s low high = some (n, s') ∧ low.toNat ≤ n.toNat ∧ n.toNat ≤ high.toNat ∧ s' = (g.next s).2 ∧
      n.toNat = low.toNat + (g.next s).1.toNat % (high.toNat - low.toNat + 1) := by
  have hl := low.isLt
  have hh := high.isLt
  have hr : (high - low + 1 : U32).toNat = high.toNat - low.toNat + 1 := by
    have hne : ¬ (low.toNat = 0 ∧ high.toNat = 2 ^ 32 - 1) := by
      rintro ⟨a, b⟩
      exact hw ⟨BitVec.eq_of_toNat_eq (by simpa using a), BitVec.eq_of_toNat_eq (by simpa using b)⟩
    rw [BitVec.toNat_add, BitVec.toNat_sub, show (1 : U32).toNat = 1 from rfl]
    omega
  have hr0 : (high - low + 1 : U32) ≠ 0 := by
    intro e; rw [e] at hr; simp at hr
  have hm : (g.next s).1.toNat % (high.toNat - low.toNat + 1) < high.toNat - low.toNat + 1 := Nat.mod_lt _ (by omega)
  have hv : ((g.next s).1 % (high - low + 1) + low : U32).toNat = low.toNat + (g.next s).1.toNat % (high.toNat - low.toNat + 1) := by
    rw [BitVec.toNat_add, BitVec.toNat_umod, hr, Nat.mod_eq_of_lt (by omega)]; omega
  refine ⟨_, _, ?_, ?_, ?_, rfl, hv⟩
  · unfold range; simp only []; rw [if_neg hr0]
  · omega
  · omega

/-! ## xorshift -/

/-- A left shift mixed in can be undone, from the lowest bit on. -/
theorem xorShl_inj (k : Nat) (hk : 0 < k) (x y : U32) (h : x ^^^ (x <<< k) = y ^^^ (y <<< k)) : x = y := by
  have key : ∀ n i, i < n → x.getLsbD i = y.getLsbD i := by
    intro n
    induction n with
    | zero => intro i hi; omega
    | succ n ih =>
      intro i hi
      have e := congrArg (fun v => v.getLsbD i) h
      simp only [BitVec.getLsbD_xor, BitVec.getLsbD_shiftLeft] at e
      by_cases h32 : i < 32
      · by_cases hik : i < k
        · simpa [h32, hik] using e
        · rw [ih (i - k) (by omega)] at e
          simpa [h32, hik] using e
      · rw [BitVec.getLsbD_of_ge x i (by omega), BitVec.getLsbD_of_ge y i (by omega)]
  exact BitVec.eq_of_getLsbD_eq (fun i _ => key (i + 1) i (by omega))

/-- A right shift, from the highest bit on. -/
theorem xorShr_inj (k : Nat) (hk : 0 < k) (x y : U32) (h : x ^^^ (x >>> k) = y ^^^ (y >>> k)) : x = y := by
  have key : ∀ n i, 32 ≤ i + n → x.getLsbD i = y.getLsbD i := by
    intro n
    induction n with
    | zero => intro i hi; rw [BitVec.getLsbD_of_ge x i (by omega), BitVec.getLsbD_of_ge y i (by omega)]
    | succ n ih =>
      intro i hi
      have e := congrArg (fun v => v.getLsbD i) h
      simp only [BitVec.getLsbD_xor, BitVec.getLsbD_ushiftRight] at e
      rw [ih (k + i) (by omega)] at e
      simpa using e
  exact BitVec.eq_of_getLsbD_eq (fun i _ => key 32 i (by omega))

theorem xs_inj : Function.Injective (fun s : Xs => (xsNext s).2) := by
  rintro ⟨a0, a1, a2, a3⟩ ⟨b0, b1, b2, b3⟩ h
  simp only [xsNext, Xs.mk.injEq] at h
  obtain ⟨h0, h1, h2, h3⟩ := h
  subst h1; subst h2; subst h3
  rw [BitVec.xor_left_inj, BitVec.xor_left_inj] at h0
  rw [xorShl_inj 11 (by decide) _ _ (xorShr_inj 8 (by decide) _ _ h0)]

theorem after_iterate {S : Type} (g : Gen S) (n : Nat) : ∀ s, after g n s = (fun s => (g.next s).2)^[n] s := by
  induction n with
  | zero => intro s; rfl
  | succ n ih => intro s; rw [after, ih, Function.iterate_succ_apply]

/-- C75: for every seed, the state of the xorshift generator is never zero (from there it would give only zeros). -/
theorem C75_xorshift_never_dies (seed : U32) (n : Nat) : after xorshift n (xsInit seed) ≠ (⟨0, 0, 0, 0⟩ : Xs) := by
  have hinit : xsInit seed ≠ ⟨0, 0, 0, 0⟩ := by
    intro h
    simp only [xsInit, Xs.mk.injEq] at h
    have := h.1.trans h.2.1.symm
    rw [BitVec.add_right_inj] at this
    exact absurd this (by decide)
  have step : ∀ s : Xs, s ≠ ⟨0, 0, 0, 0⟩ → (xsNext s).2 ≠ ⟨0, 0, 0, 0⟩ := fun s hs e => hs (xs_inj (e.trans (by decide : (⟨0, 0, 0, 0⟩ : Xs) = (xsNext ⟨0, 0, 0, 0⟩).2)))
  have go : ∀ (n : Nat) (s : Xs), s ≠ ⟨0, 0, 0, 0⟩ → after xorshift n s ≠ (⟨0, 0, 0, 0⟩ : Xs) := by
    intro n
    induction n with
    | zero => intro s hs; exact hs
    | succ n ih => intro s hs; exact ih _ (step s hs)
  exact go n _ hinit

instance : Finite U32 := Finite.of_injective (fun x : U32 => x.toFin) (fun _ _ h => BitVec.eq_of_toFin_eq h)
instance : Finite U64 := Finite.of_injective (fun x : U64 => x.toFin) (fun _ _ h => BitVec.eq_of_toFin_eq h)
instance : Finite Xs := Finite.of_injective (fun x : Xs => (x.s0, x.s1, x.s2, x.s3)) (fun a b h => by
  cases a; cases b; simp only [Prod.mk.injEq] at h; obtain ⟨rfl, rfl, rfl, rfl⟩ := h; rfl)

/-- The numbers depend on the state only. -/
theorem take_append {S : Type} (g : Gen S) (m n : Nat) : ∀ s, take g (m + n) s = take g m s ++ take g n (after g m s) := by
  induction m with
  | zero => intro s; simp [take, after]
  | succ m ih => intro s; rw [show m + 1 + n = (m + n) + 1 by omega, take, take, after, ih, List.cons_append]

/-- C75: the xorshift generator is periodic from the start: the sequence of every seed begins again, it has no tail that is never seen again. -/
theorem C75_xorshift_periodic (seed : U32) : ∃ p > 0, after xorshift p (xsInit seed) = xsInit seed ∧ ∀ n, take xorshift (p + n) (xsInit seed) = take xorshift p (xsInit seed) ++ take xorshift n (xsInit seed) := by
  obtain ⟨p, hp, h⟩ := Function.Injective.mem_periodicPts xs_inj (xsInit seed)
  have e : after xorshift p (xsInit seed) = xsInit seed := by rw [after_iterate]; exact h
  refine ⟨p, hp, e, fun n => ?_⟩
  rw [take_append, e]

/-! ## pcg -/

/-- The state of pcg after `2 ^ k` numbers: `A v + C` with `A ≡ 1 mod 2^(k+2)` and `C` = `2^k` times an odd number. -/
theorem pcg_jump (k : Nat) : ∃ A C : Nat, (∀ v : Nat, (fun v => v * 6364136223846793005 + 1)^[2 ^ k] v = v * A + C) ∧ A % 2 ^ (k + 2) = 1 ∧ ∃ c, C = 2 ^ k * (2 * c + 1) := by
  induction k with
  | zero => exact ⟨6364136223846793005, 1, fun v => rfl, rfl, 0, rfl⟩
  | succ k ih =>
    obtain ⟨A, C, h1, h2, c, h3⟩ := ih
    have hA : A = 2 ^ (k + 2) * (A / 2 ^ (k + 2)) + 1 := by
      have := Nat.div_add_mod A (2 ^ (k + 2)); omega
    obtain ⟨q, hq⟩ : ∃ q, A = 2 ^ (k + 2) * q + 1 := ⟨_, hA⟩
    refine ⟨A * A, C * A + C, ?_, ?_, ?_⟩
    · intro v
      rw [Nat.pow_succ, Nat.mul_two, Function.iterate_add_apply, h1, h1]; ring
    · have : A * A = 2 ^ (k + 1 + 2) * (2 ^ (k + 1) * q * q + q) + 1 := by
        rw [hq]; ring
      rw [this, Nat.mul_add_mod, Nat.mod_eq_of_lt]
      exact Nat.one_lt_two_pow (by omega)
    · refine ⟨2 ^ (k + 1) * q * c + 2 ^ k * q + c, ?_⟩
      rw [h3, hq]; ring

theorem pcgStep_toNat (v : U64) : (pcgStep v).toNat = (v.toNat * 6364136223846793005 + 1) % 2 ^ 64 := by
  unfold pcgStep
  rw [BitVec.toNat_add, BitVec.toNat_mul, show (1 : U64).toNat = 1 from rfl, show (6364136223846793005 : U64).toNat = 6364136223846793005 from rfl]
  omega

theorem pcg_iter (n : Nat) : ∀ v : U64, (pcgStep^[n] v).toNat = ((fun v => v * 6364136223846793005 + 1)^[n] v.toNat) % 2 ^ 64 := by
  induction n with
  | zero => intro v; exact (Nat.mod_eq_of_lt v.isLt).symm
  | succ n ih =>
    intro v
    rw [Function.iterate_succ_apply', Function.iterate_succ_apply', pcgStep_toNat, ih]
    generalize (fun v => v * 6364136223846793005 + 1)^[n] v.toNat = x
    omega

theorem pcg_pow (k : Nat) (v : U64) : ∃ q c : Nat, (pcgStep^[2 ^ k] v).toNat = (v.toNat + 2 ^ (k + 2) * q + 2 ^ k * (2 * c + 1)) % 2 ^ 64 := by
  obtain ⟨A, C, h1, h2, c, h3⟩ := pcg_jump k
  have hA : A = 2 ^ (k + 2) * (A / 2 ^ (k + 2)) + 1 := by
    have := Nat.div_add_mod A (2 ^ (k + 2)); omega
  refine ⟨v.toNat * (A / 2 ^ (k + 2)), c, ?_⟩
  rw [pcg_iter, h1, h3]
  congr 1
  conv => lhs; rw [hA]
  ring

theorem pcg_period (v : U64) : Function.minimalPeriod pcgStep v = 2 ^ 64 := by
  have full : Function.IsPeriodicPt pcgStep (2 ^ 64) v := by
    obtain ⟨q, c, h⟩ := pcg_pow 64 v
    refine BitVec.eq_of_toNat_eq ?_
    rw [h]
    have := v.isLt
    omega
  have half : ¬ Function.IsPeriodicPt pcgStep (2 ^ 63) v := by
    intro e
    obtain ⟨q, c, h⟩ := pcg_pow 63 v
    have e' : pcgStep^[2 ^ 63] v = v := e
    rw [e'] at h
    have := v.isLt
    omega
  have hd := full.minimalPeriod_dvd
  obtain ⟨j, hj, he⟩ := (Nat.dvd_prime_pow Nat.prime_two).mp hd
  have hj64 : j = 64 := by
    by_contra hne
    refine half ?_
    rw [Function.isPeriodicPt_iff_minimalPeriod_dvd, he]
    exact Nat.pow_dvd_pow 2 (by omega)
  rw [he, hj64]

/-- C75: the pcg generator has the full period: from every state, all `2^64` states are visited before one is seen again. -/
theorem C75_pcg_full_period (v : U64) : after pcg (2 ^ 64) v = v ∧ (∀ m n : Nat, m < 2 ^ 64 → n < 2 ^ 64 → after pcg m v = after pcg n v → m = n) ∧ ∀ w : U64, ∃ n < 2 ^ 64, after pcg n v = w := by
  have hst : (fun s => (pcg.next s).2) = pcgStep := rfl
  have hp := pcg_period v
  have h1 : after pcg (2 ^ 64) v = v := by
    rw [after_iterate, hst, ← hp]; exact Function.iterate_minimalPeriod
  have h2 : ∀ m n : Nat, m < 2 ^ 64 → n < 2 ^ 64 → after pcg m v = after pcg n v → m = n := by
    intro m n hm hn e
    rw [after_iterate, after_iterate, hst] at e
    rw [← hp] at hm hn
    exact (Function.iterate_eq_iterate_iff_of_lt_minimalPeriod hm hn).mp e
  refine ⟨h1, h2, ?_⟩
  let f : Fin (2 ^ 64) → Fin (2 ^ 64) := fun n => (after pcg n.1 v : U64).toFin
  have hf : Function.Injective f := by
    intro a b e
    have : after pcg a.1 v = after pcg b.1 v := BitVec.eq_of_toFin_eq e
    exact Fin.ext (h2 a.1 b.1 a.2 b.2 this)
  intro w
  obtain ⟨n, hn⟩ := Finite.surjective_of_injective hf w.toFin
  exact ⟨n.1, n.2, BitVec.eq_of_toFin_eq hn⟩

/-! ## mwc -/

theorem mwc_val (k v : Nat) (hk : k ≤ 36969) (hv : v < 2 ^ 32) : k * (v % 65536) + v / 65536 < 2 ^ 32 := by
  have h1 : v % 65536 ≤ 65535 := by omega
  have h2 : v / 65536 ≤ 65535 := by omega
  have : k * (v % 65536) ≤ 36969 * 65535 := Nat.mul_le_mul hk h1
  omega

theorem mwc_toNat (k : Nat) (hk : k ≤ 36969) (v : U32) : (BitVec.ofNat 32 k * (v &&& 65535#32) + (v >>> 16)).toNat = k * (v.toNat % 65536) + v.toNat / 65536 := by
  have hand : (v &&& 65535#32).toNat = v.toNat % 65536 := by
    rw [BitVec.toNat_and]
    exact Nat.and_two_pow_sub_one_eq_mod v.toNat 16
  have := mwc_val k v.toNat hk v.isLt
  rw [BitVec.toNat_add, BitVec.toNat_mul, hand, BitVec.toNat_ushiftRight, Nat.shiftRight_eq_div_pow, BitVec.toNat_ofNat, Nat.mod_eq_of_lt (show k < 2 ^ 32 by omega)]
  rw [Nat.mod_eq_of_lt (show k * (v.toNat % 65536) < 2 ^ 32 by omega)]
  exact Nat.mod_eq_of_lt this

/-- C75: the multiply-with-carry generator never overflows: both halves follow the exact recurrence; with a seed that is not zero they are never zero. -/
theorem C75_mwc (seed : U32) (hs : seed ≠ 0) (n : Nat) : ∃ a b : U32, after mwc n (seed, seed) = (a, b) ∧ a ≠ 0 ∧ b ≠ 0 ∧
    (after mwc (n + 1) (seed, seed)).1.toNat = 36969 * (a.toNat % 2 ^ 16) + a.toNat / 2 ^ 16 ∧ (after mwc (n + 1) (seed, seed)).2.toNat = 18000 * (b.toNat % 2 ^ 16) + b.toNat / 2 ^ 16 := by
  have hnext : ∀ s : U32 × U32, ((mwcNext s).2.1.toNat = 36969 * (s.1.toNat % 65536) + s.1.toNat / 65536) ∧ (mwcNext s).2.2.toNat = 18000 * (s.2.toNat % 65536) + s.2.toNat / 65536 :=
    fun s => ⟨mwc_toNat 36969 (by decide) s.1, mwc_toNat 18000 (by decide) s.2⟩
  have hne : ∀ v : U32, v ≠ 0 → v.toNat ≠ 0 := fun v h e => h (BitVec.eq_of_toNat_eq (by simpa using e))
  have go : ∀ (n : Nat) (s : U32 × U32), s.1 ≠ 0 → s.2 ≠ 0 → (after mwc n s).1 ≠ 0 ∧ (after mwc n s).2 ≠ 0 := by
    intro n
    induction n with
    | zero => intro s h1 h2; exact ⟨h1, h2⟩
    | succ n ih =>
      intro s h1 h2
      refine ih _ ?_ ?_
      · intro e
        have h := (hnext s).1
        have e' : (mwcNext s).2.1 = 0 := e
        rw [e'] at h
        have := hne _ h1
        rw [show (0 : U32).toNat = 0 from rfl] at h
        omega
      · intro e
        have h := (hnext s).2
        have e' : (mwcNext s).2.2 = 0 := e
        rw [e'] at h
        have := hne _ h2
        rw [show (0 : U32).toNat = 0 from rfl] at h
        omega
  obtain ⟨g1, g2⟩ := go n (seed, seed) hs hs
  have hsucc : after mwc (n + 1) (seed, seed) = (mwcNext (after mwc n (seed, seed))).2 := by
    rw [after_iterate, after_iterate, Function.iterate_succ_apply']; rfl
  refine ⟨_, _, rfl, g1, g2, ?_, ?_⟩
  · rw [hsucc]; exact (hnext _).1
  · rw [hsucc]; exact (hnext _).2

/-! ## lcg and clcg, output of pcg -/

/-- Specification: one step of a congruential generator whose product is kept in 32 bits. -/
def lcgStepSpec (a m x : Nat) : Nat := (a * x % 2 ^ 32) % m

theorem umod_toNat (a m v : U32) : ((a * v) % m).toNat = lcgStepSpec a.toNat m.toNat v.toNat := by
  rw [BitVec.toNat_umod, BitVec.toNat_mul]; rfl

/-- C75: for every seed, number `n` of `random_lcg` is the state of the congruential generator with a 32 bit product, and is below the modulus. -/
theorem C75_lcg (seed : U32) (n : Nat) : (lcg.next (after lcg n (lcgInit seed))).1.toNat = (lcgStepSpec 40014 2147483563)^[n + 1] (min (max seed.toNat 1) 2147483563) ∧
    (lcg.next (after lcg n (lcgInit seed))).1.toNat < 2147483563 := by
  have hi : (lcgInit seed).toNat = min (max seed.toNat 1) 2147483563 := by
    unfold lcgInit
    simp only []
    by_cases h : seed = 0
    · subst h; rfl
    · have h0 : seed.toNat ≠ 0 := fun e => h (BitVec.eq_of_toNat_eq (by simpa using e))
      rw [if_neg h]
      by_cases hg : seed > 2147483563
      · rw [if_pos hg]
        have : 2147483563 < seed.toNat := hg
        rw [show (2147483563 : U32).toNat = 2147483563 from rfl]; omega
      · rw [if_neg hg]
        have : ¬ 2147483563 < seed.toNat := hg
        omega
  have go : ∀ n, (after lcg n (lcgInit seed)).toNat = (lcgStepSpec 40014 2147483563)^[n] (min (max seed.toNat 1) 2147483563) := by
    intro n
    induction n with
    | zero => exact hi
    | succ n ih =>
      have e : after lcg (n + 1) (lcgInit seed) = (lcgNext (after lcg n (lcgInit seed))).2 := by
        rw [after_iterate, after_iterate, Function.iterate_succ_apply']; rfl
      rw [e, Function.iterate_succ_apply', ← ih]
      exact umod_toNat 40014 2147483563 _
  have e : (lcg.next (after lcg n (lcgInit seed))).1.toNat = (lcgStepSpec 40014 2147483563)^[n + 1] (min (max seed.toNat 1) 2147483563) := by
    rw [Function.iterate_succ_apply', ← go n]
    exact umod_toNat 40014 2147483563 _
  refine ⟨e, ?_⟩
  rw [e, Function.iterate_succ_apply']
  exact Nat.mod_lt _ (by decide)

/-- C75: number `n` of `random_clcg` is the exact sum of two such generators, modulo 2147483563; the sum never overflows. -/
theorem C75_clcg (seed : U32) (n : Nat) : (clcg.next (after clcg n (clcgInit seed))).1.toNat =
    ((lcgStepSpec 40014 2147483563)^[n + 1] (min (max seed.toNat 1) 2147483563) + (lcgStepSpec 40692 2147483399)^[n + 1] (min (max seed.toNat 1) 2147483563)) % 2147483563 := by
  have hi : (lcgInit seed).toNat = min (max seed.toNat 1) 2147483563 := by
    unfold lcgInit
    simp only []
    by_cases h : seed = 0
    · subst h; rfl
    · have h0 : seed.toNat ≠ 0 := fun e => h (BitVec.eq_of_toNat_eq (by simpa using e))
      rw [if_neg h]
      by_cases hg : seed > 2147483563
      · rw [if_pos hg]
        have : 2147483563 < seed.toNat := hg
        rw [show (2147483563 : U32).toNat = 2147483563 from rfl]; omega
      · rw [if_neg hg]
        have : ¬ 2147483563 < seed.toNat := hg
        omega
  have go : ∀ n, (after clcg n (clcgInit seed)).1.toNat = (lcgStepSpec 40014 2147483563)^[n] (min (max seed.toNat 1) 2147483563) ∧
      (after clcg n (clcgInit seed)).2.toNat = (lcgStepSpec 40692 2147483399)^[n] (min (max seed.toNat 1) 2147483563) := by
    intro n
    induction n with
    | zero => exact ⟨hi, hi⟩
    | succ n ih =>
      have e : after clcg (n + 1) (clcgInit seed) = (clcgNext (after clcg n (clcgInit seed))).2 := by
        rw [after_iterate, after_iterate, Function.iterate_succ_apply']; rfl
      rw [e, Function.iterate_succ_apply', Function.iterate_succ_apply', ← ih.1, ← ih.2]
      exact ⟨umod_toNat 40014 2147483563 _, umod_toNat 40692 2147483399 _⟩
  rw [Function.iterate_succ_apply', Function.iterate_succ_apply', ← (go n).1, ← (go n).2]
  generalize after clcg n (clcgInit seed) = s
  show (((40014 * s.1) % 2147483563 + (40692 * s.2) % 2147483399) % 2147483563 : U32).toNat = _
  rw [BitVec.toNat_umod, BitVec.toNat_add, umod_toNat, umod_toNat]
  have h1 : lcgStepSpec (40014 : U32).toNat (2147483563 : U32).toNat s.1.toNat < 2147483563 := Nat.mod_lt _ (by decide)
  have h2 : lcgStepSpec (40692 : U32).toNat (2147483399 : U32).toNat s.2.toNat < 2147483399 := Nat.mod_lt _ (by decide)
  rw [Nat.mod_eq_of_lt (show _ < 2 ^ 32 by omega)]
  rfl

/-- C75: the number of `random_pcg` is the permutation XSH RR of the state before the step: bit `i` is bit `27 + (i + r) mod 32` of `v xor v / 2^18`, where `r` are the five highest bits of `v`. -/
theorem C75_pcg_output (v : U64) (i : Nat) (hi : i < 32) :
    (pcg.next v).1.getLsbD i = ((v.toNat ^^^ (v.toNat / 2 ^ 18)).testBit (27 + (i + v.toNat / 2 ^ 59) % 32)) ∧ (pcg.next v).2.toNat = (6364136223846793005 * v.toNat + 1) % 2 ^ 64 := by
  constructor
  · have hr : (v >>> 59 : U64).toNat = v.toNat / 2 ^ 59 := by
      rw [BitVec.toNat_ushiftRight, Nat.shiftRight_eq_div_pow]
    have hv := v.isLt
    have hr32 : v.toNat / 2 ^ 59 < 32 := by omega
    have hx : ∀ j, (((v ^^^ (v >>> 18)) >>> 27 : U64).setWidth 32).getLsbD j = (decide (j < 32) && (v.toNat ^^^ (v.toNat / 2 ^ 18)).testBit (27 + j)) := by
      intro j
      rw [BitVec.getLsbD_setWidth, BitVec.getLsbD_ushiftRight, BitVec.getLsbD, BitVec.toNat_xor, BitVec.toNat_ushiftRight, Nat.shiftRight_eq_div_pow]
    show ((((v ^^^ (v >>> 18)) >>> 27 : U64).setWidth 32).rotateRight (v >>> 59 : U64).toNat).getLsbD i = _
    rw [BitVec.getLsbD_rotateRight, hr, hx, hx, Nat.mod_eq_of_lt hr32]
    by_cases h : i < 32 - v.toNat / 2 ^ 59
    · rw [show decide (i < 32 - v.toNat / 2 ^ 59) = true from decide_eq_true h]
      rw [show (i + v.toNat / 2 ^ 59) % 32 = v.toNat / 2 ^ 59 + i by omega]
      simp; omega
    · rw [show decide (i < 32 - v.toNat / 2 ^ 59) = false from decide_eq_false h]
      rw [show (i + v.toNat / 2 ^ 59) % 32 = i - (32 - v.toNat / 2 ^ 59) by omega]
      have : i - (32 - v.toNat / 2 ^ 59) < 32 := by omega
      rw [show decide (i - (32 - v.toNat / 2 ^ 59) < 32) = true from decide_eq_true this]
      simp [hi]
  · show (pcgStep v).toNat = _
    rw [pcgStep_toNat, Nat.mul_comm]

/-- Number `n` of a generator. -/
def nth {S : Type} (g : Gen S) (n : Nat) (s : S) : U32 := (g.next (after g n s)).1

theorem after_succ {S : Type} (g : Gen S) (n : Nat) (s : S) : after g (n + 1) s = (g.next (after g n s)).2 := by
  rw [after_iterate, after_iterate, Function.iterate_succ_apply']

/-- C75: the numbers of the xorshift generator satisfy the recurrence of Marsaglia's xorshift128 with the shifts 11, 8 and 19. -/
theorem C75_xorshift_recurrence (s : Xs) (n : Nat) :
    let y := fun i => nth xorshift i s
    let t := y n ^^^ (y n <<< 11)
    y (n + 4) = (t ^^^ (t >>> 8)) ^^^ y (n + 3) ^^^ (y (n + 3) >>> 19) := by
  simp only [nth, after_succ]
  rfl

/-- C75: number `n` of the multiply-with-carry generator is made of the low half of the first state and the second state. -/
theorem C75_mwc_output (s : U32 × U32) (n : Nat) :
    (nth mwc n s).toNat = (2 ^ 16 * (after mwc (n + 1) s).1.toNat + (after mwc (n + 1) s).2.toNat) % 2 ^ 32 := by
  rw [after_succ]
  unfold nth
  generalize after mwc n s = r
  show (((mwcNext r).2.1 <<< 16) + (mwcNext r).2.2 : U32).toNat = _
  rw [BitVec.toNat_add, BitVec.toNat_shiftLeft, Nat.shiftLeft_eq]
  show _ = (2 ^ 16 * (mwcNext r).2.1.toNat + (mwcNext r).2.2.toNat) % 2 ^ 32
  omega

/-! ## Examples and findings -/

example : (range pcg (pcgInit 12345) 10 20).map (fun p => decide (10 ≤ p.1.toNat ∧ p.1.toNat ≤ 20)) = some true := by decide +kernel
example : take xorshift 2 (xsInit 7) ≠ take xorshift 2 (xsInit 8) := by decide +kernel

/-- FINDING: `range(0, 0xFFFFFFFF)` divides by zero, in every generator. -/
theorem range_of_everything_divides_by_zero {S : Type} (g : Gen S) (s : S) : range g s 0 (BitVec.allOnes 32) = none := by
  unfold range; rfl

/-- FINDING: `random_lsfr` tests the lowest bit after the shift instead of the one shifted out: all its numbers are even. -/
theorem lsfr_is_even (v : U32) : (lsfrNext v).1.getLsbD 0 = false := by
  unfold lsfrNext
  simp only []
  have hbit : ∀ x : U32, (x &&& 1 = 1) ↔ x.getLsbD 0 = true := by
    intro x
    constructor
    · intro h
      have e := congrArg (fun v => v.getLsbD 0) h
      simpa using e
    · intro h
      refine BitVec.eq_of_getLsbD_eq (fun i hi => ?_)
      rw [BitVec.getLsbD_and]
      by_cases h0 : i = 0
      · subst h0; rw [h]; rfl
      · have : (1 : U32).getLsbD i = false := by
          rw [show (1 : U32) = BitVec.ofNat 32 1 from rfl, BitVec.getLsbD_ofNat]
          have : Nat.testBit 1 i = false := by
            rw [Bool.eq_false_iff]; intro h; exact h0 (Nat.testBit_one_eq_true_iff_self_eq_zero.mp h)
          simp [this]
        rw [this]; simp
  split
  · rename_i h
    rw [BitVec.getLsbD_xor, (hbit _).mp h]; rfl
  · rename_i h
    cases hc : (v >>> 1).getLsbD 0 with
    | false => rfl
    | true => exact absurd ((hbit _).mpr hc) h

/-- FINDING: it loses the bit that it shifts out, so that two states have the same successor; and from the states 0 and 1 it gives zeros for ever. -/
theorem lsfr_dies (n : Nat) : ∀ x ∈ take lsfr n (1 : U32), x = 0 := by
  have go : ∀ (n : Nat) (v : U32), v = 0 ∨ v = 1 → ∀ x ∈ take lsfr n v, x = 0 := by
    intro n
    induction n with
    | zero => intro v _ x hx; simp [take] at hx
    | succ n ih =>
      intro v hv x hx
      have e : lsfr.next v = ((0 : U32), (0 : U32)) := by rcases hv with rfl | rfl <;> rfl
      rw [take, e] at hx
      rcases List.mem_cons.mp hx with e | e
      · exact e
      · exact ih (0 : U32) (Or.inl rfl) x e
  exact go n 1 (Or.inr rfl)

/-- FINDING: the product of `random_lcg` overflows, so it is not the generator it is said to be; and with the seed 1723611357 it gives zeros for ever. -/
theorem lcg_overflows : (lcgNext (lcgInit 200000)).1.toNat ≠ 40014 * 200000 % 2147483563 := by decide +kernel
theorem lcg_dies (n : Nat) : ∀ x ∈ take lcg n (lcgInit 1723611357), x = 0 := by
  have go : ∀ (n : Nat) (v : U32), v = 0 ∨ v = 1723611357 → ∀ x ∈ take lcg n v, x = 0 := by
    intro n
    induction n with
    | zero => intro v _ x hx; simp [take] at hx
    | succ n ih =>
      intro v hv x hx
      have e : lcg.next v = ((0 : U32), (0 : U32)) := by rcases hv with rfl | rfl <;> rfl
      rw [take, e] at hx
      rcases List.mem_cons.mp hx with e | e
      · exact e
      · exact ih (0 : U32) (Or.inl rfl) x e
  exact go n _ (Or.inr rfl)

/-- FINDING: `random_mwc` with the seed 0 gives zeros for ever. -/
theorem mwc_dies (n : Nat) : ∀ x ∈ take mwc n ((0, 0) : U32 × U32), x = 0 := by
  induction n with
  | zero => intro x hx; simp [take] at hx
  | succ n ih =>
    intro x hx
    have e : mwc.next ((0, 0) : U32 × U32) = ((0 : U32), ((0, 0) : U32 × U32)) := rfl
    rw [take, e] at hx
    rcases List.mem_cons.mp hx with e | e
    · exact e
    · exact ih x e

/-- What `random_hash` is: the bytes `b + 1`, `b + 2`, ... go into the hash one after the other. -/
def fed {H : Type} (add : H → BitVec 8 → H) (h : H) (b : Nat) : Nat → H
  | 0 => h
  | n + 1 => add (fed add h b n) (BitVec.ofNat 8 (b + n + 1))

theorem hash_after {H : Type} (new : H) (add : H → BitVec 8 → H) (value : H → U32) (h : H) (b : Nat) (n : Nat) :
    after (hashGen H new add value) n (h, BitVec.ofNat 8 b) = (fed add h b n, BitVec.ofNat 8 (b + n)) := by
  induction n with
  | zero => rfl
  | succ n ih =>
    rw [after_succ, ih]
    have e : BitVec.ofNat 8 (b + n) + 1 = BitVec.ofNat 8 (b + n + 1) := by
      apply BitVec.eq_of_toNat_eq; simp [BitVec.toNat_add]
    show (add (fed add h b n) (BitVec.ofNat 8 (b + n) + 1), BitVec.ofNat 8 (b + n) + 1) = _
    rw [e]
    rfl

/-- C75: number `n` of `random_hash`, for any hash, is the value of the hash that has been given the `n + 1` bytes after the last byte of the seed. -/
theorem C75_hash {H : Type} (new : H) (add : H → BitVec 8 → H) (value : H → U32) (seed : U32) (n : Nat) :
    nth (hashGen H new add value) n ((hashGen H new add value).init seed) = value (fed add new seed.toNat (n + 1)) := by
  have e : (hashGen H new add value).init seed = (new, BitVec.ofNat 8 seed.toNat) := by
    show (new, seed.setWidth 8) = _
    congr 1
  have e2 : BitVec.ofNat 8 (seed.toNat + n) + 1 = BitVec.ofNat 8 (seed.toNat + n + 1) := by
    apply BitVec.eq_of_toNat_eq; simp [BitVec.toNat_add]
  unfold nth
  rw [e, hash_after]
  show value (add (fed add new seed.toNat n) (BitVec.ofNat 8 (seed.toNat + n) + 1)) = _
  rw [e2]
  rfl

/-- FINDING: only the last byte of the seed counts: `random_hash` has 256 sequences. -/
theorem hash_seed_mod_256 {H : Type} (new : H) (add : H → BitVec 8 → H) (value : H → U32) (a b : U32) (h : a.toNat % 256 = b.toNat % 256) (n : Nat) :
    take (hashGen H new add value) n ((hashGen H new add value).init a) = take (hashGen H new add value) n ((hashGen H new add value).init b) := by
  have e : a.setWidth 8 = b.setWidth 8 := by
    apply BitVec.eq_of_toNat_eq
    simpa [BitVec.toNat_setWidth] using h
  show take _ n (new, a.setWidth 8) = take _ n (new, b.setWidth 8)
  rw [e]

/-- A hash that adds up its bytes. -/
def sumHash : Gen (Nat × BitVec 8) := hashGen Nat 0 (fun h b => h + b.toNat) (fun h => BitVec.ofNat 32 h)

example : take sumHash 4 (sumHash.init 300) = [45, 91, 138, 186] := by decide +kernel

/-- FINDING: `initialise` of a `random_hash` in use does not start the sequence of the seed: the hash remembers the bytes it was given before. -/
theorem hash_reseed : take sumHash 2 (hashReseed (after sumHash 3 (sumHash.init 5)) 5) = [27, 34] ∧ take sumHash 2 (sumHash.init 5) = [6, 13] := by decide +kernel

end Etl.Random
