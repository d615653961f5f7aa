import Verif.Bitset.Lemmas2

/-! # Shifts and searching -/
namespace Etl.Bitset
open Binary (testBit_ge eq_of_bits)

/-! ## `<<` -/

theorem loMask_bit (c : Cfg) (r t : Nat) : (c.allSet >>> r).testBit t = decide (t + r < c.w) := by rw [Nat.testBit_shiftRight, allSet_bit, Nat.add_comm]

theorem hiMask_bit (c : Cfg) {r : Nat} (hr : r ≤ c.w) (t : Nat) : (c.allSet - c.allSet >>> r).testBit t = (decide (t < c.w) && decide (c.w ≤ t + r)) := by
  have e : c.allSet >>> r = 2 ^ (c.w - r) - 1 := by
    apply Nat.eq_of_testBit_eq; intro i; rw [loMask_bit, Nat.testBit_two_pow_sub_one]; congr 1; apply propext; omega
  have e2 : c.allSet - c.allSet >>> r = (2 ^ r - 1) <<< (c.w - r) := by
    rw [e, Nat.shiftLeft_eq, Nat.sub_mul, ← Nat.pow_add, show r + (c.w - r) = c.w by omega]
    unfold Cfg.allSet
    have := Nat.two_pow_pos c.w; have := Nat.two_pow_pos (c.w - r); omega
  rw [e2, Nat.testBit_shiftLeft, Nat.testBit_two_pow_sub_one]
  by_cases h1 : t < c.w <;> by_cases h2 : c.w ≤ t + r <;> by_cases h3 : c.w - r ≤ t <;> simp [h1, h2, h3] <;> omega

/-- The bits an element of the result gets from the source element at the same distance, and from the one below. -/
def shlLow (c : Cfg) (b : Buf) (q r j : Nat) : Nat := c.cut ((b (j - q) &&& c.allSet >>> r) <<< r)
def shlHigh (c : Cfg) (b : Buf) (q r j : Nat) : Nat := (b (j - q - 1) &&& (c.allSet - c.allSet >>> r)) >>> (c.w - r)

theorem shlLoop_eff {c : Cfg} {b0 : Buf} {q r : Nat} (hr : r < c.w) (hm : c.w - r < max c.w 32) (k : Nat) : ∀ b : Buf, k + q < c.ne →
    (∀ j, j < k + q → b j = b0 j) → b (k + q) = shlLow c b0 q r (k + q) → (∀ j, k + q < j → j < c.ne → b j = shlLow c b0 q r j ||| shlHigh c b0 q r j) →
    ∃ b', shlLoop c (c.allSet - c.allSet >>> r) (c.w - r) (c.allSet >>> r) r k (k + q) b = .ok (q, b') ∧ (∀ j, j < q → b' j = b0 j) ∧ b' q = shlLow c b0 q r q ∧
      (∀ j, q < j → j < c.ne → b' j = shlLow c b0 q r j ||| shlHigh c b0 q r j) := by
  induction k with
  | zero => intro b h1 h2 h3 h4; rw [Nat.zero_add] at *; exact ⟨b, rfl, h2, h3, h4⟩
  | succ k ih =>
    intro b h1 h2 h3 h4
    have hk : k < c.ne := by omega
    have hrm : r < max c.w 32 := by omega
    have e1 : upd b (k + 1 + q) (b (k + 1 + q) ||| (b k &&& (c.allSet - c.allSet >>> r)) >>> (c.w - r)) k = b k := upd_other _ _ (by omega)
    simp only [shlLoop, get_ok hk, get_ok h1, shr_ok hm, put_ok h1, shl_ok hrm, bind, Except.bind, e1]
    rw [if_neg (by omega)]
    rw [put_ok (by omega), show k + 1 + q - 1 = k + q by omega]
    refine ih _ (by omega) (fun j hj => ?_) ?_ (fun j hj hj2 => ?_)
    · rw [upd_other _ _ (by omega), upd_other _ _ (by omega)]; exact h2 j (by omega)
    · rw [upd_same]; unfold shlLow; rw [h2 k (by omega), Nat.add_sub_cancel]
    · rw [upd_other _ _ (by omega)]
      by_cases h5 : j = k + 1 + q
      · subst h5; rw [upd_same, h3, h2 k (by omega)]; unfold shlHigh; rw [show k + 1 + q - q - 1 = k by omega]
      · rw [upd_other _ _ h5]; exact h4 j (by omega) hj2

theorem shlLow_bit {c : Cfg} {b : Buf} {q r j t : Nat} (hr : r < c.w) (ht : t < c.w) : (shlLow c b q r j).testBit t = (decide (r ≤ t) && (b (j - q)).testBit (t - r)) := by
  unfold shlLow
  rw [testBit_cut, Nat.testBit_shiftLeft, Nat.testBit_and, loMask_bit]
  by_cases h1 : r ≤ t
  · simp [h1, ht, show t - r + r < c.w by omega]
  · simp [h1]
theorem shlHigh_bit {c : Cfg} {b : Buf} {q r j t : Nat} (hr : r < c.w) (ht : t < c.w) : (shlHigh c b q r j).testBit t = (decide (t < r) && (b (j - q - 1)).testBit (c.w + t - r)) := by
  unfold shlHigh
  rw [Nat.testBit_shiftRight, Nat.testBit_and, hiMask_bit c (by omega), show c.w - r + t = c.w + t - r by omega]
  by_cases h1 : t < r
  · simp [h1, show c.w + t - r < c.w by omega, show c.w ≤ c.w + t - r + r by omega]
  · simp [h1]; intro; omega
theorem shlLow_lt (c : Cfg) (b : Buf) (q r j : Nat) : shlLow c b q r j < 2 ^ c.w := cut_lt _ _
theorem shlHigh_lt {c : Cfg} {b : Buf} {q r j : Nat} (h : r < c.w) : shlHigh c b q r j < 2 ^ c.w := by
  unfold shlHigh
  have h1 : c.allSet - c.allSet >>> r < 2 ^ c.w := Nat.lt_of_le_of_lt (Nat.sub_le _ _) (allSet_lt c)
  exact Nat.lt_of_le_of_lt (Nat.shiftRight_le _ _) (Nat.lt_of_le_of_lt Nat.and_le_right h1)

theorem mShl_eff {c : Cfg} {b : Buf} {s : Nat} (hw : WF c b) (hp : 0 < c.N) (hs : s < c.N) (hd : c.w < 32 ∨ s % c.w ≠ 0) :
    ∃ b', mShl c b s = .ok b' ∧ Eff c b' (fun i => decide (s ≤ i) && bits c b (i - s)) := by
  have hwp := w_pos c
  have hr : s % c.w < c.w := Nat.mod_lt _ hwp
  have hq : s / c.w < c.ne := pos_lt hs
  have hne := ne_pos hp
  generalize er : s % c.w = r at *
  generalize eq : s / c.w = q at *
  have es : s = q * c.w + r := by rw [← er, ← eq, Nat.mul_comm]; exact (Nat.div_add_mod s c.w).symm
  have hm : c.w - r < max c.w 32 := by omega
  have hrm : r < max c.w 32 := by omega
  unfold mShl
  rw [if_neg (by omega)]
  simp only [er, eq]
  have e1 : c.w - (c.w - r) = r := by omega
  rw [e1, shr_ok hrm]
  simp only [bind, Except.bind, shl_ok hrm]
  rw [get_ok (by omega)]; dsimp only
  rw [put_ok (by omega)]; dsimp only
  obtain ⟨b1, f1, f2, f3, f4⟩ := shlLoop_eff (b0 := b) (q := q) hr hm (c.ne - q - 1) (upd b (c.ne - 1) (c.cut ((b (c.ne - q - 1) &&& c.allSet >>> r) <<< r))) (by omega)
    (fun j hj => upd_other _ _ (by omega)) (by rw [show c.ne - q - 1 + q = c.ne - 1 by omega, upd_same]; unfold shlLow; rw [show c.ne - 1 - q = c.ne - q - 1 by omega])
    (fun j h1 h2 => by omega)
  rw [show c.ne - q - 1 + q = c.ne - 1 by omega] at f1
  rw [f1]; dsimp only
  rw [get_ok hq]; dsimp only
  rw [put_ok hq]
  refine ⟨_, rfl, ?_⟩
  have val : ∀ j, j < c.ne → mapLoop (fun _ _ => 0) q 0 (upd b1 q (b1 q &&& c.cut (c.allSet >>> r <<< r))) j =
      if j < q then 0 else if j = q then shlLow c b q r q &&& c.cut (c.allSet >>> r <<< r) else shlLow c b q r j ||| shlHigh c b q r j := by
    intro j hj
    rw [mapLoop_get]
    by_cases h1 : j < q
    · rw [if_pos (by omega), if_pos h1]
    · rw [if_neg (by omega), if_neg h1]
      by_cases h2 : j = q
      · rw [if_pos h2, h2, upd_same, f3]
      · rw [if_neg h2, upd_other _ _ h2, f4 j (by omega) hj]
  refine eff_mk (fun j hj => ?_) (fun j t hj ht => ?_)
  · rw [val j hj]; split_ifs
    · exact Nat.two_pow_pos _
    · exact Nat.lt_of_le_of_lt Nat.and_le_left (shlLow_lt _ _ _ _ _)
    · exact Nat.or_lt_two_pow (shlLow_lt _ _ _ _ _) (shlHigh_lt hr)
  · rw [val j hj]
    by_cases h1 : j < q
    · rw [if_pos h1, Nat.zero_testBit]
      have := Nat.mul_le_mul_right c.w (show j + 1 ≤ q by omega)
      rw [Nat.add_mul] at this
      rw [decide_eq_false (by omega), Bool.false_and]
    · rw [if_neg h1]
      have hjq : j * c.w = (j - q) * c.w + q * c.w := by rw [← Nat.add_mul]; congr 1; omega
      have low : r ≤ t → (decide (s ≤ j * c.w + t) && bits c b (j * c.w + t - s)) = (b (j - q)).testBit (t - r) := by
        intro h
        rw [decide_eq_true (by omega), Bool.true_and, ← bits_def (show t - r < c.w by omega)]; congr 1; omega
      by_cases h2 : j = q
      · rw [if_pos h2, Nat.testBit_and, shlLow_bit hr ht, testBit_cut, Nat.testBit_shiftLeft, loMask_bit]
        by_cases h3 : r ≤ t
        · rw [low h3]; simp [h3, ht, show t - r + r < c.w by omega, h2]
        · subst h2; simp [h3]; intro; omega
      · rw [if_neg h2, Nat.testBit_or, shlLow_bit hr ht, shlHigh_bit hr ht]
        by_cases h3 : r ≤ t
        · rw [low h3]; simp [h3, show ¬ t < r by omega]
        · have : (j - q) * c.w = (j - q - 1) * c.w + c.w := by
            conv_lhs => rw [show j - q = j - q - 1 + 1 by omega, Nat.add_mul, Nat.one_mul]
          rw [decide_eq_true (show s ≤ j * c.w + t by omega), Bool.true_and]
          simp only [h3, show t < r by omega, decide_true, decide_false, Bool.false_and, Bool.true_and, Bool.false_or]
          rw [← bits_def (show c.w + t - r < c.w by omega)]; congr 1; omega

theorem shiftLeft_eff {c : Cfg} {b : Buf} {s : Nat} (hw : WF c b) (hp : 0 < c.N) (hd : c.w < 32 ∨ s % c.w ≠ 0 ∨ c.N ≤ s ∨ c.ne = 1) :
    ∃ b', shiftLeft c b s = .ok b' ∧ Eff c b' (fun i => decide (s < c.N) && decide (s ≤ i) && bits c b (i - s)) := by
  unfold shiftLeft
  by_cases h1 : s ≥ c.N
  · rw [if_pos h1]
    refine ⟨_, rfl, (resetAll_eff c b).1, fun i hi => ?_⟩
    rw [(resetAll_eff c b).2 i hi, decide_eq_false (by omega)]; simp
  · rw [if_neg h1]
    by_cases h2 : c.ne = 1
    · have h3 : s < c.w := (one_pos h2 (show s < c.N by omega)).1
      rw [if_pos h2, shl_ok (max_w h3)]
      refine ⟨_, rfl, eff_mk (fun j hj => ?_) (fun j t hj ht => ?_)⟩
      · rw [show j = 0 by omega, upd_same]; exact cut_lt _ _
      · rw [show j = 0 by omega, upd_same, testBit_cut, Nat.testBit_shiftLeft, Nat.zero_mul, Nat.zero_add]
        rw [decide_eq_true ht, decide_eq_true (show s < c.N by omega)]
        have e := bits_def (c := c) (b := b) (j := 0) (show t - s < c.w by omega)
        rw [Nat.zero_mul, Nat.zero_add] at e
        rw [e]; simp
    · rw [if_neg h2]
      obtain ⟨b', e, ef⟩ := mShl_eff (s := s) hw hp (by omega) (by omega)
      refine ⟨b', e, ef.1, fun i hi => ?_⟩
      rw [ef.2 i hi]; simp [show s < c.N by omega]

/-! ## `>>` -/

def shrElem (c : Cfg) (b : Buf) (q r j : Nat) : Nat := c.cut ((b (j + q + 1) &&& c.allSet >>> (c.w - r)) <<< (c.w - r)) ||| (b (j + q) &&& (c.allSet - c.allSet >>> (c.w - r))) >>> r

theorem shrLoop_eff {c : Cfg} {b0 : Buf} {q r : Nat} (hr : r < c.w) (hm : c.w - r < max c.w 32) (n : Nat) : ∀ (d : Nat) (b : Buf), d + q + n + 1 = c.ne →
    (∀ j, d ≤ j → b j = b0 j) → (∀ j, j < d → b j = shrElem c b0 q r j) →
    ∃ b', shrLoop c (c.allSet - c.allSet >>> (c.w - r)) r (c.allSet >>> (c.w - r)) (c.w - r) n (d + q) d b = .ok (c.ne - 1, c.ne - 1 - q, b') ∧ (∀ j, c.ne - 1 - q ≤ j → b' j = b0 j) ∧
      (∀ j, j < c.ne - 1 - q → b' j = shrElem c b0 q r j) := by
  induction n with
  | zero =>
    intro d b h1 h2 h3
    have e1 : d + q = c.ne - 1 := by omega
    have e2 : d = c.ne - 1 - q := by omega
    exact ⟨b, by simp only [shrLoop]; rw [e1, ← e2], by rw [← e2]; exact h2, by rw [← e2]; exact h3⟩
  | succ n ih =>
    intro d b h1 h2 h3
    have hrm : r < max c.w 32 := by omega
    have k1 : d + q < c.ne := by omega
    have k2 : d + q + 1 < c.ne := by omega
    have k3 : d < c.ne := by omega
    simp only [shrLoop, get_ok k1, get_ok k2, shr_ok hrm, shl_ok hm, put_ok k3, bind, Except.bind]
    rw [show d + q + 1 = d + 1 + q by omega]
    refine ih (d + 1) _ (by omega) (fun j hj => ?_) (fun j hj => ?_)
    · rw [upd_other _ _ (by omega)]; exact h2 j (by omega)
    · by_cases h4 : j = d
      · subst h4; rw [upd_same, h2 _ (by omega), h2 _ (by omega)]; unfold shrElem; rw [show j + 1 + q = j + q + 1 by omega]
      · rw [upd_other _ _ h4]; exact h3 j (by omega)

theorem shrElem_bit {c : Cfg} {b : Buf} {q r j t : Nat} (hr : r < c.w) (ht : t < c.w) :
    (shrElem c b q r j).testBit t = if t + r < c.w then (b (j + q)).testBit (t + r) else (b (j + q + 1)).testBit (t + r - c.w) := by
  unfold shrElem
  rw [Nat.testBit_or, testBit_cut, Nat.testBit_shiftLeft, Nat.testBit_and, loMask_bit, Nat.testBit_shiftRight, Nat.testBit_and, hiMask_bit c (by omega)]
  by_cases h : t + r < c.w
  · rw [if_pos h]
    rw [Nat.add_comm r t]
    simp [show ¬ c.w - r ≤ t by omega, h, show c.w ≤ t + r + (c.w - r) by omega]
  · rw [if_neg h]
    simp [show c.w - r ≤ t by omega, show ¬ r + t < c.w by omega, ht, show t - (c.w - r) = t + r - c.w by omega, show t + r - c.w + (c.w - r) < c.w by omega]
theorem shrElem_lt {c : Cfg} {b : Buf} {q r j : Nat} : shrElem c b q r j < 2 ^ c.w := by
  unfold shrElem
  refine Nat.or_lt_two_pow (cut_lt _ _) ?_
  have h1 : c.allSet - c.allSet >>> (c.w - r) < 2 ^ c.w := Nat.lt_of_le_of_lt (Nat.sub_le _ _) (allSet_lt c)
  exact Nat.lt_of_le_of_lt (Nat.shiftRight_le _ _) (Nat.lt_of_le_of_lt Nat.and_le_right h1)

theorem mShr_eff {c : Cfg} {b : Buf} {s : Nat} (hw : WF c b) (hp : 0 < c.N) (hs : s < c.N) (hd : c.w < 32 ∨ s % c.w ≠ 0) :
    ∃ b', mShr c b s = .ok b' ∧ Eff c b' (fun i => decide (i + s < c.ne * c.w) && bits c b (i + s)) := by
  have hwp := w_pos c
  have hr : s % c.w < c.w := Nat.mod_lt _ hwp
  have hq : s / c.w < c.ne := pos_lt hs
  have hne := ne_pos hp
  generalize er : s % c.w = r at *
  generalize eq : s / c.w = q at *
  have es : s = q * c.w + r := by rw [← er, ← eq, Nat.mul_comm]; exact (Nat.div_add_mod s c.w).symm
  have hm : c.w - r < max c.w 32 := by omega
  have hrm : r < max c.w 32 := by omega
  unfold mShr
  rw [if_neg (by omega)]
  simp only [er, eq]
  rw [shr_ok hm]
  simp only [bind, Except.bind, shr_ok hrm]
  obtain ⟨b1, f1, f2, f3⟩ := shrLoop_eff (b0 := b) (q := q) hr hm (c.ne - 1 - q) 0 b (by omega) (fun j hj => rfl) (fun j hj => by omega)
  rw [Nat.zero_add] at f1
  rw [f1]; dsimp only
  rw [get_ok (by omega)]; dsimp only
  rw [put_ok (by omega)]; dsimp only
  rw [get_ok (by omega)]; dsimp only
  rw [put_ok (by omega), upd_same]
  refine ⟨_, rfl, ?_⟩
  rw [f2 _ (by omega)]
  generalize hv : (b (c.ne - 1) &&& (c.allSet - c.allSet >>> (c.w - r))) >>> r &&& (c.allSet - c.allSet >>> (c.w - r)) >>> r = last
  have val : ∀ j, j < c.ne → mapLoop (fun _ _ => 0) (c.ne - (c.ne - 1 - q + 1)) (c.ne - 1 - q + 1) (upd (upd b1 (c.ne - 1 - q) ((b (c.ne - 1) &&& (c.allSet - c.allSet >>> (c.w - r))) >>> r)) (c.ne - 1 - q) last) j =
      if j < c.ne - 1 - q then shrElem c b q r j else if j = c.ne - 1 - q then last else 0 := by
    intro j hj
    rw [mapLoop_get]
    by_cases h1 : j < c.ne - 1 - q
    · rw [if_neg (by omega), if_pos h1, upd_other _ _ (by omega), upd_other _ _ (by omega), f3 j h1]
    · rw [if_neg h1]
      by_cases h2 : j = c.ne - 1 - q
      · rw [if_pos h2, if_neg (by omega), h2, upd_same]
      · rw [if_neg h2, if_pos (by omega)]
  have lastbit : ∀ t, t < c.w → last.testBit t = (decide (t + r < c.w) && (b (c.ne - 1)).testBit (t + r)) := by
    intro t ht
    rw [← hv, Nat.testBit_and, Nat.testBit_shiftRight, Nat.testBit_and, Nat.testBit_shiftRight, hiMask_bit c (by omega), Nat.add_comm r t]
    by_cases h : t + r < c.w
    · simp [h, show c.w ≤ t + r + (c.w - r) by omega]
    · simp [h]
  refine eff_mk (fun j hj => ?_) (fun j t hj ht => ?_)
  · rw [val j hj]; split_ifs
    · exact shrElem_lt
    · rw [← hv]
      exact Nat.lt_of_le_of_lt Nat.and_le_left (Nat.lt_of_le_of_lt (Nat.shiftRight_le _ _) (Nat.lt_of_le_of_lt Nat.and_le_left (hw _ (by omega))))
    · exact Nat.two_pow_pos _
  · rw [val j hj]
    have e1 : (j + q) * c.w = j * c.w + q * c.w := by rw [Nat.add_mul]
    have e2 : (j + q + 1) * c.w = (j + q) * c.w + c.w := by rw [Nat.add_mul, Nat.one_mul]
    by_cases h1 : j < c.ne - 1 - q
    · rw [if_pos h1, shrElem_bit hr ht]
      have := Nat.mul_le_mul_right c.w (show j + q + 1 + 1 ≤ c.ne by omega)
      rw [Nat.add_mul] at this
      rw [decide_eq_true (by omega), Bool.true_and]
      split
      · next h => rw [← bits_def (show t + r < c.w from h)]; congr 1; omega
      · next h => rw [← bits_def (show t + r - c.w < c.w by omega)]; congr 1; omega
    · rw [if_neg h1]
      by_cases h2 : j = c.ne - 1 - q
      · rw [if_pos h2, lastbit t ht]
        have hjq : j + q = c.ne - 1 := by omega
        have e3 := ne_succ_mul hp
        rw [hjq] at e1
        by_cases h3 : t + r < c.w
        · rw [decide_eq_true h3, decide_eq_true (by omega), Bool.true_and, Bool.true_and, ← bits_def h3]; congr 1; omega
        · rw [decide_eq_false h3, decide_eq_false (by omega)]; simp
      · rw [if_neg h2, Nat.zero_testBit]
        have := Nat.mul_le_mul_right c.w (show c.ne ≤ j + q by omega)
        rw [decide_eq_false (by omega), Bool.false_and]

theorem shiftRight_eff {c : Cfg} {b : Buf} {s : Nat} (hw : WF c b) (hp : 0 < c.N) (hd : c.w < 32 ∨ s % c.w ≠ 0 ∨ c.N ≤ s ∨ c.ne = 1) :
    ∃ b', shiftRight c b s = .ok b' ∧ Eff c b' (fun i => decide (s < c.N) && decide (i + s < c.ne * c.w) && bits c b (i + s)) := by
  unfold shiftRight
  by_cases h1 : s ≥ c.N
  · rw [if_pos h1]
    refine ⟨_, rfl, (resetAll_eff c b).1, fun i hi => ?_⟩
    rw [(resetAll_eff c b).2 i hi, decide_eq_false (by omega)]; simp
  · rw [if_neg h1]
    by_cases h2 : c.ne = 1
    · have h3 : s < c.w := (one_pos h2 (show s < c.N by omega)).1
      rw [if_pos h2, shr_ok (max_w h3)]
      refine ⟨_, rfl, eff_mk (fun j hj => ?_) (fun j t hj ht => ?_)⟩
      · rw [show j = 0 by omega, upd_same]; exact Nat.lt_of_le_of_lt (Nat.shiftRight_le _ _) (hw 0 (by omega))
      · rw [show j = 0 by omega, upd_same, Nat.testBit_shiftRight, Nat.zero_mul, Nat.zero_add, h2, Nat.one_mul, decide_eq_true (show s < c.N by omega), Bool.true_and]
        by_cases h4 : t + s < c.w
        · have e := bits_def (c := c) (b := b) (j := 0) h4
          rw [Nat.zero_mul, Nat.zero_add] at e
          rw [e, decide_eq_true h4, Bool.true_and, Nat.add_comm]
        · rw [decide_eq_false h4, Bool.false_and]; exact testBit_ge (hw 0 (by omega)) (by omega)
    · rw [if_neg h2]
      obtain ⟨b', e, ef⟩ := mShr_eff (s := s) hw hp (by omega) (by omega)
      refine ⟨b', e, ef.1, fun i hi => ?_⟩
      rw [ef.2 i hi]; simp [show s < c.N by omega]

/-! ## `find_next` -/

/-- `r` is the first position from `p` on in the given state. -/
def IsNext (N : Nat) (v : Nat → Bool) (state : Bool) (p : Nat) (r : Option Nat) : Prop := match r with
  | .none => ∀ i, p ≤ i → i < N → v i = !state
  | some q => p ≤ q ∧ q < N ∧ v q = state ∧ ∀ i, p ≤ i → i < q → v i = !state

theorem isNext_step {N : Nat} {v : Nat → Bool} {state : Bool} {p p' : Nat} {r : Option Nat} (h : IsNext N v state p' r) (hp : p ≤ p') (hv : ∀ i, p ≤ i → i < p' → i < N → v i = !state) : IsNext N v state p r := by
  cases r with
  | none => intro i h1 h2; by_cases h3 : i < p'
            · exact hv i h1 h3 h2
            · exact h i (by omega) h2
  | some q =>
    obtain ⟨h1, h2, h3, h4⟩ := h
    refine ⟨by omega, h2, h3, fun i h5 h6 => ?_⟩
    by_cases h7 : i < p'
    · exact hv i h5 h7 (by omega)
    · exact h4 i (by omega) h6

theorem ne_not {a b : Bool} (h : ¬ a = b) : a = !b := by cases a <;> cases b <;> simp at h ⊢

theorem shl1_mask {c : Cfg} {k : Nat} : c.cut (2 ^ k <<< 1) = c.cut (2 ^ (k + 1)) := by rw [Nat.shiftLeft_eq, ← Nat.pow_add]

theorem cut_and {c : Cfg} {e k : Nat} (he : e < 2 ^ c.w) : (e &&& c.cut (2 ^ k) != 0) = (decide (k < c.w) && e.testBit k) := by
  by_cases h : k < c.w
  · rw [cut_eq (Nat.pow_lt_pow_right (by omega) h), bit_test, decide_eq_true h, Bool.true_and]
  · have : c.cut (2 ^ k) = 0 := by
      unfold Cfg.cut
      obtain ⟨m, rfl⟩ : ∃ m, k = c.w + m := ⟨k - c.w, by omega⟩
      rw [Nat.pow_add]; exact Nat.mul_mod_right _ _
    rw [this]; simp [h]

theorem cut_shl1 {c : Cfg} {k : Nat} : c.cut (c.cut (2 ^ k) <<< 1) = c.cut (2 ^ (k + 1)) := by
  unfold Cfg.cut; rw [Nat.shiftLeft_eq, Nat.pow_one, Nat.mod_mul_mod, ← Nat.pow_succ]

theorem sFindLoop_next {c : Cfg} {e : Nat} {state : Bool} (he : e < 2 ^ c.w) (hw : c.N ≤ c.w) (n : Nat) : ∀ p, p + n = c.N → IsNext c.N (fun i => e.testBit i) state p (sFindLoop c e state n p (c.cut (2 ^ p))) := by
  induction n with
  | zero => intro p hp i h1 h2; omega
  | succ n ih =>
    intro p hp
    simp only [sFindLoop]
    rw [cut_and he, decide_eq_true (by omega), Bool.true_and]
    by_cases h : e.testBit p = state
    · rw [if_pos h]; exact ⟨by omega, by omega, h, fun i _ _ => by omega⟩
    · rw [if_neg h, cut_shl1]
      refine isNext_step (ih (p + 1) (by omega)) (by omega) fun i h1 h2 _ => ?_
      rw [show i = p by omega]; exact ne_not h

/-- What the inner loop of `find_next` finds. -/
def Found (c : Cfg) (b : Buf) (state : Bool) (j p : Nat) (r : Bool × Nat) : Prop :=
  (r.1 = true → p ≤ r.2 ∧ r.2 < c.N ∧ bits c b r.2 = state ∧ ∀ i, p ≤ i → i < r.2 → bits c b i = !state) ∧
  (r.1 = false → (r.2 = (j + 1) * c.w ∨ c.N ≤ r.2) ∧ p ≤ r.2 ∧ ∀ i, p ≤ i → i < r.2 → bits c b i = !state)

theorem found_step {c : Cfg} {b : Buf} {state : Bool} {j p : Nat} {r : Bool × Nat} (h : Found c b state j (p + 1) r) (hb : bits c b p = !state) : Found c b state j p r := by
  refine ⟨fun hr => ?_, fun hr => ?_⟩
  · obtain ⟨g1, g2, g3, g4⟩ := h.1 hr
    refine ⟨by omega, g2, g3, fun i g5 g6 => ?_⟩
    by_cases g7 : i = p
    · rw [g7]; exact hb
    · exact g4 i (by omega) g6
  · obtain ⟨g1, g2, g4⟩ := h.2 hr
    refine ⟨g1, by omega, fun i g5 g6 => ?_⟩
    by_cases g7 : i = p
    · rw [g7]; exact hb
    · exact g4 i (by omega) g6

theorem mFindBits_next {c : Cfg} {b : Buf} {j : Nat} {state : Bool} (hw : WF c b) (hj : j < c.ne) (n : Nat) : ∀ t, t + n = c.w →
    Found c b state j (j * c.w + t) (mFindBits c (b j) state n (j * c.w + t) (c.cut (2 ^ t))) := by
  induction n with
  | zero =>
    intro t ht
    exact ⟨fun h => by simp [mFindBits] at h, fun _ => ⟨.inl (by simp only [mFindBits]; rw [Nat.add_mul, Nat.one_mul]; omega), by simp [mFindBits], fun i h1 h2 => by simp only [mFindBits] at h2; omega⟩⟩
  | succ n ih =>
    intro t ht
    simp only [mFindBits]
    by_cases h1 : j * c.w + t < c.N
    · rw [if_pos h1, cut_and (hw j hj), decide_eq_true (show t < c.w by omega), Bool.true_and]
      by_cases h2 : (b j).testBit t = state
      · rw [if_pos h2]
        exact ⟨fun _ => ⟨Nat.le_refl _, h1, by rw [bits_def (by omega)]; exact h2, fun i a b => absurd a (by simp only at b; omega)⟩, fun h => by simp at h⟩
      · rw [if_neg h2, cut_shl1]
        have := ih (t + 1) (by omega)
        exact found_step this (by rw [bits_def (by omega)]; exact ne_not h2)
    · rw [if_neg h1]
      exact ⟨fun h => by simp at h, fun _ => ⟨.inr (by simp only; omega), Nat.le_refl _, fun i a b => absurd a (by simp only at b; omega)⟩⟩

theorem mFindElem_next {c : Cfg} {b : Buf} {j : Nat} {state : Bool} (hw : WF c b) (hj : j < c.ne) {t : Nat} (ht : t < c.w) :
    Found c b state j (j * c.w + t) (mFindElem c (b j) state (j * c.w + t) t (c.cut (2 ^ t))) := by
  unfold mFindElem
  split
  · exact mFindBits_next hw hj (c.w - t) t (by omega)
  · next h =>
    refine ⟨fun h => by simp at h, fun _ => ⟨.inl (by simp only; rw [Nat.add_mul, Nat.one_mul]; omega), by simp only; omega, fun i h1 h2 => ?_⟩⟩
    simp only at h2
    have e : bits c b i = (b j).testBit (i - j * c.w) := by rw [← bits_def (show i - j * c.w < c.w by omega)]; congr 1; omega
    rw [e]
    cases state
    · simp only [Bool.false_eq_true, false_and, true_and, false_or, ne_eq, not_not] at h
      rw [h, allSet_bit]; simp; omega
    · simp only [Bool.true_eq_false, false_and, true_and, or_false, ne_eq, not_not] at h
      rw [h]; simp

theorem mFindLoop_past {c : Cfg} {b : Buf} {state : Bool} (hw : WF c b) (n : Nat) : ∀ j p t, c.N ≤ p → t ≤ c.w → ∀ m, mFindLoop c b state n j p t m = Option.none := by
  induction n with
  | zero => intros; rfl
  | succ n ih =>
    intro j p t hp ht m
    have key : (mFindElem c (b j) state p t m).1 = false ∧ c.N ≤ (mFindElem c (b j) state p t m).2 := by
      unfold mFindElem
      split
      · cases hk : c.w - t with
        | zero => exact ⟨rfl, hp⟩
        | succ k => simp only [mFindBits]; rw [if_neg (by omega)]; exact ⟨rfl, hp⟩
      · exact ⟨rfl, by omega⟩
    simp only [mFindLoop]
    rw [if_neg (by simp [key.1])]
    exact ih _ _ _ key.2 (by omega) _

theorem mFindLoop_next {c : Cfg} {b : Buf} {state : Bool} (hw : WF c b) (n : Nat) : ∀ j t, j + n = c.ne → t < c.w → IsNext c.N (bits c b) state (j * c.w + t) (mFindLoop c b state n j (j * c.w + t) t (c.cut (2 ^ t))) := by
  induction n with
  | zero =>
    intro j t hj ht i h1 h2
    have := N_le c
    rw [Nat.add_zero] at hj; rw [hj] at h1; omega
  | succ n ih =>
    intro j t hj ht
    have key := mFindElem_next (state := state) hw (show j < c.ne by omega) ht
    simp only [mFindLoop]
    cases h : (mFindElem c (b j) state (j * c.w + t) t (c.cut (2 ^ t))).1
    case true => rw [if_pos rfl]; exact key.1 h
    case false =>
      rw [if_neg (by simp)]
      obtain ⟨g1, g2, g3⟩ := key.2 h
      by_cases h4 : c.N ≤ (mFindElem c (b j) state (j * c.w + t) t (c.cut (2 ^ t))).2
      · rw [mFindLoop_past hw _ _ _ _ h4 (by omega)]
        intro i h5 h6; exact g3 i h5 (by omega)
      · have g1 := g1.resolve_right h4
        rw [g1] at g2 g3 ⊢
        have h1 : c.cut (2 ^ 0) = 1 := by
          rw [cut_eq (Nat.pow_lt_pow_right (by omega) (w_pos c)), Nat.pow_zero]
        have := ih (j + 1) 0 (by omega) (w_pos c)
        rw [h1, Nat.add_zero] at this
        exact isNext_step this g2 fun i a b _ => g3 i a b

theorem intShl_eq {c : Cfg} {k : Nat} (hk : k < c.w) (h : c.w ≤ 32 ∨ k < 31) : c.intShl k = .ok (c.cut (2 ^ k)) := by
  unfold Cfg.intShl
  by_cases h1 : k < 31
  · rw [if_pos h1, Nat.one_shiftLeft]
  · have h2 : c.w = 32 := by omega
    have h3 : k = 31 := by omega
    rw [if_neg h1, if_pos h3]; unfold Cfg.cut; rw [h2, h3]; rfl

theorem findNext_eff {c : Cfg} {b : Buf} (hw : WF c b) (hp : 0 < c.N) {state : Bool} {p : Nat} (hd : c.w ≤ 32 ∨ c.N ≤ p ∨ p % c.w < 31) :
    (c.ne = 1 ∨ c.w ≤ 32 ∨ p % c.w < 31) → ∃ r, findNext c b state p = .ok r ∧ IsNext c.N (bits c b) state p r := by
  intro hd2
  unfold findNext
  by_cases h1 : c.ne = 1
  · rw [if_pos h1]
    have hN := ne_one h1
    have hb : ∀ i, i < c.N → bits c b i = (b 0).testBit i := fun i hi => by unfold bits; rw [(one_pos h1 hi).2.1, (one_pos h1 hi).2.2]
    have tr : ∀ r, IsNext c.N (fun i => (b 0).testBit i) state p r → IsNext c.N (bits c b) state p r := by
      intro r hr
      cases r with
      | none => intro i h2 h3; rw [hb i h3]; exact hr i h2 h3
      | some q =>
        obtain ⟨g1, g2, g3, g4⟩ := hr
        exact ⟨g1, g2, by rw [hb q g2]; exact g3, fun i h2 h3 => by rw [hb i (by omega)]; exact g4 i h2 h3⟩
    unfold sFind
    by_cases h2 : p < c.N
    · have h3 : p % c.w = p := (one_pos h1 h2).2.2
      rw [if_pos h2, if_pos (by rw [h3] at hd; omega)]
      refine ⟨_, rfl, tr _ ?_⟩
      split
      · rw [Nat.one_shiftLeft]; exact sFindLoop_next (hw 0 (by omega)) hN _ p (by omega)
      · next h =>
        intro i h4 h5
        dsimp only
        cases state
        · simp only [Bool.false_eq_true, false_and, true_and, false_or, ne_eq, not_not] at h
          rw [h, allSet_bit]; simp; omega
        · simp only [Bool.true_eq_false, false_and, true_and, or_false, ne_eq, not_not] at h
          rw [h]; simp
    · rw [if_neg h2]; exact ⟨_, rfl, fun i h3 h4 => by omega⟩
  · rw [if_neg h1]; unfold mFind
    have h2 : c.bitpos p < c.w := by rw [bitpos_eq]; exact Nat.mod_lt _ (w_pos c)
    rw [intShl_eq h2 (by rw [bitpos_eq]; omega)]
    refine ⟨_, rfl, ?_⟩
    rw [index_eq, bitpos_eq]
    have ep : p / c.w * c.w + p % c.w = p := by rw [Nat.mul_comm]; exact Nat.div_add_mod p c.w
    by_cases h3 : p / c.w < c.ne
    · have := mFindLoop_next (state := state) hw (c.ne - p / c.w) (p / c.w) (p % c.w) (by omega) (Nat.mod_lt _ (w_pos c))
      rw [ep] at this; exact this
    · have : c.ne - p / c.w = 0 := by omega
      rw [this]
      intro i h4 h5
      have h6 : ¬ p < c.ne * c.w := fun h => h3 (div_lt_ne.mpr h)
      have := N_le c; omega

end Etl.Bitset
