import Verif.Binary.Model
import Mathlib.Tactic.SplitIfs
import Mathlib.Tactic.ByContra
import Mathlib.Tactic.Ring

/-!
# Lemmas for the binary utilities
-/
namespace Etl.Binary

theorem testBit_trunc (w v i : Nat) : (trunc w v).testBit i = (decide (i < w) && v.testBit i) := by unfold trunc; exact Nat.testBit_mod_two_pow ..

theorem trunc_lt (w v : Nat) : trunc w v < 2 ^ w := Nat.mod_lt _ (Nat.two_pow_pos w)

theorem testBit_ge {w v i : Nat} (h : v < 2 ^ w) (hi : w ≤ i) : v.testBit i = false := Nat.testBit_lt_two_pow (Nat.lt_of_lt_of_le h (Nat.pow_le_pow_right (by omega) hi))

theorem eq_of_bits {w a b : Nat} (ha : a < 2 ^ w) (hb : b < 2 ^ w) (h : ∀ i, i < w → a.testBit i = b.testBit i) : a = b := by
  apply Nat.eq_of_testBit_eq
  intro i
  by_cases hi : i < w
  · exact h i hi
  · rw [testBit_ge ha (by omega), testBit_ge hb (by omega)]

/-! ## Placements: every bit of the current value is a bit of the input, or zero -/

def src (v : Nat) : Option Nat → Bool
  | some j => v.testBit j
  | none => false

def Placed (v cur : Nat) (σ : Nat → Option Nat) : Prop := ∀ i, cur.testBit i = src v (σ i)

def σ0 (w : Nat) (i : Nat) : Option Nat := if i < w then some i else none

theorem placed0 {w v : Nat} (h : v < 2 ^ w) : Placed v v (σ0 w) := by
  intro i
  unfold σ0
  split_ifs with hi
  · rfl
  · exact testBit_ge h (by omega)

def σswap (w M L k : Nat) (σ : Nat → Option Nat) (i : Nat) : Option Nat :=
  if i < w then (if M.testBit (i + k) then σ (i + k) else if k ≤ i ∧ L.testBit (i - k) then σ (i - k) else none) else none

theorem placed_swap {v cur w M L k : Nat} {σ : Nat → Option Nat} (h : Placed v cur σ) (hd : ∀ i, i < w → M.testBit (i + k) = true → k ≤ i → L.testBit (i - k) = false) :
    Placed v (swapStage w M L k cur) (σswap w M L k σ) := by
  intro i
  unfold swapStage σswap
  rw [testBit_trunc, Nat.testBit_or, Nat.testBit_shiftRight, Nat.testBit_and, Nat.testBit_shiftLeft, Nat.testBit_and, Nat.add_comm k i]
  by_cases hi : i < w
  · rw [if_pos hi]
    by_cases hM : M.testBit (i + k) = true
    · rw [if_pos hM, hM, h (i + k)]
      by_cases hk : k ≤ i
      · simp [hi, hd i hi hM hk]
      · simp [hi, hk]
    · rw [if_neg hM]
      by_cases hk : k ≤ i ∧ L.testBit (i - k) = true
      · rw [if_pos hk]; simp [hi, hM, hk.1, hk.2, h (i - k)]
      · rw [if_neg hk]
        rcases Decidable.not_and_iff_not_or_not.1 hk with h1 | h1 <;> simp [hM, h1, src]
  · rw [if_neg hi]; simp [hi, src]

def σspread (w k M : Nat) (σ : Nat → Option Nat) (i : Nat) : Option Nat :=
  if i < w ∧ M.testBit i then (if (σ i).isSome then σ i else if k ≤ i then σ (i - k) else none) else none

theorem placed_spread {v cur w k M : Nat} {σ : Nat → Option Nat} (h : Placed v cur σ) (hd : ∀ i, i < w → M.testBit i = true → k ≤ i → (σ i).isSome = true → σ (i - k) = none) :
    Placed v (spread w k M cur) (σspread w k M σ) := by
  intro i
  unfold spread σspread
  rw [Nat.testBit_and, testBit_trunc, Nat.testBit_or, Nat.testBit_shiftLeft]
  by_cases hi : i < w ∧ M.testBit i = true
  · rw [if_pos hi, h i]
    by_cases hs : (σ i).isSome = true
    · rw [if_pos hs]
      by_cases hk : k ≤ i
      · simp [hi.1, hi.2, h (i - k), hd i hi.1 hi.2 hk hs, src]
      · simp [hi.1, hi.2, hk]
    · rw [if_neg hs]
      have : σ i = none := by simpa using hs
      by_cases hk : k ≤ i
      · rw [if_pos hk]; simp [hi.1, hi.2, hk, h (i - k), this, src]
      · rw [if_neg hk]; simp [hk, this, src]
  · rw [if_neg hi]
    rcases Decidable.not_and_iff_not_or_not.1 hi with h1 | h1 <;> simp [h1, src]

theorem placed_final {v cur w : Nat} {σ : Nat → Option Nat} {π : Nat → Nat} (h : Placed v cur σ) (hd : ∀ i, i < w → σ i = some (π i)) : ∀ i, i < w → cur.testBit i = v.testBit (π i) := by
  intro i hi; rw [h i, hd i hi]; rfl

theorem placed_even {v cur w : Nat} {σ : Nat → Option Nat} (h : Placed v cur σ) (hd : ∀ i, i < w → σ i = if i % 2 = 0 then some (i / 2) else none) (ho : ∀ i, w ≤ i → σ i = none) :
    ∀ i, cur.testBit i = (decide (i % 2 = 0 ∧ i < w) && v.testBit (i / 2)) := by
  intro i
  rw [h i]
  by_cases hi : i < w
  · rw [hd i hi]
    by_cases h2 : i % 2 = 0 <;> simp [h2, hi, src]
  · rw [ho i (by omega)]; simp [hi, src]

theorem swapStage_lt (w M L k v : Nat) : swapStage w M L k v < 2 ^ w := trunc_lt _ _

theorem swap_last {w L k v : Nat} (hv : v < 2 ^ w) : lastStage w L k v = swapStage w (2 ^ w - 1) L k v := by
  unfold lastStage swapStage
  rw [Nat.and_two_pow_sub_one_eq_mod, Nat.mod_eq_of_lt hv]

theorem swap_rot {w k v : Nat} (hv : v < 2 ^ w) : rotStage w k v = swapStage w (2 ^ w - 1) (2 ^ w - 1) k v := by
  unfold rotStage swapStage
  rw [Nat.and_two_pow_sub_one_eq_mod, Nat.mod_eq_of_lt hv]

/-! ## Splitting at a bit position -/

theorem and_split {n x p : Nat} (hx : x < 2 ^ n) (hp : p < 2 ^ n) (y q : Nat) : (2 ^ n * y + x) &&& (2 ^ n * q + p) = 2 ^ n * (y &&& q) + (x &&& p) := by
  apply Nat.eq_of_testBit_eq
  intro i
  have hxp : x &&& p < 2 ^ n := Nat.and_lt_two_pow _ hp
  rw [Nat.testBit_and, Nat.testBit_two_pow_mul_add _ hx, Nat.testBit_two_pow_mul_add _ hp, Nat.testBit_two_pow_mul_add _ hxp]
  split_ifs <;> simp

theorem or_split {n x p : Nat} (hx : x < 2 ^ n) (hp : p < 2 ^ n) (y q : Nat) : (2 ^ n * y + x) ||| (2 ^ n * q + p) = 2 ^ n * (y ||| q) + (x ||| p) := by
  apply Nat.eq_of_testBit_eq
  intro i
  have hxp : x ||| p < 2 ^ n := Nat.or_lt_two_pow hx hp
  rw [Nat.testBit_or, Nat.testBit_two_pow_mul_add _ hx, Nat.testBit_two_pow_mul_add _ hp, Nat.testBit_two_pow_mul_add _ hxp]
  split_ifs <;> simp

theorem xor_split {n x p : Nat} (hx : x < 2 ^ n) (hp : p < 2 ^ n) (y q : Nat) : (2 ^ n * y + x) ^^^ (2 ^ n * q + p) = 2 ^ n * (y ^^^ q) + (x ^^^ p) := by
  apply Nat.eq_of_testBit_eq
  intro i
  have hxp : x ^^^ p < 2 ^ n := Nat.xor_lt_two_pow hx hp
  rw [Nat.testBit_xor, Nat.testBit_two_pow_mul_add _ hx, Nat.testBit_two_pow_mul_add _ hp, Nat.testBit_two_pow_mul_add _ hxp]
  split_ifs <;> simp

/-! ## Values as lists of `k` bit digits, least significant first -/

def fromD (k : Nat) : List Nat → Nat
  | [] => 0
  | d :: ds => 2 ^ k * fromD k ds + d

def pairSum : List Nat → List Nat
  | a :: b :: t => (a + b) :: pairSum t
  | t => t

def maskD (k : Nat) : Nat → Nat
  | 0 => 0
  | m + 1 => 2 ^ (2 * k) * maskD k m + (2 ^ k - 1)

theorem fromD_lt {k : Nat} {l : List Nat} (h : ∀ d ∈ l, d < 2 ^ k) : fromD k l < 2 ^ (k * l.length) := by
  induction l with
  | nil => simp [fromD]
  | cons d ds ih =>
    have h1 := ih (fun x hx => h x (by simp [hx]))
    have h2 := h d (by simp)
    simp only [fromD, List.length_cons]
    rw [Nat.mul_succ, Nat.pow_add, Nat.mul_comm (2 ^ (k * ds.length))]
    calc 2 ^ k * fromD k ds + d < 2 ^ k * fromD k ds + 2 ^ k := by omega
      _ = 2 ^ k * (fromD k ds + 1) := by ring
      _ ≤ 2 ^ k * 2 ^ (k * ds.length) := Nat.mul_le_mul_left _ h1

theorem pow_two_mul (k : Nat) : 2 ^ (2 * k) = 2 ^ k * 2 ^ k := by rw [Nat.two_mul, Nat.pow_add]

theorem lo_lt {k a b : Nat} (ha : a < 2 ^ k) (hb : b < 2 ^ k) : 2 ^ k * b + a < 2 ^ (2 * k) := by
  rw [pow_two_mul]
  calc 2 ^ k * b + a < 2 ^ k * b + 2 ^ k := by omega
    _ = 2 ^ k * (b + 1) := by ring
    _ ≤ 2 ^ k * 2 ^ k := Nat.mul_le_mul_left _ hb

theorem lo_mask_lt (k : Nat) : 2 ^ k - 1 < 2 ^ (2 * k) := by
  have : 2 ^ k ≤ 2 ^ (2 * k) := Nat.pow_le_pow_right (by omega) (by omega)
  have := Nat.two_pow_pos k
  omega

/-- the low digits of every pair -/
theorem and_mask {k : Nat} : ∀ (l : List Nat) (m : Nat), l.length = 2 * m → (∀ d ∈ l, d < 2 ^ k) →
    ∃ lo hi, fromD k l &&& maskD k m = fromD (2 * k) lo ∧ (fromD k l >>> k) &&& maskD k m = fromD (2 * k) hi ∧ lo.length = m ∧ hi.length = m ∧
      List.zipWith (· + ·) lo hi = pairSum l ∧ fromD k l = fromD (2 * k) (List.zipWith (fun a b => a + 2 ^ k * b) lo hi) ∧
      fromD (2 * k) hi + fromD (2 * k) lo = fromD (2 * k) (pairSum l)
  | [], m, hl, _ => by
    have : m = 0 := by simp at hl; omega
    subst this
    exact ⟨[], [], by simp [fromD, maskD], by simp [fromD, maskD], rfl, rfl, rfl, rfl, rfl⟩
  | [_], m, hl, _ => by simp at hl; omega
  | a :: b :: t, m, hl, hd => by
    obtain ⟨m, rfl⟩ : ∃ m', m = m' + 1 := ⟨m - 1, by simp at hl; omega⟩
    obtain ⟨lo, hi, e1, e2, e3, e4, e5, e6, e7⟩ := and_mask t m (by simp at hl; omega) (fun d hdd => hd d (by simp [hdd]))
    have ha := hd a (by simp)
    have hb := hd b (by simp)
    have hT : fromD k (a :: b :: t) = 2 ^ (2 * k) * fromD k t + (2 ^ k * b + a) := by simp only [fromD]; rw [pow_two_mul]; ring
    refine ⟨a :: lo, b :: hi, ?_, ?_, by simp [e3], by simp [e4], ?_, ?_, ?_⟩
    · rw [hT, maskD, and_split (lo_lt ha hb) (lo_mask_lt k), e1, Nat.and_two_pow_sub_one_eq_mod, Nat.mul_add_mod, Nat.mod_eq_of_lt ha]; rfl
    · have h1 : fromD k (a :: b :: t) >>> k = 2 ^ (2 * k) * (fromD k t >>> k) + (2 ^ k * (fromD k t % 2 ^ k) + b) := by
        rw [Nat.shiftRight_eq_div_pow, Nat.shiftRight_eq_div_pow]
        simp only [fromD]
        rw [Nat.mul_add_div (Nat.two_pow_pos k), Nat.div_eq_of_lt ha, pow_two_mul]
        have := Nat.div_add_mod (fromD k t) (2 ^ k)
        calc 2 ^ k * fromD k t + b + 0 = 2 ^ k * (2 ^ k * (fromD k t / 2 ^ k) + fromD k t % 2 ^ k) + b := by rw [this, Nat.add_zero]
          _ = _ := by ring
      rw [h1, maskD, and_split (lo_lt hb (Nat.mod_lt _ (Nat.two_pow_pos k))) (lo_mask_lt k), e2, Nat.and_two_pow_sub_one_eq_mod, Nat.mul_add_mod, Nat.mod_eq_of_lt hb]; rfl
    · simp [pairSum, e5]
    · rw [hT, e6]; simp only [List.zipWith_cons_cons, fromD]; ring
    · simp only [fromD, pairSum]
      rw [← e7]; ring

theorem pairSum_sum : ∀ l : List Nat, (pairSum l).sum = l.sum
  | [] => rfl
  | [_] => rfl
  | a :: b :: t => by simp [pairSum, pairSum_sum t]; omega

theorem pairSum_len : ∀ (l : List Nat) (m : Nat), l.length = 2 * m → (pairSum l).length = m
  | [], m, h => by simp at h; simp [pairSum, h]
  | [_], m, h => by simp at h; omega
  | a :: b :: t, m, h => by
    have := pairSum_len t (m - 1) (by simp at h; omega)
    simp only [pairSum, List.length_cons, this]
    simp at h; omega

theorem pairSum_le {B : Nat} : ∀ l : List Nat, (∀ d ∈ l, d ≤ B) → ∀ d ∈ pairSum l, d ≤ 2 * B
  | [], _ => by simp [pairSum]
  | [a], h => by intro d hd; simp [pairSum] at hd; subst hd; have := h d (by simp); omega
  | a :: b :: t, h => by
    intro d hd
    simp only [pairSum, List.mem_cons] at hd
    rcases hd with rfl | hd
    · have := h a (by simp); have := h b (by simp); omega
    · exact pairSum_le t (fun x hx => h x (by simp [hx])) d hd

/-- A list of `2 m` digits of `k` bits, each at most `B`, that add up to `S`, encoded as `c`. -/
def Enc (k m B S c : Nat) : Prop := ∃ l : List Nat, c = fromD k l ∧ l.length = m ∧ (∀ d ∈ l, d ≤ B) ∧ l.sum = S

theorem enc_cnt2 {k m B S c M : Nat} (h : Enc k (2 * m) B S c) (hB : B < 2 ^ k) (hM : M = maskD k m) : Enc (2 * k) m (2 * B) S (((c >>> k) &&& M) + (c &&& M)) := by
  obtain ⟨l, rfl, h2, h3, h4⟩ := h
  obtain ⟨lo, hi, e1, e2, _, _, _, _, e7⟩ := and_mask l m h2 (fun d hd => Nat.lt_of_le_of_lt (h3 d hd) hB)
  refine ⟨pairSum l, ?_, pairSum_len l m h2, pairSum_le l h3, by rw [pairSum_sum, h4]⟩
  rw [hM, e1, e2, e7]

theorem enc_cntK {k : Nat} : ∀ (l : List Nat) (m B : Nat), l.length = 2 * m → (∀ d ∈ l, d ≤ B) → 2 * B < 2 ^ k →
    ((fromD k l >>> k) + fromD k l) &&& maskD k m = fromD (2 * k) (pairSum l)
  | [], m, B, hl, _, _ => by simp [fromD, pairSum]
  | [_], m, B, hl, _, _ => by simp at hl; omega
  | a :: b :: t, m, B, hl, hd, hB => by
    obtain ⟨m, rfl⟩ : ∃ m', m = m' + 1 := ⟨m - 1, by simp at hl; omega⟩
    have ih := enc_cntK (k := k) t m B (by simp at hl; omega) (fun d hdd => hd d (by simp [hdd])) hB
    have ha := hd a (by simp)
    have hb := hd b (by simp)
    have hT : fromD k (a :: b :: t) = 2 ^ (2 * k) * fromD k t + (2 ^ k * b + a) := by simp only [fromD]; rw [pow_two_mul]; ring
    have h1 : fromD k (a :: b :: t) >>> k = 2 ^ (2 * k) * (fromD k t >>> k) + (2 ^ k * (fromD k t % 2 ^ k) + b) := by
      rw [Nat.shiftRight_eq_div_pow, Nat.shiftRight_eq_div_pow]
      simp only [fromD]
      rw [Nat.mul_add_div (Nat.two_pow_pos k), Nat.div_eq_of_lt (by omega), pow_two_mul]
      have := Nat.div_add_mod (fromD k t) (2 ^ k)
      calc 2 ^ k * fromD k t + b + 0 = 2 ^ k * (2 ^ k * (fromD k t / 2 ^ k) + fromD k t % 2 ^ k) + b := by rw [this, Nat.add_zero]
        _ = _ := by ring
    have h2 : fromD k t % 2 ^ k ≤ B := by
      cases t with
      | nil => simp [fromD]
      | cons x xs =>
        have := hd x (by simp)
        simp only [fromD, Nat.mul_add_mod]
        rw [Nat.mod_eq_of_lt (by omega)]; exact this
    have h3 : (fromD k (a :: b :: t) >>> k) + fromD k (a :: b :: t) = 2 ^ (2 * k) * ((fromD k t >>> k) + fromD k t) + (2 ^ k * (fromD k t % 2 ^ k + b) + (a + b)) := by
      rw [h1, hT]; ring
    rw [h3, maskD, and_split (lo_lt (by omega) (by omega)) (lo_mask_lt k), ih, Nat.and_two_pow_sub_one_eq_mod, Nat.mul_add_mod, Nat.mod_eq_of_lt (by omega)]
    rfl

theorem enc_K {k m B S c M : Nat} (h : Enc k (2 * m) B S c) (hB : 2 * B < 2 ^ k) (hM : M = maskD k m) : Enc (2 * k) m (2 * B) S (cntK k M c) := by
  obtain ⟨l, rfl, h2, h3, h4⟩ := h
  refine ⟨pairSum l, ?_, pairSum_len l m h2, pairSum_le l h3, by rw [pairSum_sum, h4]⟩
  unfold cntK
  rw [hM, enc_cntK l m B h2 h3 hB]

theorem enc_one {k B S c : Nat} (h : Enc k 1 B S c) : c = S := by
  obtain ⟨l, rfl, h2, _, h4⟩ := h
  match l, h2 with
  | [d], _ => simp [fromD] at h4 ⊢; exact h4

/-- the last step of the 32 bit version uses a narrower mask -/
theorem enc_last {k B S c m : Nat} (h : Enc k 2 B S c) (hB : 2 * B < 2 ^ m) (hm : m ≤ k) : cntK k (2 ^ m - 1) c = S := by
  obtain ⟨l, rfl, h2, h3, h4⟩ := h
  match l, h2 with
  | [a, b], _ =>
    have ha := h3 a (by simp)
    have hb := h3 b (by simp)
    have hmk : 2 ^ m ≤ 2 ^ k := Nat.pow_le_pow_right (by omega) hm
    simp at h4
    unfold cntK
    rw [Nat.and_two_pow_sub_one_eq_mod, Nat.shiftRight_eq_div_pow]
    have : fromD k [a, b] = 2 ^ k * b + a := by simp [fromD]
    rw [this, Nat.mul_add_div (Nat.two_pow_pos k), Nat.div_eq_of_lt (by omega)]
    obtain ⟨j, rfl⟩ : ∃ j, k = m + j := ⟨k - m, by omega⟩
    rw [Nat.pow_add, show b + 0 + (2 ^ m * 2 ^ j * b + a) = 2 ^ m * (2 ^ j * b) + (a + b) by ring, Nat.mul_add_mod, Nat.mod_eq_of_lt (by omega)]
    omega

def bitsOf : Nat → Nat → List Nat
  | 0, _ => []
  | w + 1, v => v % 2 :: bitsOf w (v / 2)

theorem fromD_bitsOf (w v : Nat) (h : v < 2 ^ w) : fromD 1 (bitsOf w v) = v := by
  induction w generalizing v with
  | zero => simp [bitsOf, fromD]; omega
  | succ w ih =>
    simp only [bitsOf, fromD]
    rw [ih (v / 2) (by rw [Nat.pow_succ] at h; omega)]
    omega

theorem bitsOf_len (w v : Nat) : (bitsOf w v).length = w := by
  induction w generalizing v with
  | zero => rfl
  | succ w ih => simp [bitsOf, ih]

theorem bitsOf_le (w v : Nat) : ∀ d ∈ bitsOf w v, d ≤ 1 := by
  induction w generalizing v with
  | zero => simp [bitsOf]
  | succ w ih =>
    intro d hd
    simp only [bitsOf, List.mem_cons] at hd
    rcases hd with rfl | hd
    · omega
    · exact ih _ d hd

theorem enc_cnt1 {v M m : Nat} (h : v < 2 ^ (2 * m)) (hM : M = maskD 1 m) : Enc 2 m 2 (bitsOf (2 * m) v).sum (cnt1 M v) := by
  obtain ⟨lo, hi, e1, e2, e3, e4, e5, e6, e7⟩ := and_mask (k := 1) (bitsOf (2 * m) v) m (bitsOf_len _ _) (fun d hd => by have := bitsOf_le _ _ d hd; omega)
  refine ⟨pairSum (bitsOf (2 * m) v), ?_, pairSum_len _ m (bitsOf_len _ _), pairSum_le _ (bitsOf_le _ _), pairSum_sum _⟩
  rw [fromD_bitsOf _ _ h] at e2 e6 e1
  unfold cnt1
  rw [hM, e2]
  have : v = fromD (2 * 1) lo + 2 * fromD (2 * 1) hi := by
    have hz : ∀ (l1 l2 : List Nat), l1.length = l2.length → fromD (2 * 1) (List.zipWith (fun a b => a + 2 ^ 1 * b) l1 l2) = fromD (2 * 1) l1 + 2 * fromD (2 * 1) l2 := by
      intro l1
      induction l1 with
      | nil => intro l2 hl; cases l2 with
        | nil => simp [fromD]
        | cons => simp at hl
      | cons x xs ih =>
        intro l2 hl
        cases l2 with
        | nil => simp at hl
        | cons y ys =>
          simp only [List.zipWith_cons_cons, fromD]
          rw [ih ys (by simpa using hl)]; omega
    rw [← hz lo hi (by omega)]; exact e6
  show v - fromD (2 * 1) hi = fromD (2 * 1) (pairSum (bitsOf (2 * m) v))
  clear e6
  omega

end Etl.Binary
