import Verif.Bitset.Props

/-!
# bitset: `extract`

Source: `/repo/include/etl/private/bitset_new.h`, l.463-512 (one element), l.1261-1440 (several elements), l.2272-2303 (the public functions); `bitset_ext` has the same ones, l.3274-3305.
`tb` is the number of bits of `T`, `sg` tells whether it is signed.  The `int` indices of elements are kept as index + 1, 0 being -1: `(position + length - 1) >> log2`, computed in `size_t` and converted to
`int`, is -1 if both numbers are 0.  Indices are taken to fit in an `int`.
-/
namespace Etl.Bitset
open Binary (lsbMask signExtend signedOf)

/-! ## The model -/

/-- `value << n` for an unsigned value of `tb` bits (promoted to at least 32), assigned to the value. -/
def vShl (tb v n : Nat) : Res Nat := if n < max tb 32 then .ok ((v <<< n) % 2 ^ tb) else .error .overflow
/-- `pbuffer[element_index]`, the index given as index + 1. -/
def getAt (c : Cfg) (b : Buf) (k : Nat) : Res Nat := if k = 0 then .error .outOfBounds else get c b (k - 1)

/-- l.469-476, l.1346-1349, l.497-502: within one element. -/
def oneField (c : Cfg) (tb e p len : Nat) : Res Nat := match c.shr e (p % c.w) with
  | .error u => .error u
  | .ok x => .ok (x % 2 ^ tb &&& lsbMask tb len)

/-- "Loop through the fully filled elements", l.1299-1308; `fuel` bounds the number of rounds.  The result is `element_index` + 1, `value` and `length`. -/
def fullLoop (c : Cfg) (tb : Nat) (b : Buf) : Nat → Nat → Nat → Nat → Res (Nat × Nat × Nat)
  | fuel, k, v, len => if len ≥ c.w then (match fuel with
      | 0 => .error .diverge
      | fuel + 1 => match getAt c b k with
        | .error u => .error u
        | .ok e => match (if len - c.w ≥ c.w then vShl tb ((v ||| e) % 2 ^ tb) c.w else .ok ((v ||| e) % 2 ^ tb)) with
          | .error u => .error u
          | .ok v => fullLoop c tb b fuel (k - 1) v (len - c.w))
    else .ok (k, v, len)

/-- "Extract the first element, if partially filled", l.1286-1296. -/
def firstPart (c : Cfg) (tb : Nat) (b : Buf) (k active len : Nat) : Res (Nat × Nat × Nat) :=
  if active < c.w then (match getAt c b k with
    | .error u => .error u
    | .ok e => match (if len - active ≥ c.w then vShl tb ((e &&& lsbMask c.w active) % 2 ^ tb) c.w else .ok ((e &&& lsbMask c.w active) % 2 ^ tb)) with
      | .error u => .error u
      | .ok v => .ok (k - 1, v, len - active))
  else .ok (k, 0, len)

/-- "Extract the last element, if partially filled", l.1311-1316. -/
def lastPart (c : Cfg) (tb : Nat) (b : Buf) (k v len : Nat) : Res Nat :=
  if len ≠ 0 then (match vShl tb v len with
    | .error u => .error u
    | .ok v => match getAt c b k with
      | .error u => .error u
      | .ok e => match c.shr e (c.w - len) with
        | .error u => .error u
        | .ok x => .ok ((v ||| (x &&& lsbMask c.w len)) % 2 ^ tb))
  else .ok v

/-- `extract_from_multiple_elements`, l.1273-1319. -/
def manyField (c : Cfg) (tb : Nat) (b : Buf) (k active len : Nat) : Res Nat := match firstPart c tb b k active len with
  | .error u => .error u
  | .ok (k, v, len) => match fullLoop c tb b len k v len with
    | .error u => .error u
    | .ok (k, v, len) => lastPart c tb b k v len

/-- `Msb_Element_Index` + 1, l.1334, l.1385. -/
def msbIndex (c : Cfg) (p len : Nat) : Nat := if p + len = 0 then 0 else (p + len - 1) / c.w + 1

/-- `extract_from_buffer(pbuffer, position, length)`, l.1325-1360. -/
def extractBuf (c : Cfg) (tb : Nat) (b : Buf) (p len : Nat) : Res Nat :=
  if msbIndex c p len = p / c.w + 1 then (match getAt c b (msbIndex c p len) with
    | .error u => .error u
    | .ok e => oneField c tb e p len)
  else manyField c tb b (msbIndex c p len) (p + len + c.w - msbIndex c p len * c.w) len

/-- `extract_from_buffer<T, Position, Length>`, l.1362-1394: `Active_Bits_In_Msb` is computed in another way; `-1 % Bits_Per_Element` is the largest remainder. -/
def extractBufCT (c : Cfg) (tb : Nat) (b : Buf) (p len : Nat) : Res Nat :=
  if msbIndex c p len = p / c.w + 1 then (match getAt c b (msbIndex c p len) with
    | .error u => .error u
    | .ok e => oneField c tb e p len)
  else manyField c tb b (msbIndex c p len) ((if p + len = 0 then c.w - 1 else (p + len - 1) % c.w) + 1) len

/-- Sign extension and conversion to `T`, l.478-483, l.504-509, l.1410-1415, l.1430-1435. -/
def finish (tb : Nat) (sg : Bool) (len : Nat) (r : Res Nat) : Res (Option Int) := match r with
  | .error u => .error u
  | .ok v => if len ≠ tb ∧ sg = true then (match signExtend tb tb v len 0 with
      | .error u => .error u
      | .ok x => .ok (some x))
    else .ok (some (if sg = true then Binary.toSigned tb v else v))

/-- `extract<T>(position, length)`, l.2276-2284: `none` means that the error `bitset_overflow` is raised. -/
def extract (c : Cfg) (tb : Nat) (sg : Bool) (b : Buf) (p len : Nat) : Res (Option Int) :=
  if len ≤ tb ∧ p + len ≤ c.N then finish tb sg len (if c.ne = 1 then oneField c tb (b 0) p len else extractBuf c tb b p len) else .ok Option.none
/-- `extract<T, Position, Length>()`, l.2296-2303: outside the bounds it does not compile (`none`). -/
def extractCT (c : Cfg) (tb : Nat) (sg : Bool) (b : Buf) (p len : Nat) : Res (Option Int) :=
  if len ≤ tb ∧ p + len ≤ c.N then finish tb sg len (if c.ne = 1 then oneField c tb (b 0) p len else extractBufCT c tb b p len) else .ok Option.none

/-! ## The specification -/

/-- Bit `i` of the number is element `p + i` of the vector. -/
def IsField (f : Nat → Bool) (p len x : Nat) : Prop := ∀ i, x.testBit i = (decide (i < len) && f (p + i))
/-- The value of a field of `len` bits: in two's complement if the type is signed. -/
def fieldValue (sg : Bool) (len x : Nat) : Int := if sg = true ∧ x.testBit (len - 1) = true then (x : Int) - 2 ^ len else x

/-! ## Proofs -/

theorem lsb_bit {w n : Nat} (h : n ≤ w) (i : Nat) : (lsbMask w n).testBit i = decide (i < n) := by
  by_cases hi : i < w
  · exact (Binary.C27_masks h).1 i hi
  · unfold lsbMask
    split
    · simp; omega
    · rw [Nat.testBit_shiftRight, Nat.testBit_two_pow_sub_one]
      have : ¬ i < n := by omega
      simp only [this, decide_false, decide_eq_false_iff_not]; omega

theorem isField_lt {f : Nat → Bool} {p len x : Nat} (h : IsField f p len x) : x < 2 ^ len := by
  apply Nat.lt_pow_two_of_testBit
  intro i hi
  rw [h i]; simp; omega

theorem mod_id {f : Nat → Bool} {p len x tb : Nat} (h : IsField f p len x) (hl : len ≤ tb) : x % 2 ^ tb = x :=
  Nat.mod_eq_of_lt (Nat.lt_of_lt_of_le (isField_lt h) (Nat.pow_le_pow_right (by omega) hl))

theorem oneField_ok {c : Cfg} {tb : Nat} {b : Buf} {p len j : Nat} (hj : j = p / c.w) (hl : len ≤ tb) (hp : p % c.w + len ≤ c.w) :
    ∃ x, oneField c tb (b j) p len = .ok x ∧ IsField (bits c b) p len x := by
  have hm := Nat.mod_lt p (w_pos c)
  refine ⟨_, by unfold oneField; rw [shr_ok (max_w hm)], fun i => ?_⟩
  rw [Nat.testBit_and, Nat.testBit_mod_two_pow, Nat.testBit_shiftRight, lsb_bit hl]
  by_cases hi : i < len
  · have e : p + i = j * c.w + (p % c.w + i) := by
      have := Nat.div_add_mod p c.w
      rw [Nat.mul_comm, ← hj] at this; omega
    rw [e, bits_def (by omega)]
    simp [hi]; omega
  · simp [hi]

theorem getAt_ok {c : Cfg} {b : Buf} {k : Nat} (h0 : 0 < k) (h : k ≤ c.ne) : getAt c b k = .ok (b (k - 1)) := by
  unfold getAt; rw [if_neg (by omega), get_ok (by omega)]

/-- Appending an element or a part of one below a field. -/
theorem append {f : Nat → Bool} {p n m v e tb : Nat} (hv : IsField f (p + n) m v) (he : IsField f p n e) (h : m + n ≤ tb) :
    IsField f p (m + n) ((v <<< n % 2 ^ tb ||| e) % 2 ^ tb) := by
  intro i
  rw [Nat.testBit_mod_two_pow, Nat.testBit_or, Nat.testBit_mod_two_pow, Nat.testBit_shiftLeft, he i, hv (i - n)]
  by_cases hi : i < n
  · simp [hi, show ¬ n ≤ i by omega, show i < tb by omega, show i < m + n by omega]
  · by_cases hk : i < m + n
    · simp [hi, show n ≤ i by omega, show i < tb by omega, hk, show i - n < m by omega, show p + n + (i - n) = p + i by omega]
    · simp [hi, hk, show ¬ i - n < m by omega]

theorem elem_field {c : Cfg} {b : Buf} (hw : WF c b) {k : Nat} (h0 : 0 < k) (h : k ≤ c.ne) : IsField (bits c b) ((k - 1) * c.w) c.w (b (k - 1)) := by
  intro i
  by_cases hi : i < c.w
  · rw [bits_def hi]; simp [hi]
  · have := hw (k - 1) (by omega)
    rw [Binary.testBit_ge this (by omega)]; simp [hi]

/-- `value` at the top of the loop: shifted already if another full element follows. -/
def pre (c : Cfg) (tb v len : Nat) : Nat := if len ≥ c.w then v <<< c.w % 2 ^ tb else v

theorem fullLoop_ok {c : Cfg} {tb : Nat} {b : Buf} (hw : WF c b) (fuel : Nat) : ∀ (k v len m p : Nat), len ≤ fuel → k ≤ c.ne → p + len = k * c.w → IsField (bits c b) (p + len) m v → m + len ≤ tb →
    ∃ k' v' len', fullLoop c tb b fuel k (pre c tb v len) len = .ok (k', v', len') ∧ k' ≤ c.ne ∧ p + len' = k' * c.w ∧ len' < c.w ∧ len' ≤ len ∧ IsField (bits c b) (p + len') (m + (len - len')) v' := by
  have hw0 := w_pos c
  induction fuel with
  | zero =>
    intro k v len m p hf hk hp hv hm
    refine ⟨k, v, len, ?_, hk, hp, by omega, Nat.le_refl _, by rw [Nat.sub_self]; exact hv⟩
    simp only [fullLoop]; rw [if_neg (by omega)]; unfold pre; rw [if_neg (by omega)]
  | succ fuel ih =>
    intro k v len m p hf hk hp hv hm
    simp only [fullLoop]
    by_cases hl : len ≥ c.w
    · have hk0 : 0 < k := by
        by_contra hh
        have : k = 0 := by omega
        rw [this, Nat.zero_mul] at hp; omega
      have hkm : k * c.w = (k - 1) * c.w + c.w := by
        conv => lhs; rw [show k = (k - 1) + 1 by omega, Nat.add_mul, Nat.one_mul]
      have hpe : p + (len - c.w) = (k - 1) * c.w := by omega
      have he : IsField (bits c b) (p + (len - c.w)) c.w (b (k - 1)) := by rw [hpe]; exact elem_field hw hk0 hk
      have hv2 := append (tb := tb) (p := p + (len - c.w)) (n := c.w) (v := v) (m := m) (by rw [show p + (len - c.w) + c.w = p + len by omega]; exact hv) he (by omega)
      have hpre : pre c tb v len = v <<< c.w % 2 ^ tb := by unfold pre; rw [if_pos hl]
      rw [if_pos hl, getAt_ok hk0 hk, hpre]
      obtain ⟨k', v', len', e1, e2, e3, e4, e5, e6⟩ := ih (k - 1) _ (len - c.w) (m + c.w) p (by omega) (by omega) hpe hv2 (by omega)
      refine ⟨k', v', len', ?_, e2, e3, e4, by omega, by rw [show m + (len - len') = m + c.w + (len - c.w - len') by omega]; exact e6⟩
      have hs : (if len - c.w ≥ c.w then vShl tb ((v <<< c.w % 2 ^ tb ||| b (k - 1)) % 2 ^ tb) c.w else .ok ((v <<< c.w % 2 ^ tb ||| b (k - 1)) % 2 ^ tb)) =
          .ok (pre c tb ((v <<< c.w % 2 ^ tb ||| b (k - 1)) % 2 ^ tb) (len - c.w)) := by
        unfold pre vShl
        split
        · rw [if_pos (by omega)]
        · rfl
      simp only [hs]
      exact e1
    · refine ⟨k, v, len, ?_, hk, hp, by omega, Nat.le_refl _, by rw [Nat.sub_self]; exact hv⟩
      rw [if_neg hl]; unfold pre; rw [if_neg hl]

theorem isField_zero (f : Nat → Bool) (p : Nat) : IsField f p 0 0 := by intro i; simp

theorem firstPart_ok {c : Cfg} {tb : Nat} {b : Buf} {p len k : Nat} (hl : len ≤ tb) (hk : k ≤ c.ne) (hk0 : 0 < k) (h1 : p < (k - 1) * c.w) (h2 : (k - 1) * c.w < p + len) (h3 : p + len < k * c.w) :
    ∃ v, firstPart c tb b k (p + len - (k - 1) * c.w) len = .ok (k - 1, pre c tb v ((k - 1) * c.w - p), (k - 1) * c.w - p) ∧ IsField (bits c b) ((k - 1) * c.w) (p + len - (k - 1) * c.w) v := by
  have hw0 := w_pos c
  have hkm : k * c.w = (k - 1) * c.w + c.w := by
    conv => lhs; rw [show k = (k - 1) + 1 by omega, Nat.add_mul, Nat.one_mul]
  have hF : IsField (bits c b) ((k - 1) * c.w) (p + len - (k - 1) * c.w) (b (k - 1) &&& lsbMask c.w (p + len - (k - 1) * c.w)) := by
    intro i
    rw [Nat.testBit_and, lsb_bit (by omega)]
    by_cases hi : i < p + len - (k - 1) * c.w
    · rw [bits_def (by omega)]; simp [hi]
    · simp [hi]
  refine ⟨_, ?_, hF⟩
  unfold firstPart
  rw [if_pos (by omega), getAt_ok hk0 hk, show len - (p + len - (k - 1) * c.w) = (k - 1) * c.w - p by omega]
  simp only [mod_id hF (show p + len - (k - 1) * c.w ≤ tb by omega)]
  unfold pre vShl
  by_cases hh : (k - 1) * c.w - p ≥ c.w
  · rw [if_pos hh, if_pos hh, if_pos (by omega)]
  · rw [if_neg hh, if_neg hh]

theorem lastPart_ok {c : Cfg} {tb : Nat} {b : Buf} {p len k m v : Nat} (hk : k ≤ c.ne) (hp : p + len = k * c.w) (hlw : len < c.w) (hm : m + len ≤ tb) (hm0 : 0 < m ∨ len = 0) (hv : IsField (bits c b) (p + len) m v) :
    ∃ x, lastPart c tb b k v len = .ok x ∧ IsField (bits c b) p (m + len) x := by
  have hw0 := w_pos c
  unfold lastPart
  by_cases h0 : len = 0
  · subst h0; exact ⟨v, by simp, hv⟩
  · have hk0 : 0 < k := by
      by_contra hh
      have : k = 0 := by omega
      rw [this, Nat.zero_mul] at hp; omega
    have hkm : k * c.w = (k - 1) * c.w + c.w := by
      conv => lhs; rw [show k = (k - 1) + 1 by omega, Nat.add_mul, Nat.one_mul]
    have he : IsField (bits c b) p len (b (k - 1) >>> (c.w - len) &&& lsbMask c.w len) := by
      intro i
      rw [Nat.testBit_and, Nat.testBit_shiftRight, lsb_bit (by omega)]
      by_cases hi : i < len
      · rw [show p + i = (k - 1) * c.w + (c.w - len + i) by omega, bits_def (by omega)]; simp [hi]
      · simp [hi]
    refine ⟨_, ?_, append hv he hm⟩
    rw [if_pos h0]
    unfold vShl
    rw [if_pos (by omega)]
    simp only
    rw [getAt_ok hk0 hk]
    simp only
    rw [shr_ok (by omega)]

theorem manyField_ok {c : Cfg} {tb : Nat} {b : Buf} (hw : WF c b) {p len k a : Nat} (hk : k ≤ c.ne) (hl : len ≤ tb)
    (h : (a = c.w ∧ p + len = k * c.w ∧ (c.w < len ∨ len = 0)) ∨ (0 < k ∧ a = p + len - (k - 1) * c.w ∧ p < (k - 1) * c.w ∧ (k - 1) * c.w < p + len ∧ p + len < k * c.w)) :
    ∃ x, manyField c tb b k a len = .ok x ∧ IsField (bits c b) p len x := by
  have hw0 := w_pos c
  unfold manyField
  rcases h with ⟨ha, hp, hc⟩ | ⟨hk0, ha, h1, h2, h3⟩
  · have hf : firstPart c tb b k a len = .ok (k, 0, len) := by unfold firstPart; rw [if_neg (by omega)]
    obtain ⟨k', v', len', e1, e2, e3, e4, e5, e6⟩ := fullLoop_ok (tb := tb) hw len k 0 len 0 p (Nat.le_refl _) hk hp (isField_zero _ _) (by omega)
    have hpre : pre c tb 0 len = 0 := by unfold pre; split <;> simp
    rw [hpre] at e1
    obtain ⟨x, f1, f2⟩ := lastPart_ok (tb := tb) e2 e3 e4 (by omega) (by omega) e6
    refine ⟨x, by rw [hf]; simp only [e1]; exact f1, by rw [show len = 0 + (len - len') + len' by omega]; exact f2⟩
  · obtain ⟨v, f1, f2⟩ := firstPart_ok (tb := tb) (b := b) hl hk hk0 h1 h2 h3
    have hpe : p + ((k - 1) * c.w - p) = (k - 1) * c.w := by omega
    obtain ⟨k', v', len', e1, e2, e3, e4, e5, e6⟩ := fullLoop_ok (tb := tb) hw ((k - 1) * c.w - p) (k - 1) v ((k - 1) * c.w - p) (p + len - (k - 1) * c.w) p (Nat.le_refl _) (by omega) hpe (by rw [hpe]; exact f2) (by omega)
    obtain ⟨x, g1, g2⟩ := lastPart_ok (tb := tb) e2 e3 e4 (by omega) (by omega) e6
    refine ⟨x, by rw [ha, f1]; simp only [e1]; exact g1, ?_⟩
    rw [show p + len - (k - 1) * c.w + ((k - 1) * c.w - p - len') + len' = len by omega] at g2
    exact g2

/-- The facts about the index of the element with the most significant bit. -/
theorem msb_facts {c : Cfg} {p len : Nat} (h : p + len ≤ c.N) : msbIndex c p len ≤ c.ne ∧ msbIndex c p len * c.w < p + len + c.w ∧ p + len ≤ msbIndex c p len * c.w ∧
    (msbIndex c p len = p / c.w + 1 → p % c.w + len ≤ c.w) ∧ (msbIndex c p len ≠ p / c.w + 1 → len = 0 ∧ p + len = msbIndex c p len * c.w ∨ 0 < msbIndex c p len ∧ p < (msbIndex c p len - 1) * c.w) := by
  have hw0 := w_pos c
  have hN := N_le c
  have hd := Nat.div_add_mod p c.w
  have hm := Nat.mod_lt p hw0
  rw [Nat.mul_comm] at hd
  unfold msbIndex
  by_cases h0 : p + len = 0
  · have hp0 : p = 0 := by omega
    have hl0 : len = 0 := by omega
    subst hp0; subst hl0
    simp [hw0]
  · rw [if_neg h0]
    have hd2 := Nat.div_add_mod (p + len - 1) c.w
    have hm2 := Nat.mod_lt (p + len - 1) hw0
    rw [Nat.mul_comm] at hd2
    rw [Nat.add_mul, Nat.one_mul]
    have hle : (p + len - 1) / c.w < c.ne := div_lt_ne.mpr (by omega)
    refine ⟨hle, by omega, by omega, fun e => ?_, fun e => ?_⟩
    · have : (p + len - 1) / c.w = p / c.w := by omega
      rw [this] at hd2; omega
    · by_cases hl : len = 0
      · left
        refine ⟨hl, ?_⟩
        subst hl
        have hne : (p - 1) / c.w ≠ p / c.w := by intro e2; apply e; rw [show p + 0 - 1 = p - 1 by omega, e2]
        have h1 : (p - 1) / c.w ≤ p / c.w := Nat.div_le_div_right (by omega)
        have h2 : ((p - 1) / c.w + 1) * c.w ≤ p / c.w * c.w := Nat.mul_le_mul_right _ (by omega)
        rw [Nat.add_mul, Nat.one_mul] at h2
        simp only [Nat.add_zero] at *
        omega
      · right
        refine ⟨Nat.succ_pos _, ?_⟩
        have h1 : p / c.w ≤ (p + len - 1) / c.w := Nat.div_le_div_right (by omega)
        have hne : (p + len - 1) / c.w ≠ p / c.w := by intro e2; apply e; rw [e2]
        have h2 : (p / c.w + 1) * c.w ≤ (p + len - 1) / c.w * c.w := Nat.mul_le_mul_right _ (Nat.lt_of_le_of_ne h1 (Ne.symm hne))
        rw [Nat.add_mul, Nat.one_mul] at h2
        simp only [Nat.add_sub_cancel]
        omega

theorem active_ct {c : Cfg} {p len : Nat} (h : p + len ≤ c.N) : p + len + c.w - msbIndex c p len * c.w = (if p + len = 0 then c.w - 1 else (p + len - 1) % c.w) + 1 := by
  have hw0 := w_pos c
  unfold msbIndex
  by_cases h0 : p + len = 0
  · rw [if_pos h0, if_pos h0]; omega
  · rw [if_neg h0, if_neg h0]
    have hd2 := Nat.div_add_mod (p + len - 1) c.w
    rw [Nat.mul_comm] at hd2
    rw [Nat.add_mul, Nat.one_mul]; omega

theorem extractBufCT_eq {c : Cfg} {tb : Nat} {b : Buf} {p len : Nat} (h : p + len ≤ c.N) : extractBufCT c tb b p len = extractBuf c tb b p len := by
  unfold extractBufCT extractBuf; rw [active_ct h]

theorem extractBuf_ok {c : Cfg} {tb : Nat} {b : Buf} (hw : WF c b) {p len : Nat} (hl : len ≤ tb) (h : p + len ≤ c.N) : ∃ x, extractBuf c tb b p len = .ok x ∧ IsField (bits c b) p len x := by
  have hw0 := w_pos c
  obtain ⟨h1, h2, h3, h4, h5⟩ := msb_facts h
  unfold extractBuf
  by_cases he : msbIndex c p len = p / c.w + 1
  · have hj : msbIndex c p len - 1 = p / c.w := by rw [he, Nat.add_sub_cancel]
    rw [if_pos he, getAt_ok (by rw [he]; exact Nat.succ_pos _) h1]
    exact oneField_ok hj hl (h4 he)
  · rw [if_neg he]
    apply manyField_ok hw h1 hl
    rcases h5 he with ⟨e1, e2⟩ | ⟨e1, e2⟩
    · left; exact ⟨by omega, e2, .inr e1⟩
    · have hkm : msbIndex c p len * c.w = (msbIndex c p len - 1) * c.w + c.w := by
        conv => lhs; rw [show msbIndex c p len = (msbIndex c p len - 1) + 1 by omega, Nat.add_mul, Nat.one_mul]
      by_cases hf : p + len = msbIndex c p len * c.w
      · left; exact ⟨by omega, hf, .inl (by omega)⟩
      · right; exact ⟨e1, by omega, e2, by omega, by omega⟩

theorem field_ok {c : Cfg} {tb : Nat} {b : Buf} (hw : WF c b) {p len : Nat} (hl : len ≤ tb) (h : p + len ≤ c.N) :
    ∃ x, (if c.ne = 1 then oneField c tb (b 0) p len else extractBuf c tb b p len) = .ok x ∧ (if c.ne = 1 then oneField c tb (b 0) p len else extractBufCT c tb b p len) = .ok x ∧ IsField (bits c b) p len x := by
  rw [extractBufCT_eq h]
  by_cases h1 : c.ne = 1
  · simp only [if_pos h1, and_self_left]
    have hN := ne_one h1
    by_cases hp : p < c.w
    · have hd : 0 = p / c.w := (Nat.div_eq_of_lt hp).symm
      exact oneField_ok hd hl (by rw [Nat.mod_eq_of_lt hp]; omega)
    · have hl0 : len = 0 := by omega
      subst hl0
      have hm := Nat.mod_lt p (w_pos c)
      refine ⟨_, by unfold oneField; rw [shr_ok (max_w hm)], fun i => ?_⟩
      rw [Nat.testBit_and, lsb_bit hl]; simp
  · simp only [if_neg h1, and_self_left]
    exact extractBuf_ok hw hl h

theorem signedOf_field {f : Nat → Bool} {p len x : Nat} (h : IsField f p len x) : signedOf len x = fieldValue true len x := by
  unfold signedOf fieldValue
  rw [Nat.mod_eq_of_lt (isField_lt h)]; simp

theorem toSigned_field {tb x : Nat} (h : x < 2 ^ tb) (ht : 0 < tb) : Binary.toSigned tb x = fieldValue true tb x := by
  unfold Binary.toSigned fieldValue
  have hp : (2 : Nat) ^ tb = 2 * 2 ^ (tb - 1) := by conv => lhs; rw [show tb = (tb - 1) + 1 by omega, Nat.pow_succ]
                                                    omega
  rw [Nat.mod_eq_of_lt h]
  by_cases hx : x < 2 ^ (tb - 1)
  · rw [if_pos hx, if_neg (by rw [Binary.testBit_ge hx (Nat.le_refl _)]; simp)]
  · have : x.testBit (tb - 1) = true := by
      rw [Nat.testBit_eq_decide_div_mod_eq]
      have h2 : x / 2 ^ (tb - 1) = 1 := by
        rw [Nat.div_eq_iff (Nat.two_pow_pos _)]; omega
      rw [h2]; simp
    rw [if_neg hx, if_pos ⟨rfl, this⟩]

theorem finish_ok {f : Nat → Bool} {p len x tb : Nat} {sg : Bool} (h : IsField f p len x) (hl : len ≤ tb) (ht0 : 0 < tb) (ht : tb ≤ 64) (hs : sg = true → 0 < len) :
    finish tb sg len (.ok x) = .ok (some (fieldValue sg len x)) := by
  unfold finish
  have hx : x < 2 ^ tb := Nat.lt_of_lt_of_le (isField_lt h) (Nat.pow_le_pow_right (by omega) hl)
  cases sg with
  | false => simp [fieldValue]
  | true =>
    have h0 := hs rfl
    by_cases he : len = tb
    · subst he
      simp [toSigned_field hx ht0]
    · simp only
      rw [if_pos ⟨he, by trivial⟩, Binary.C27_sign_extend h0 (by omega) ht (by omega) ht (by omega) hl hx, Nat.shiftRight_zero, signedOf_field h]

/-- C26, `extract`: whatever sequence of operations came before, `extract<T>(position, length)` raises the error exactly if the length exceeds the width of `T` or the field the bitset, and otherwise gives the number
whose bits are the elements `position`, …, `position + length - 1` of the ideal vector, sign extended for a signed `T`.  The form with compile time arguments gives the same. -/
theorem C26_extract {c : Cfg} (hc : Ok c) (mem : Nat → Buf) (os : List Op) (hl : LegalRun c zeros os) :
    ∃ env, run c (fun x => resetAll c (mem x)) os = .ok ((specRun c.N c.w zeros os).1, env) ∧
      ∀ x p len tb sg, 0 < tb → tb ≤ 64 → (sg = true → 0 < len) →
        (if len ≤ tb ∧ p + len ≤ c.N then ∃ v, IsField ((specRun c.N c.w zeros os).2 x).v p len v ∧
            extract c tb sg (env x) p len = .ok (some (fieldValue sg len v)) ∧ extractCT c tb sg (env x) p len = .ok (some (fieldValue sg len v))
          else extract c tb sg (env x) p len = .ok Option.none) := by
  obtain ⟨env, e, h⟩ := run_agree hc os (start_agree c mem) hl
  refine ⟨env, e, fun x p len tb sg h0 h1 hs => ?_⟩
  split
  · rename_i hh
    obtain ⟨v, f1, f2, f3⟩ := field_ok (h x).wf hh.1 hh.2
    refine ⟨v, fun i => ?_, ?_, ?_⟩
    · rw [f3 i]
      by_cases hi : i < len
      · rw [(h x).act (p + i) (by omega)]
      · simp [hi]
    · unfold extract; rw [if_pos hh, f1, finish_ok f3 hh.1 h0 h1 hs]
    · unfold extractCT; rw [if_pos hh, f2, finish_ok f3 hh.1 h0 h1 hs]
  · rename_i hh
    unfold extract; rw [if_neg hh]

/-- There is exactly one such number. -/
theorem isField_unique {f : Nat → Bool} {p len x y : Nat} (hx : IsField f p len x) (hy : IsField f p len y) : x = y := by
  apply Nat.eq_of_testBit_eq; intro i; rw [hx i, hy i]

/-! ## Examples and a finding -/

/-- 24 bits in 8 bit elements, all three bytes used: bits 5 to 18 of `0xC8F3F1`. -/
example : extract ⟨24, 3⟩ 16 false (fun i => [0xF1, 0xF3, 0xC8].getD i 0) 5 14 = .ok (some 0x79F) := by decide +kernel
example : extract ⟨24, 3⟩ 16 true (fun i => [0xF1, 0xF3, 0xC8].getD i 0) 5 14 = .ok (some 0x79F) ∧ extract ⟨24, 3⟩ 16 true (fun i => [0xF1, 0xF3, 0xC8].getD i 0) 3 9 = .ok (some 126) ∧
    extract ⟨24, 3⟩ 32 true (fun i => [0xF1, 0xF3, 0xC8].getD i 0) 0 24 = .ok (some (-3607567)) ∧ extract ⟨24, 3⟩ 16 true (fun i => [0xF1, 0xF3, 0xC8].getD i 0) 8 16 = .ok (some (-14093)) := by decide +kernel
example : IsField (bits ⟨24, 3⟩ (fun i => [0xF1, 0xF3, 0xC8].getD i 0)) 0 0 0 := isField_zero _ _
/-- A signed field of length 0 passes the assertions and is sign extended: `1 << (0 - 1)`. -/
theorem extract_empty_signed_undefined (b : Buf) : extract ⟨24, 3⟩ 16 true b 0 0 = .error .overflow ∧ extract ⟨24, 3⟩ 16 false b 0 0 = .ok (some 0) := ⟨rfl, rfl⟩

end Etl.Bitset
