import Verif.Bitset.Model
import Verif.Binary.Props
import Mathlib.Tactic.Ring
import Mathlib.Tactic.SplitIfs
import Mathlib.Tactic.ByContra

/-! # Bits of the elements of a bitset -/
namespace Etl.Bitset
open Binary (testBit_ge eq_of_bits)

/-- Bit `i` of the buffer. -/
def bits (c : Cfg) (b : Buf) (i : Nat) : Bool := (b (i / c.w)).testBit (i % c.w)
/-- The elements are `w` bit numbers. -/
def WF (c : Cfg) (b : Buf) : Prop := ∀ j, j < c.ne → b j < 2 ^ c.w

structure Ok (c : Cfg) : Prop where
  pos : 0 < c.N
  lo : 3 ≤ c.lg
  hi : c.lg ≤ 6

theorem w_pos (c : Cfg) : 0 < c.w := Nat.two_pow_pos _

theorem w_cases {c : Cfg} (h : Ok c) : (c.lg = 3 ∧ c.w = 8) ∨ (c.lg = 4 ∧ c.w = 16) ∨ (c.lg = 5 ∧ c.w = 32) ∨ (c.lg = 6 ∧ c.w = 64) := by
  have h1 := h.lo; have h2 := h.hi
  unfold Cfg.w
  have : c.lg = 3 ∨ c.lg = 4 ∨ c.lg = 5 ∨ c.lg = 6 := by omega
  rcases this with h | h | h | h <;> simp [h]

theorem N_le (c : Cfg) : c.N ≤ c.ne * c.w := by
  unfold Cfg.ne
  have := Nat.div_add_mod c.N c.w
  have h2 := Nat.mod_lt c.N (w_pos c)
  rw [Nat.mul_comm] at this
  split
  · omega
  · rw [Nat.add_mul]; omega

theorem ne_pos {c : Cfg} (h : 0 < c.N) : 0 < c.ne := by
  have := N_le c
  by_contra hh
  have h0 : c.ne = 0 := by omega
  rw [h0, Nat.zero_mul] at this; omega

theorem ne_lt {c : Cfg} (h : 0 < c.N) : (c.ne - 1) * c.w < c.N := by
  have hp := ne_pos h
  unfold Cfg.ne at *
  have := Nat.div_add_mod c.N c.w
  have h2 := Nat.mod_lt c.N (w_pos c)
  rw [Nat.mul_comm] at this
  split at hp
  · rw [if_pos (by assumption)]
    rw [Nat.sub_mul]
    have : c.w ≤ c.N / c.w * c.w := Nat.le_mul_of_pos_left _ hp
    have := w_pos c
    omega
  · rw [if_neg (by assumption)]; simp only [Nat.add_sub_cancel]; omega

theorem ne_one {c : Cfg} (h : c.ne = 1) : c.N ≤ c.w := by have := N_le c; rw [h] at this; omega

theorem div_lt_ne {c : Cfg} {i : Nat} : i / c.w < c.ne ↔ i < c.ne * c.w := Nat.div_lt_iff_lt_mul (w_pos c)

theorem index_eq (c : Cfg) (p : Nat) : c.index p = p / c.w := by unfold Cfg.index Cfg.w; rw [Nat.shiftRight_eq_div_pow]
theorem bitpos_eq (c : Cfg) (p : Nat) : c.bitpos p = p % c.w := by unfold Cfg.bitpos Cfg.w; rw [Nat.and_two_pow_sub_one_eq_mod]
theorem cut_lt (c : Cfg) (x : Nat) : c.cut x < 2 ^ c.w := Nat.mod_lt _ (Nat.two_pow_pos _)
theorem cut_eq {c : Cfg} {x : Nat} (h : x < 2 ^ c.w) : c.cut x = x := Nat.mod_eq_of_lt h
theorem testBit_cut (c : Cfg) (x i : Nat) : (c.cut x).testBit i = (decide (i < c.w) && x.testBit i) := Nat.testBit_mod_two_pow ..
theorem mask_eq (c : Cfg) (p : Nat) : c.mask p = 2 ^ (p % c.w) := by
  unfold Cfg.mask; rw [bitpos_eq, Nat.one_shiftLeft]
  exact cut_eq (Nat.pow_lt_pow_right (by omega) (Nat.mod_lt _ (w_pos c)))
theorem allSet_bit (c : Cfg) (i : Nat) : c.allSet.testBit i = decide (i < c.w) := Nat.testBit_two_pow_sub_one ..
theorem allSet_lt (c : Cfg) : c.allSet < 2 ^ c.w := by unfold Cfg.allSet; have := Nat.two_pow_pos c.w; omega
theorem inv_bit (c : Cfg) (x i : Nat) : (c.inv x).testBit i = (decide (i < c.w) ^^ x.testBit i) := by unfold Cfg.inv; rw [Nat.testBit_xor, allSet_bit]
theorem inv_lt {c : Cfg} {x : Nat} (h : x < 2 ^ c.w) : c.inv x < 2 ^ c.w := Nat.xor_lt_two_pow (allSet_lt c) h

/-- The number of active bits of the top element. -/
def top (c : Cfg) : Nat := c.N - (c.ne - 1) * c.w

theorem top_pos {c : Cfg} (h : 0 < c.N) : 0 < top c ∧ top c ≤ c.w := by
  have := ne_lt h; have := N_le c; have := ne_pos h
  unfold top
  have e : c.ne * c.w = (c.ne - 1) * c.w + c.w := by
    conv_lhs => rw [show c.ne = c.ne - 1 + 1 by omega, Nat.add_mul, Nat.one_mul]
  omega

theorem topMask_bit {c : Cfg} (h : 0 < c.N) (i : Nat) : c.topMask.testBit i = decide (i < top c) := by
  have ht := top_pos h
  have e : c.ne * c.w = (c.ne - 1) * c.w + c.w := by
    conv_lhs => rw [show c.ne = c.ne - 1 + 1 by have := ne_pos h; omega, Nat.add_mul, Nat.one_mul]
  have hl := ne_lt h
  have hs : c.topShift = top c % c.w := by
    unfold Cfg.topShift top; congr 1; unfold top at ht; omega
  unfold Cfg.topMask
  split
  · next hh =>
    rw [hs] at hh
    have : top c = c.w := by
      rcases Nat.lt_or_ge (top c) c.w with h1 | h1
      · rw [Nat.mod_eq_of_lt h1] at hh; omega
      · omega
    rw [allSet_bit, this]
  · next hh =>
    rw [hs] at hh ⊢
    have hlt : top c < c.w := by
      rcases Nat.lt_or_ge (top c) c.w with h1 | h1
      · exact h1
      · have : top c = c.w := by omega
        rw [this] at hh; simp at hh
    rw [Nat.mod_eq_of_lt hlt, inv_bit, testBit_cut, Nat.testBit_shiftLeft, allSet_bit]
    by_cases h1 : i < c.w <;> by_cases h2 : top c ≤ i <;> by_cases h3 : i - top c < c.w <;> simp [h1, h2, h3] <;> omega

theorem topMask_lt {c : Cfg} : c.topMask < 2 ^ c.w := by
  unfold Cfg.topMask; split
  · exact allSet_lt c
  · exact inv_lt (cut_lt _ _)

theorem mapLoop_get (f : Nat → Nat → Nat) (n : Nat) : ∀ (i : Nat) (b : Buf) (j : Nat), mapLoop f n i b j = if i ≤ j ∧ j < i + n then f j (b j) else b j := by
  induction n with
  | zero => intro i b j; simp only [mapLoop]; rw [if_neg (by omega)]
  | succ n ih =>
    intro i b j
    simp only [mapLoop, ih]
    by_cases h : j = i
    · subst h; rw [if_neg (by omega), if_pos (by omega)]; simp
    · rw [upd_other _ _ h]
      by_cases h1 : i + 1 ≤ j ∧ j < i + 1 + n
      · rw [if_pos h1, if_pos (by omega)]
      · rw [if_neg h1, if_neg (by omega)]

/-- Canonical form of an operation on every element. -/
def Each (c : Cfg) (f : Nat → Nat → Nat) (b b' : Buf) : Prop := ∀ j, j < c.ne → b' j = f j (b j)

theorem each_mapLoop (c : Cfg) (f : Nat → Nat → Nat) (b : Buf) : Each c f b (mapLoop f c.ne 0 b) := by
  intro j hj; rw [mapLoop_get, if_pos (by omega)]

theorem each_one {c : Cfg} {f : Nat → Nat → Nat} {b : Buf} {v : Nat} (h : c.ne = 1) (hv : v = f 0 (b 0)) : Each c f b (upd b 0 v) := by
  intro j hj
  have : j = 0 := by omega
  subst this; simp [hv]

theorem resetAll_each (c : Cfg) (b : Buf) : Each c (fun _ _ => 0) b (resetAll c b) := by
  unfold resetAll; split
  · next h => exact each_one h rfl
  · exact each_mapLoop _ _ _
theorem flipAll_each (c : Cfg) (b : Buf) : Each c (fun _ e => c.inv e) b (flipAll c b) := by
  unfold flipAll; split
  · next h => exact each_one h rfl
  · exact each_mapLoop _ _ _
theorem andWith_each (c : Cfg) (a b : Buf) : Each c (fun i e => e &&& b i) a (andWith c a b) := by
  unfold andWith; split
  · next h => exact each_one h rfl
  · exact each_mapLoop _ _ _
theorem orWith_each (c : Cfg) (a b : Buf) : Each c (fun i e => e ||| b i) a (orWith c a b) := by
  unfold orWith; split
  · next h => exact each_one h rfl
  · exact each_mapLoop _ _ _
theorem xorWith_each (c : Cfg) (a b : Buf) : Each c (fun i e => e ^^^ b i) a (xorWith c a b) := by
  unfold xorWith; split
  · next h => exact each_one h rfl
  · exact each_mapLoop _ _ _
theorem assign_each (c : Cfg) (a b : Buf) : Each c (fun i _ => b i) a (assign c a b) := by
  unfold assign; split
  · next h => exact each_one h rfl
  · exact each_mapLoop _ _ _
theorem setAll_each (c : Cfg) (h : 0 < c.N) (b : Buf) : Each c (fun i _ => if i = c.ne - 1 then c.allSet &&& c.topMask else c.allSet) b (setAll c b) := by
  unfold setAll; split
  · next h => exact each_one h (by simp [h])
  · intro j hj
    unfold mSetAll
    by_cases hh : j = c.ne - 1
    · rw [hh]; simp
    · rw [upd_other _ _ hh, mapLoop_get, if_pos (by omega)]; simp [hh]

/-- The full effect of an operation: `b'` is well formed and its bits, unused ones included, are `f`. -/
def Eff (c : Cfg) (b' : Buf) (f : Nat → Bool) : Prop := WF c b' ∧ ∀ i, i < c.ne * c.w → bits c b' i = f i

theorem bits_def {c : Cfg} {b : Buf} {j t : Nat} (ht : t < c.w) : bits c b (j * c.w + t) = (b j).testBit t := by
  unfold bits
  rw [Nat.mul_comm, Nat.mul_add_div (w_pos c), Nat.div_eq_of_lt ht, Nat.mul_add_mod, Nat.mod_eq_of_lt ht, Nat.add_zero]

/-- To give the effect, give the bits of each element. -/
theorem eff_mk {c : Cfg} {b' : Buf} {f : Nat → Bool} (hw : WF c b') (h : ∀ j t, j < c.ne → t < c.w → (b' j).testBit t = f (j * c.w + t)) : Eff c b' f := by
  refine ⟨hw, fun i hi => ?_⟩
  have h1 := div_lt_ne.mpr hi
  have h2 := h (i / c.w) (i % c.w) h1 (Nat.mod_lt _ (w_pos c))
  rw [show i / c.w * c.w + i % c.w = i by rw [Nat.mul_comm]; exact Nat.div_add_mod i c.w] at h2
  exact h2

theorem wf_each {c : Cfg} {f : Nat → Nat → Nat} {b b' : Buf} (h : Each c f b b') (hf : ∀ j, j < c.ne → f j (b j) < 2 ^ c.w) : WF c b' := by
  intro j hj; rw [h j hj]; exact hf j hj

theorem resetAll_eff (c : Cfg) (b : Buf) : Eff c (resetAll c b) (fun _ => false) := by
  have h := resetAll_each c b
  exact eff_mk (wf_each h fun _ _ => Nat.two_pow_pos _) (fun j t hj _ => by rw [h j hj]; simp)
theorem flipAll_eff {c : Cfg} {b : Buf} (hw : WF c b) : Eff c (flipAll c b) (fun i => !bits c b i) := by
  have h := flipAll_each c b
  refine eff_mk (wf_each h fun j hj => inv_lt (hw j hj)) (fun j t hj ht => by rw [h j hj, inv_bit, bits_def ht]; simp [ht])
theorem andWith_eff {c : Cfg} {a b : Buf} (hw : WF c a) : Eff c (andWith c a b) (fun i => bits c a i && bits c b i) := by
  have h := andWith_each c a b
  refine eff_mk (wf_each h fun j hj => Nat.lt_of_le_of_lt Nat.and_le_left (hw j hj)) (fun j t hj ht => by rw [h j hj, bits_def ht, bits_def ht, Nat.testBit_and])
theorem orWith_eff {c : Cfg} {a b : Buf} (hw : WF c a) (hb : WF c b) : Eff c (orWith c a b) (fun i => bits c a i || bits c b i) := by
  have h := orWith_each c a b
  refine eff_mk (wf_each h fun j hj => Nat.or_lt_two_pow (hw j hj) (hb j hj)) (fun j t hj ht => by rw [h j hj, bits_def ht, bits_def ht, Nat.testBit_or])
theorem xorWith_eff {c : Cfg} {a b : Buf} (hw : WF c a) (hb : WF c b) : Eff c (xorWith c a b) (fun i => bits c a i ^^ bits c b i) := by
  have h := xorWith_each c a b
  refine eff_mk (wf_each h fun j hj => Nat.xor_lt_two_pow (hw j hj) (hb j hj)) (fun j t hj ht => by rw [h j hj, bits_def ht, bits_def ht, Nat.testBit_xor])
theorem assign_eff {c : Cfg} {a b : Buf} (hb : WF c b) : Eff c (assign c a b) (fun i => bits c b i) := by
  have h := assign_each c a b
  refine eff_mk (wf_each h fun j hj => hb j hj) (fun j t hj ht => by rw [h j hj, bits_def ht])

theorem ne_succ_mul {c : Cfg} (h : 0 < c.N) : c.ne * c.w = (c.ne - 1) * c.w + c.w := by
  conv_lhs => rw [show c.ne = c.ne - 1 + 1 by have := ne_pos h; omega, Nat.add_mul, Nat.one_mul]

theorem setAll_eff {c : Cfg} (hp : 0 < c.N) (b : Buf) : Eff c (setAll c b) (fun i => decide (i < c.N)) := by
  have h := setAll_each c hp b
  refine eff_mk (wf_each h fun j hj => ?_) (fun j t hj ht => ?_)
  · split
    · exact Nat.lt_of_le_of_lt Nat.and_le_left (allSet_lt c)
    · exact allSet_lt c
  · rw [h j hj]; dsimp only
    split
    · next hh =>
      subst hh
      rw [Nat.testBit_and, allSet_bit, topMask_bit hp, decide_eq_true ht, Bool.true_and]
      have := ne_lt hp
      unfold top; congr 1; apply propext; omega
    · next hh =>
      rw [allSet_bit, decide_eq_true ht]
      have h1 : j + 1 ≤ c.ne - 1 := by omega
      have h2 := Nat.mul_le_mul_right c.w h1
      rw [Nat.add_mul] at h2
      have := ne_lt hp
      simp; omega

/-! ## One position -/

theorem max_w {c : Cfg} {s : Nat} (h : s < c.w) : s < max c.w 32 := by omega

theorem shl_ok {c : Cfg} {x s : Nat} (h : s < max c.w 32) : c.shl x s = .ok (c.cut (x <<< s)) := by unfold Cfg.shl; rw [if_pos h]
theorem shr_ok {c : Cfg} {x s : Nat} (h : s < max c.w 32) : c.shr x s = .ok (x >>> s) := by unfold Cfg.shr; rw [if_pos h]

theorem get_ok {c : Cfg} {b : Buf} {i : Nat} (h : i < c.ne) : get c b i = .ok (b i) := by unfold get; rw [if_pos h]
theorem put_ok {c : Cfg} {b : Buf} {i v : Nat} (h : i < c.ne) : put c b i v = .ok (upd b i v) := by unfold put; rw [if_pos h]

theorem sMask_eq {c : Cfg} {p : Nat} (h : p < c.w) : sMask c p = .ok (2 ^ p) := by
  unfold sMask; rw [shl_ok (max_w h), Nat.one_shiftLeft, cut_eq (Nat.pow_lt_pow_right (by omega) h)]

/-- Writing one element so that only one bit changes. -/
theorem pos_eff {c : Cfg} {b : Buf} {p v : Nat} {x : Bool} (hw : WF c b) (hv : v < 2 ^ c.w)
    (hb : ∀ t, t < c.w → v.testBit t = if t = p % c.w then x else (b (p / c.w)).testBit t) : Eff c (upd b (p / c.w) v) (fun i => if i = p then x else bits c b i) := by
  refine eff_mk (fun j hj => ?_) (fun j t hj ht => ?_)
  · by_cases h : j = p / c.w
    · rw [h]; simpa using hv
    · rw [upd_other _ _ h]; exact hw j hj
  · rw [bits_def ht]
    by_cases h : j = p / c.w
    · subst h
      rw [upd_same, hb t ht]
      have e : p / c.w * c.w + p % c.w = p := by rw [Nat.mul_comm]; exact Nat.div_add_mod p c.w
      by_cases h2 : t = p % c.w
      · rw [if_pos h2, if_pos (by rw [h2]; exact e)]
      · rw [if_neg h2, if_neg (by omega)]
    · rw [upd_other _ _ h, if_neg]
      intro hh
      apply h
      rw [← hh, Nat.mul_comm, Nat.mul_add_div (w_pos c), Nat.div_eq_of_lt ht, Nat.add_zero]

theorem bit_or (e k t : Nat) : (e ||| 2 ^ k).testBit t = if t = k then true else e.testBit t := by
  rw [Nat.testBit_or, Nat.testBit_two_pow]
  by_cases h : t = k
  · simp [h]
  · simp [h, Ne.symm h]
theorem bit_xor (e k t : Nat) : (e ^^^ 2 ^ k).testBit t = if t = k then !e.testBit k else e.testBit t := by
  rw [Nat.testBit_xor, Nat.testBit_two_pow]
  by_cases h : t = k
  · simp [h]
  · simp [h, Ne.symm h]
theorem bit_and_inv {c : Cfg} (e k t : Nat) (ht : t < c.w) : (e &&& c.inv (2 ^ k)).testBit t = if t = k then false else e.testBit t := by
  rw [Nat.testBit_and, inv_bit, Nat.testBit_two_pow, decide_eq_true ht]
  by_cases h : t = k
  · simp [h]
  · simp [h, Ne.symm h]
theorem bit_test (e k : Nat) : (e &&& 2 ^ k != 0) = e.testBit k := by
  cases h : e.testBit k
  · have : e &&& 2 ^ k = 0 := by
      apply Nat.eq_of_testBit_eq; intro i
      rw [Nat.testBit_and, Nat.testBit_two_pow, Nat.zero_testBit]
      by_cases h2 : k = i
      · subst h2; simp [h]
      · simp [h2]
    simp [this]
  · have : e &&& 2 ^ k ≠ 0 := by
      intro hh
      have := congrArg (fun x => Nat.testBit x k) hh
      simp [h] at this
    simpa using this

theorem pow_lt {c : Cfg} {p : Nat} : 2 ^ (p % c.w) < 2 ^ c.w := Nat.pow_lt_pow_right (by omega) (Nat.mod_lt _ (w_pos c))

/-- The position in a single element. -/
theorem one_pos {c : Cfg} {p : Nat} (h1 : c.ne = 1) (hp : p < c.N) : p < c.w ∧ p / c.w = 0 ∧ p % c.w = p := by
  have := ne_one h1
  have h : p < c.w := by omega
  exact ⟨h, Nat.div_eq_of_lt h, Nat.mod_eq_of_lt h⟩

theorem pos_lt {c : Cfg} {p : Nat} (hp : p < c.N) : p / c.w < c.ne := div_lt_ne.mpr (by have := N_le c; omega)

theorem mSet_eff {c : Cfg} {b : Buf} {p : Nat} {v : Bool} (hw : WF c b) (hp : p < c.N) :
    ∃ b', mSet c b p v = .ok b' ∧ Eff c b' (fun i => if i = p then v else bits c b i) ∧ ∀ j, j ≠ p / c.w → b' j = b j := by
  have hl := pos_lt hp
  refine ⟨_, by unfold mSet; rw [index_eq, get_ok hl]; exact put_ok hl, ?_, fun j hj => upd_other _ _ hj⟩
  have he := hw _ hl
  refine pos_eff hw ?_ (fun t ht => ?_)
  · rw [mask_eq]; split
    · exact Nat.or_lt_two_pow he pow_lt
    · exact Nat.lt_of_le_of_lt Nat.and_le_left he
  · rw [mask_eq]; cases v
    · rw [if_neg (by simp)]; exact bit_and_inv _ _ _ ht
    · rw [if_pos rfl]; exact bit_or _ _ _

theorem set_eff {c : Cfg} {b : Buf} {p : Nat} {v : Bool} (hw : WF c b) (hp : p < c.N) :
    ∃ b', set c b p v = .ok (some b') ∧ Eff c b' (fun i => if i = p then v else bits c b i) := by
  unfold set; rw [if_pos hp]
  by_cases h1 : c.ne = 1
  · obtain ⟨h2, h3, h4⟩ := one_pos h1 hp
    rw [if_pos h1]; unfold sSet; rw [sMask_eq h2]
    refine ⟨_, rfl, ?_⟩
    have he := hw 0 (by omega)
    have := pos_eff (p := p) (x := v) (v := if v = true then b 0 ||| 2 ^ p else b 0 &&& c.inv (2 ^ p)) hw ?_ ?_
    · rwa [h3] at this
    · split
      · exact Nat.or_lt_two_pow he (Nat.pow_lt_pow_right (by omega) h2)
      · exact Nat.lt_of_le_of_lt Nat.and_le_left he
    · intro t ht
      rw [h3, h4]; cases v
      · rw [if_neg (by simp)]; exact bit_and_inv _ _ _ ht
      · rw [if_pos rfl]; exact bit_or _ _ _
  · rw [if_neg h1]
    obtain ⟨b', h, he, _⟩ := mSet_eff (v := v) hw hp
    rw [h]; exact ⟨b', rfl, he⟩

theorem reset_eff {c : Cfg} {b : Buf} {p : Nat} (hw : WF c b) (hp : p < c.N) :
    ∃ b', reset c b p = .ok (some b') ∧ Eff c b' (fun i => if i = p then false else bits c b i) := by
  unfold reset; rw [if_pos hp]
  have hl := pos_lt hp
  by_cases h1 : c.ne = 1
  · obtain ⟨h2, h3, h4⟩ := one_pos h1 hp
    rw [if_pos h1]; unfold sReset; rw [sMask_eq h2]
    refine ⟨_, rfl, ?_⟩
    have := pos_eff (p := p) (x := false) (v := b 0 &&& c.inv (2 ^ p)) hw (Nat.lt_of_le_of_lt Nat.and_le_left (hw 0 (by omega))) ?_
    · rwa [h3] at this
    · intro t ht; rw [h3, h4]; exact bit_and_inv _ _ _ ht
  · rw [if_neg h1]; unfold mReset; rw [index_eq, get_ok hl]; dsimp only; rw [put_ok hl]
    refine ⟨_, rfl, pos_eff hw (Nat.lt_of_le_of_lt Nat.and_le_left (hw _ hl)) fun t ht => ?_⟩
    rw [mask_eq]; exact bit_and_inv _ _ _ ht

theorem flip_eff {c : Cfg} {b : Buf} {p : Nat} (hw : WF c b) (hp : p < c.N) :
    ∃ b', flip c b p = .ok (some b') ∧ Eff c b' (fun i => if i = p then !bits c b p else bits c b i) := by
  unfold flip; rw [if_pos hp]
  have hl := pos_lt hp
  by_cases h1 : c.ne = 1
  · obtain ⟨h2, h3, h4⟩ := one_pos h1 hp
    rw [if_pos h1]; unfold sFlip; rw [sMask_eq h2]
    refine ⟨_, rfl, ?_⟩
    have := pos_eff (p := p) (x := !bits c b p) (v := b 0 ^^^ 2 ^ p) hw (Nat.xor_lt_two_pow (hw 0 (by omega)) (Nat.pow_lt_pow_right (by omega) h2)) ?_
    · rwa [h3] at this
    · intro t ht; unfold bits; rw [h3, h4]; exact bit_xor _ _ _
  · rw [if_neg h1]; unfold mFlip; rw [index_eq, get_ok hl]; dsimp only; rw [put_ok hl]
    refine ⟨_, rfl, pos_eff hw (Nat.xor_lt_two_pow (hw _ hl) (by rw [mask_eq]; exact pow_lt)) fun t ht => ?_⟩
    rw [mask_eq]; exact bit_xor _ _ _

theorem test1 {c : Cfg} {b : Buf} {p : Nat} (hp : p < c.N) : (if c.ne = 1 then sTest c (b 0) p else mTest c b p) = .ok (bits c b p) := by
  have hl := pos_lt hp
  by_cases h1 : c.ne = 1
  · obtain ⟨h2, h3, h4⟩ := one_pos h1 hp
    rw [if_pos h1]; unfold sTest bits; rw [sMask_eq h2, h3, h4]; dsimp only; rw [bit_test]
  · rw [if_neg h1]; unfold mTest bits; rw [index_eq, get_ok hl]; dsimp only; rw [mask_eq, bit_test]

theorem test_eff {c : Cfg} {b : Buf} {p : Nat} (hp : p < c.N) : test c b p = .ok (some (bits c b p)) := by
  unfold test; rw [if_pos hp, test1 hp]

theorem toString_eff (c : Cfg) (b : Buf) : toString c b = .ok ((List.range c.N).reverse.map (bits c b)) := by
  unfold toString
  have : ∀ n, n ≤ c.N → toStringLoop c b n = .ok ((List.range n).reverse.map (bits c b)) := by
    intro n
    induction n with
    | zero => intro _; rfl
    | succ n ih =>
      intro h
      simp only [toStringLoop]
      rw [test1 (show n < c.N by omega), ih (by omega), List.range_succ]; simp
  exact this c.N (by omega)

end Etl.Bitset
