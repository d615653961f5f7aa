import Verif.Bitset.Legacy
import Verif.Bitset.Props

/-!
# C113: the legacy bitset is a vector of N bits

The specification has no flag: unlike the new implementation (C26) the legacy one clears the unused bits of its last element wherever they could be set, so every answer is right after every sequence of operations
whose shifts are defined.
-/
namespace Etl.Bitset.Legacy

/-- Operations on numbered bitsets of the same type; `compl x y` is `x = ~y`, `refSet x p y q` is `x[p] = y[q]`, `refFlip x p` is `x[p].flip()`. -/
inductive Op where
  | reset (x : Nat) | setAll (x : Nat) | flipAll (x : Nat) | compl (x y : Nat)
  | set (x p : Nat) (v : Bool) | resetAt (x p : Nat) | flipAt (x p : Nat)
  | refSet (x p y q : Nat) | refFlip (x p : Nat)
  | text (x : Nat) (t : Option (List Bool)) | num (x n : Nat)
  | and (x y : Nat) | or (x y : Nat) | xor (x y : Nat) | assign (x y : Nat) | swap (x y : Nat)
  | shl (x s : Nat) | shr (x s : Nat)

/-! ## The specification -/

/-- The effect on ideal vectors, which are false from `N` on.  A position outside raises the error and changes nothing. -/
def spec (N : Nat) (σ : Nat → Nat → Bool) : Op → Bool × (Nat → Nat → Bool)
  | .reset x => (false, upd σ x fun _ => false)
  | .setAll x => (false, upd σ x fun i => decide (i < N))
  | .flipAll x => (false, upd σ x fun i => decide (i < N) && !σ x i)
  | .compl x y => (false, upd σ x fun i => decide (i < N) && !σ y i)
  | .set x p v => if p < N then (false, upd σ x fun i => if i = p then v else σ x i) else (true, σ)
  | .resetAt x p => if p < N then (false, upd σ x fun i => if i = p then false else σ x i) else (true, σ)
  | .flipAt x p => if p < N then (false, upd σ x fun i => if i = p then !σ x p else σ x i) else (true, σ)
  | .refSet x p y q => if q < N ∧ p < N then (false, upd σ x fun i => if i = p then σ y q else σ x i) else (true, σ)
  | .refFlip x p => if p < N then (false, upd σ x fun i => if i = p then !σ x p else σ x i) else (true, σ)
  | .text x .none => (false, upd σ x fun _ => false)
  | .text x (some t) => (false, upd σ x fun i => ((t.take N).reverse[i]?).getD false)
  | .num x n => (false, upd σ x fun i => decide (i < N) && n.testBit i)
  | .and x y => (false, upd σ x fun i => σ x i && σ y i)
  | .or x y => (false, upd σ x fun i => σ x i || σ y i)
  | .xor x y => (false, upd σ x fun i => σ x i ^^ σ y i)
  | .assign x y => (false, upd σ x (σ y))
  | .swap x y => (false, upd (upd σ x (σ y)) y (σ x))
  | .shl x s => (false, upd σ x fun i => decide (i < N) && decide (s ≤ i) && σ x (i - s))
  | .shr x s => (false, upd σ x fun i => σ x (i + s))

/-- Shifts with defined behaviour: all of them with elements of less than 32 bits. -/
def ShiftOk (c : Cfg) (s : Nat) : Prop := c.w < 32 ∨ s % c.w ≠ 0 ∨ s = c.w ∨ c.N ≤ s ∨ c.N ≤ c.w
/-- Numbers have 64 bits. -/
def Legal (c : Cfg) : Op → Prop
  | .num _ n => n < 2 ^ 64
  | .shl _ s => ShiftOk c s
  | .shr _ s => ShiftOk c s
  | _ => True

def specRun (N : Nat) (σ : Nat → Nat → Bool) : List Op → List Bool × (Nat → Nat → Bool)
  | [] => ([], σ)
  | o :: os => ((spec N σ o).1 :: (specRun N (spec N σ o).2 os).1, (specRun N (spec N σ o).2 os).2)

/-! ## Running the model -/

def exec (c : Cfg) (env : Nat → Buf) : Op → Res (Bool × (Nat → Buf))
  | .reset x => store1 env x (.ok (resetAll c (env x)))
  | .setAll x => store1 env x (setAll c (env x))
  | .flipAll x => store1 env x (flipAll c (env x))
  | .compl x y => store1 env x (flipAll c (env y))
  | .set x p v => store env x (set c (env x) p v)
  | .resetAt x p => store env x (reset c (env x) p)
  | .flipAt x p => store env x (flip c (env x) p)
  -- `bit_reference`, l.191-230
  | .refSet x p y q => match test c (env y) q with
    | .error u => .error u
    | .ok .none => .ok (true, env)
    | .ok (some v) => store env x (set c (env x) p v)
  | .refFlip x p => store env x (flip c (env x) p)
  | .text x t => store1 env x (fromString c (env x) t)
  | .num x n => store1 env x (initialise c (env x) n)
  | .and x y => store1 env x (.ok (andWith c (env x) (env y)))
  | .or x y => store1 env x (.ok (orWith c (env x) (env y)))
  | .xor x y => store1 env x (.ok (xorWith c (env x) (env y)))
  | .assign x y => store1 env x (.ok (assign c (env x) (env y)))
  -- `swap`, l.981-984: `swap_ranges`
  | .swap x y => .ok (false, upd (upd env x (assign c (env x) (env y))) y (assign c (env y) (env x)))
  | .shl x s => store1 env x (shiftLeft c (env x) s)
  | .shr x s => store1 env x (shiftRight c (env x) s)

def run (c : Cfg) (env : Nat → Buf) : List Op → Res (List Bool × (Nat → Buf))
  | [] => .ok ([], env)
  | o :: os => match exec c env o with
    | .error u => .error u
    | .ok r => match run c r.2 os with
      | .error u => .error u
      | .ok q => .ok (r.1 :: q.1, q.2)

/-! ## Effects -/

/-- The bits of the buffer are those of the vector, the unused ones clear. -/
structure Agree (c : Cfg) (b : Buf) (s : Nat → Bool) : Prop where
  wf : WF c b
  act : ∀ i, i < c.ne * c.w → bits c b i = s i
  out : ∀ i, c.N ≤ i → s i = false

theorem agree_mk {c : Cfg} {b : Buf} {f s : Nat → Bool} (h : Eff c b f) (h1 : ∀ i, i < c.ne * c.w → f i = s i) (h2 : ∀ i, c.N ≤ i → s i = false) : Agree c b s :=
  ⟨h.1, fun i hi => by rw [h.2 i hi]; exact h1 i hi, h2⟩

theorem agree_upd {c : Cfg} {env : Nat → Buf} {σ : Nat → Nat → Bool} (h : ∀ x, Agree c (env x) (σ x)) {x : Nat} {b : Buf} {s : Nat → Bool} (hb : Agree c b s) :
    ∀ y, Agree c (upd env x b y) (upd σ x s y) := by
  intro y
  by_cases e : y = x
  · subst e; simpa using hb
  · rw [upd_other _ _ e, upd_other _ _ e]; exact h y

theorem pos_eq {c : Cfg} {p : Nat} (hp : p < c.N) : pos c p = .ok (p / c.w, 2 ^ (p % c.w)) := by
  unfold pos
  by_cases h1 : c.ne = 1
  · obtain ⟨h2, h3, h4⟩ := one_pos h1 hp
    rw [if_pos h1, shl_ok (max_w h2), Nat.one_shiftLeft, cut_eq (Nat.pow_lt_pow_right (by omega) h2), h3, h4]
  · rw [if_neg h1, index_eq, mask_eq]

theorem modify_eff {c : Cfg} {b : Buf} {p : Nat} {f : Nat → Nat → Nat} {x : Bool} (hw : WF c b) (hp : p < c.N) (hv : f (b (p / c.w)) (2 ^ (p % c.w)) < 2 ^ c.w)
    (hb : ∀ t, t < c.w → (f (b (p / c.w)) (2 ^ (p % c.w))).testBit t = if t = p % c.w then x else (b (p / c.w)).testBit t) :
    ∃ b', modify c b p f = .ok b' ∧ Eff c b' (fun i => if i = p then x else bits c b i) := by
  have hl := pos_lt hp
  refine ⟨_, ?_, pos_eff hw hv hb⟩
  unfold modify; rw [pos_eq hp]; dsimp only; rw [get_ok hl]; exact put_ok hl

theorem set_eff {c : Cfg} {b : Buf} {p : Nat} {v : Bool} (hw : WF c b) (hp : p < c.N) : ∃ b', set c b p v = .ok (some b') ∧ Eff c b' (fun i => if i = p then v else bits c b i) := by
  have he := hw _ (pos_lt hp)
  obtain ⟨b', e, h⟩ := modify_eff (f := fun e m => if v then e ||| m else e &&& c.inv m) (x := v) hw hp (by
    split
    · exact Nat.or_lt_two_pow he pow_lt
    · exact Nat.lt_of_le_of_lt Nat.and_le_left he) (fun t ht => by
      cases v
      · rw [if_neg (by simp)]; exact bit_and_inv _ _ _ ht
      · rw [if_pos rfl]; exact bit_or _ _ _)
  exact ⟨b', by unfold set; rw [if_pos hp, e]; rfl, h⟩

theorem reset_eff {c : Cfg} {b : Buf} {p : Nat} (hw : WF c b) (hp : p < c.N) : ∃ b', reset c b p = .ok (some b') ∧ Eff c b' (fun i => if i = p then false else bits c b i) := by
  have he := hw _ (pos_lt hp)
  obtain ⟨b', e, h⟩ := modify_eff (f := fun e m => e &&& c.inv m) (x := false) hw hp (Nat.lt_of_le_of_lt Nat.and_le_left he) (fun t ht => bit_and_inv _ _ _ ht)
  exact ⟨b', by unfold reset; rw [if_pos hp, e]; rfl, h⟩

theorem flip_eff {c : Cfg} {b : Buf} {p : Nat} (hw : WF c b) (hp : p < c.N) : ∃ b', flip c b p = .ok (some b') ∧ Eff c b' (fun i => if i = p then !bits c b p else bits c b i) := by
  have he := hw _ (pos_lt hp)
  obtain ⟨b', e, h⟩ := modify_eff (f := fun e m => e ^^^ m) (x := !bits c b p) hw hp (Nat.xor_lt_two_pow he pow_lt) (fun t ht => bit_xor _ _ _)
  exact ⟨b', by unfold flip; rw [if_pos hp, e]; rfl, h⟩

theorem test_eff {c : Cfg} {b : Buf} {p : Nat} (hp : p < c.N) : test c b p = .ok (some (bits c b p)) := by
  unfold test; rw [if_pos hp, pos_eq hp]; dsimp only; rw [get_ok (pos_lt hp)]; dsimp only; rw [bit_test]; rfl

/-- Clearing the unused bits. -/
theorem clearTop_eff {c : Cfg} {b : Buf} {f : Nat → Bool} (hp : 0 < c.N) (h : Eff c b f) : ∃ b', clearTop c b = .ok b' ∧ Eff c b' (fun i => decide (i < c.N) && f i) := by
  have hne := ne_pos hp
  have hl : c.ne - 1 < c.ne := by omega
  have hN := ne_lt hp
  refine ⟨_, by unfold clearTop; rw [get_ok hl]; exact put_ok hl, eff_mk (fun j hj => ?_) (fun j t hj ht => ?_)⟩
  · by_cases h1 : j = c.ne - 1
    · rw [h1, upd_same]; exact Nat.lt_of_le_of_lt Nat.and_le_left (h.1 _ hl)
    · rw [upd_other _ _ h1]; exact h.1 j hj
  · by_cases h1 : j = c.ne - 1
    · subst h1
      rw [upd_same, Nat.testBit_and, topMask_bit hp, ← h.2 _ (elem_lt hj ht), bits_def ht, Bool.and_comm]
      congr 1
      have : (t < top c) = ((c.ne - 1) * c.w + t < c.N) := by unfold top; apply propext; omega
      rw [decide_eq_decide]; exact iff_of_eq this
    · rw [upd_other _ _ h1, ← h.2 _ (elem_lt hj ht), bits_def ht]
      have := Nat.mul_le_mul_right c.w (show j + 1 ≤ c.ne - 1 by omega)
      rw [Nat.add_mul] at this
      rw [decide_eq_true (by omega), Bool.true_and]

theorem resetAll_eff (c : Cfg) (b : Buf) : Eff c (resetAll c b) (fun _ => false) := by
  have h := each_mapLoop c (fun _ _ => 0) b
  exact eff_mk (wf_each h fun _ _ => Nat.two_pow_pos _) fun j t hj _ => by
    show ((mapLoop (fun _ _ => 0) c.ne 0 b) j).testBit t = false
    rw [h j hj, Nat.zero_testBit]

theorem setAll_eff {c : Cfg} (hp : 0 < c.N) (b : Buf) : ∃ b', setAll c b = .ok b' ∧ Eff c b' (fun i => decide (i < c.N)) := by
  have hne := ne_pos hp
  have hN := ne_lt hp
  have hl : c.ne - 1 < c.ne := by omega
  refine ⟨_, put_ok hl, eff_mk (fun j hj => ?_) (fun j t hj ht => ?_)⟩
  · by_cases h1 : j = c.ne - 1
    · rw [h1, upd_same]; exact topMask_lt
    · rw [upd_other _ _ h1, mapLoop_get, if_pos (by omega)]; exact allSet_lt c
  · by_cases h1 : j = c.ne - 1
    · rw [h1, upd_same, topMask_bit hp, decide_eq_decide]; unfold top; omega
    · rw [upd_other _ _ h1, mapLoop_get, if_pos (by omega), allSet_bit, decide_eq_decide]
      have := Nat.mul_le_mul_right c.w (show j + 1 ≤ c.ne - 1 by omega)
      rw [Nat.add_mul] at this; omega

theorem flipAll_eff {c : Cfg} {b : Buf} (hp : 0 < c.N) (hw : WF c b) : ∃ b', flipAll c b = .ok b' ∧ Eff c b' (fun i => decide (i < c.N) && !bits c b i) := by
  have h := each_mapLoop c (fun _ e => c.inv e) b
  exact clearTop_eff hp (eff_mk (wf_each h fun j hj => inv_lt (hw j hj)) fun j t hj ht => by rw [h j hj, inv_bit, bits_def ht]; simp [ht])

theorem andWith_eff {c : Cfg} {a b : Buf} (hw : WF c a) : Eff c (andWith c a b) (fun i => bits c a i && bits c b i) := by
  have h := each_mapLoop c (fun i e => e &&& b i) a
  exact eff_mk (wf_each h fun j hj => Nat.lt_of_le_of_lt Nat.and_le_left (hw j hj)) fun j t hj ht => by
    unfold andWith; rw [h j hj, bits_def ht, bits_def ht, Nat.testBit_and]
theorem orWith_eff {c : Cfg} {a b : Buf} (hw : WF c a) (hb : WF c b) : Eff c (orWith c a b) (fun i => bits c a i || bits c b i) := by
  have h := each_mapLoop c (fun i e => e ||| b i) a
  exact eff_mk (wf_each h fun j hj => Nat.or_lt_two_pow (hw j hj) (hb j hj)) fun j t hj ht => by
    unfold orWith; rw [h j hj, bits_def ht, bits_def ht, Nat.testBit_or]
theorem xorWith_eff {c : Cfg} {a b : Buf} (hw : WF c a) (hb : WF c b) : Eff c (xorWith c a b) (fun i => bits c a i ^^ bits c b i) := by
  have h := each_mapLoop c (fun i e => e ^^^ b i) a
  exact eff_mk (wf_each h fun j hj => Nat.xor_lt_two_pow (hw j hj) (hb j hj)) fun j t hj ht => by
    unfold xorWith; rw [h j hj, bits_def ht, bits_def ht, Nat.testBit_xor]
theorem assign_eff {c : Cfg} {a b : Buf} (hb : WF c b) : Eff c (assign c a b) (fun i => bits c b i) := by
  have h := each_mapLoop c (fun i _ => b i) a
  exact eff_mk (wf_each h fun j hj => hb j hj) fun j t hj ht => by unfold assign; rw [h j hj, bits_def ht]

theorem textLoop_eff {c : Cfg} (n : Nat) : ∀ (t : List Bool) (b : Buf), WF c b → n ≤ c.N → n ≤ t.length →
    ∃ b', textLoop c t n b = .ok b' ∧ Eff c b' (fun i => if i < n then (t[n - 1 - i]?).getD false else bits c b i) := by
  induction n with
  | zero => intro t b hw _ _; exact ⟨b, by cases t <;> rfl, hw, fun i _ => by simp⟩
  | succ n ih =>
    intro t b hw h1 h2
    cases t with
    | nil => simp at h2
    | cons ch t =>
      obtain ⟨b1, e1, ef1⟩ := set_eff (v := ch) hw (show n < c.N by omega)
      obtain ⟨b2, e2, ef2⟩ := ih t b1 ef1.1 (by omega) (by simp at h2; omega)
      refine ⟨b2, by simp only [textLoop, e1, e2], ef2.1, fun i hi => ?_⟩
      rw [ef2.2 i hi]; dsimp only
      by_cases h3 : i < n
      · have : n - i = (n - 1 - i) + 1 := by omega
        simp [h3, show i < n + 1 by omega, this]
      · rw [if_neg h3, ef1.2 i hi]; dsimp only
        by_cases h4 : i = n
        · subst h4; simp
        · rw [if_neg h4, if_neg (by omega)]

theorem fromString_eff {c : Cfg} (b : Buf) (t : List Bool) : ∃ b', fromString c b (some t) = .ok b' ∧ Eff c b' (fun i => ((t.take c.N).reverse[i]?).getD false) := by
  obtain ⟨b', e, ef⟩ := textLoop_eff (c := c) (min c.N t.length) t (resetAll c b) (resetAll_eff c b).1 (by omega) (by omega)
  refine ⟨b', e, ef.1, fun i hi => ?_⟩
  rw [ef.2 i hi]; dsimp only; rw [← textBit_spec]; unfold textBit
  by_cases h : i < min c.N t.length
  · rw [if_pos h, decide_eq_true h, Bool.true_and]
  · rw [if_neg h, decide_eq_false h, (resetAll_eff c b).2 i hi, Bool.false_and]

theorem initLoop_get (c : Cfg) (n : Nat) : ∀ (i v : Nat) (b : Buf) (j : Nat), initLoop c n i v b j = if i ≤ j ∧ j < i + n ∧ v >>> ((j - i) * c.w) ≠ 0 then (v >>> ((j - i) * c.w)) &&& c.allSet else b j := by
  induction n with
  | zero => intro i v b j; simp only [initLoop]; rw [if_neg (by omega)]
  | succ n ih =>
    intro i v b j
    simp only [initLoop]
    by_cases hv : v ≠ 0
    · rw [if_pos hv, ih]
      by_cases h : j = i
      · subst h; rw [if_neg (by omega), upd_same, if_pos ⟨by omega, by omega, by simpa using hv⟩]; simp
      · rw [upd_other _ _ h]
        by_cases h1 : i + 1 ≤ j
        · have e : v >>> c.w >>> ((j - (i + 1)) * c.w) = v >>> ((j - i) * c.w) := by
            rw [← Nat.shiftRight_add]; congr 1
            conv_rhs => rw [show j - i = j - (i + 1) + 1 by omega, Nat.add_mul, Nat.one_mul]
            omega
          rw [e]
          by_cases h2 : j < i + 1 + n ∧ v >>> ((j - i) * c.w) ≠ 0
          · rw [if_pos ⟨h1, h2⟩, if_pos ⟨by omega, by omega, h2.2⟩]
          · rw [if_neg (fun hh => h2 hh.2), if_neg (fun hh => h2 ⟨by omega, hh.2.2⟩)]
        · rw [if_neg (by omega), if_neg (by omega)]
    · have : v = 0 := by simpa using hv
      rw [if_neg hv, if_neg]; rw [this]; simp

theorem initialise_eff {c : Cfg} (hc : Ok c) (b : Buf) {v : Nat} (hv : v < 2 ^ 64) : ∃ b', initialise c b v = .ok b' ∧ Eff c b' (fun i => decide (i < c.N) && v.testBit i) := by
  have hp := hc.pos
  have hne := ne_pos hp
  have hr := each_mapLoop c (fun _ _ => 0) b
  unfold initialise
  by_cases hw : 64 ≤ c.w
  · rw [if_pos hw, put_ok hne]
    have hw64 : c.w = 64 := by rcases w_cases hc with h | h | h | h <;> omega
    refine clearTop_eff hp (eff_mk (fun j hj => ?_) (fun j t hj ht => ?_))
    · by_cases h : j = 0
      · rw [h, upd_same]; exact cut_lt _ _
      · rw [upd_other _ _ h]; unfold resetAll; rw [hr j hj]; exact Nat.two_pow_pos _
    · by_cases h : j = 0
      · rw [h, upd_same, testBit_cut]; simp [ht]
      · rw [upd_other _ _ h]; unfold resetAll; rw [hr j hj, Nat.zero_testBit]; symm
        refine Binary.testBit_ge hv ?_
        have := Nat.le_mul_of_pos_left c.w (show 0 < j by omega)
        omega
  · rw [if_neg hw]
    have hg : ∀ j, j < c.ne → initLoop c c.ne 0 v (resetAll c b) j = (v >>> (j * c.w)) &&& c.allSet := by
      intro j hj
      rw [initLoop_get]
      by_cases h : v >>> ((j - 0) * c.w) ≠ 0
      · rw [if_pos ⟨by omega, by omega, h⟩]; rfl
      · rw [if_neg (fun hh => h hh.2.2)]; unfold resetAll; rw [hr j hj]
        have : v >>> (j * c.w) = 0 := by simpa using h
        rw [this, Nat.zero_and]
    refine clearTop_eff hp (eff_mk (fun j hj => ?_) (fun j t hj ht => ?_))
    · rw [hg j hj]; exact Nat.lt_of_le_of_lt Nat.and_le_right (allSet_lt c)
    · rw [hg j hj, Nat.testBit_and, allSet_bit, Nat.testBit_shiftRight]; simp [ht]

/-! ## Shifts -/

theorem upLoop_get (i : Nat) : ∀ (b : Buf) (j : Nat), upLoop i b j = if 1 ≤ j ∧ j ≤ i then b (j - 1) else b j := by
  induction i with
  | zero => intro b j; rw [if_neg (by omega)]; rfl
  | succ i ih =>
    intro b j; simp only [upLoop]; rw [ih]
    by_cases h : 1 ≤ j ∧ j ≤ i
    · rw [if_pos h, if_pos (by omega), upd_other _ _ (by omega)]
    · rw [if_neg h]
      by_cases h2 : j = i + 1
      · rw [h2, upd_same, if_pos (by omega)]; rfl
      · rw [upd_other _ _ h2, if_neg (by omega)]

theorem downLoop_get (n : Nat) : ∀ (i : Nat) (b : Buf) (j : Nat), downLoop n i b j = if i ≤ j ∧ j < i + n then b (j + 1) else b j := by
  induction n with
  | zero => intro i b j; rw [if_neg (by omega)]; rfl
  | succ n ih =>
    intro i b j; simp only [downLoop]; rw [ih]
    by_cases h : i + 1 ≤ j ∧ j < i + 1 + n
    · rw [if_pos h, if_pos (by omega), upd_other _ _ (by omega)]
    · rw [if_neg h]
      by_cases h2 : j = i
      · rw [h2, upd_same, if_pos (by omega)]
      · rw [upd_other _ _ h2, if_neg (by omega)]

theorem shiftLeft_eff {c : Cfg} {b : Buf} {s : Nat} (hw : WF c b) (hp : 0 < c.N) (hd : ShiftOk c s) :
    ∃ b', shiftLeft c b s = .ok b' ∧ Eff c b' (fun i => decide (i < c.N) && (decide (s < c.N) && decide (s ≤ i) && bits c b (i - s))) := by
  unfold shiftLeft
  by_cases h1 : s ≥ c.N
  · rw [if_pos h1]
    refine ⟨_, rfl, (resetAll_eff c b).1, fun i hi => ?_⟩
    rw [(resetAll_eff c b).2 i hi, decide_eq_false (show ¬ s < c.N by omega)]; simp
  · have hne := ne_pos hp
    rw [if_neg h1, if_neg (by omega)]
    by_cases h2 : c.ne ≠ 1 ∧ s = c.w
    · rw [if_neg h2.1, if_pos h2.2]
      refine clearTop_eff hp (eff_mk (fun j hj => ?_) (fun j t hj ht => ?_))
      · by_cases h : j = 0
        · rw [h, upd_same]; exact Nat.two_pow_pos _
        · rw [upd_other _ _ h, upLoop_get, if_pos (by omega)]; exact hw _ (by omega)
      · by_cases h : j = 0
        · rw [h, upd_same, Nat.zero_testBit, decide_eq_false (show ¬ s ≤ 0 * c.w + t by omega)]; simp
        · have e : j * c.w = (j - 1) * c.w + c.w := by conv_lhs => rw [show j = j - 1 + 1 by omega, Nat.add_mul, Nat.one_mul]
          rw [upd_other _ _ h, upLoop_get, if_pos (by omega), decide_eq_true (show s < c.N by omega), decide_eq_true (show s ≤ j * c.w + t by omega), ← bits_def ht]
          simp only [Bool.true_and]; congr 1; omega
    · have e : (if c.ne = 1 then one b (c.shl (b 0) s) else if s = c.w then .ok (upd (upLoop (c.ne - 1) b) 0 0) else mShl c b s) = Bitset.shiftLeft c b s := by
        unfold Bitset.shiftLeft; rw [if_neg h1]
        by_cases h3 : c.ne = 1
        · rw [if_pos h3, if_pos h3]
        · rw [if_neg h3, if_neg h3, if_neg (fun hh => h2 ⟨h3, hh⟩)]
      rw [e]
      obtain ⟨b', e', ef⟩ := Bitset.shiftLeft_eff (s := s) hw hp (by
        rw [ne_one_iff hp]
        rcases hd with h | h | h | h | h
        · exact .inl h
        · exact .inr (.inl h)
        · have := ne_one_iff (c := c) hp; right; right; right; omega
        · omega
        · exact .inr (.inr (.inr h)))
      rw [e']
      exact clearTop_eff hp ef

theorem shiftRight_eff {c : Cfg} {b : Buf} {s : Nat} (hw : WF c b) (hp : 0 < c.N) (hd : ShiftOk c s) :
    ∃ b', shiftRight c b s = .ok b' ∧ Eff c b' (fun i => decide (s < c.N) && decide (i + s < c.ne * c.w) && bits c b (i + s)) := by
  have hne := ne_pos hp
  by_cases h2 : s < c.N ∧ c.ne ≠ 1 ∧ s = c.w
  · unfold shiftRight
    rw [if_neg (by omega), if_neg (by omega), if_neg h2.2.1, if_pos h2.2.2]
    refine ⟨_, rfl, eff_mk (fun j hj => ?_) (fun j t hj ht => ?_)⟩
    · by_cases h : j = c.ne - 1
      · rw [h, upd_same]; exact Nat.two_pow_pos _
      · rw [upd_other _ _ h, downLoop_get, if_pos (by omega)]; exact hw _ (by omega)
    · have e : (j + 1) * c.w = j * c.w + c.w := by rw [Nat.add_mul, Nat.one_mul]
      by_cases h : j = c.ne - 1
      · rw [h, upd_same, Nat.zero_testBit, decide_eq_false (show ¬ (c.ne - 1) * c.w + t + s < c.ne * c.w by rw [ne_succ_mul hp]; omega)]; simp
      · have := Nat.mul_le_mul_right c.w (show j + 1 + 1 ≤ c.ne by omega)
        rw [Nat.add_mul (j + 1)] at this
        rw [upd_other _ _ h, downLoop_get, if_pos (by omega), decide_eq_true h2.1, decide_eq_true (by omega), ← bits_def ht]
        simp only [Bool.true_and]; congr 1; omega
  · have e : shiftRight c b s = Bitset.shiftRight c b s := by
      unfold shiftRight Bitset.shiftRight
      by_cases h1 : s ≥ c.N
      · rw [if_pos h1, if_pos h1]; unfold resetAll Bitset.resetAll
        by_cases h3 : c.ne = 1
        · rw [if_pos h3, h3]; rfl
        · rw [if_neg h3]
      · rw [if_neg h1, if_neg h1, if_neg (by omega)]
        by_cases h3 : c.ne = 1
        · rw [if_pos h3, if_pos h3]
        · rw [if_neg h3, if_neg h3, if_neg (fun hh => h2 ⟨by omega, h3, hh⟩)]
    rw [e]
    refine Bitset.shiftRight_eff hw hp ?_
    rw [ne_one_iff hp]
    have := ne_one_iff (c := c) hp
    rcases hd with h | h | h | h | h
    · exact .inl h
    · exact .inr (.inl h)
    · omega
    · exact .inr (.inr (.inl h))
    · exact .inr (.inr (.inr h))

/-! ## Histories -/

/-- One operation keeps the bitsets in agreement with the vectors. -/
theorem step {c : Cfg} (hc : Ok c) {env : Nat → Buf} {σ : Nat → Nat → Bool} (h : ∀ x, Agree c (env x) (σ x)) {o : Op} (hl : Legal c o) :
    ∃ env', exec c env o = .ok ((spec c.N σ o).1, env') ∧ ∀ x, Agree c (env' x) ((spec c.N σ o).2 x) := by
  have hp := hc.pos
  have hN := N_le c
  have setCase : ∀ x p v, ∃ env', store env x (set c (env x) p v) = .ok ((spec c.N σ (.set x p v)).1, env') ∧ ∀ z, Agree c (env' z) ((spec c.N σ (.set x p v)).2 z) := by
    intro x p v
    simp only [spec]
    by_cases hq : p < c.N
    · rw [if_pos hq]
      obtain ⟨b, e, ef⟩ := set_eff (v := v) (h x).wf hq
      rw [e]
      refine ⟨_, rfl, agree_upd h (agree_mk ef (fun i hi => ?_) (fun i hi => ?_))⟩
      · rw [(h x).act i hi]
      · rw [if_neg (by omega)]; exact (h x).out i hi
    · rw [if_neg hq]; unfold set; rw [if_neg hq]; exact ⟨env, rfl, h⟩
  have flipCase : ∀ x p, ∃ env', store env x (flip c (env x) p) = .ok ((spec c.N σ (.flipAt x p)).1, env') ∧ ∀ z, Agree c (env' z) ((spec c.N σ (.flipAt x p)).2 z) := by
    intro x p
    simp only [spec]
    by_cases hq : p < c.N
    · rw [if_pos hq]
      obtain ⟨b, e, ef⟩ := flip_eff (h x).wf hq
      rw [e]
      refine ⟨_, rfl, agree_upd h (agree_mk ef (fun i hi => ?_) (fun i hi => ?_))⟩
      · rw [(h x).act i hi, (h x).act p (by omega)]
      · rw [if_neg (by omega)]; exact (h x).out i hi
    · rw [if_neg hq]; unfold flip; rw [if_neg hq]; exact ⟨env, rfl, h⟩
  have complCase : ∀ x y, ∃ env', store1 env x (flipAll c (env y)) = .ok (false, env') ∧ ∀ z, Agree c (env' z) (upd σ x (fun i => decide (i < c.N) && !σ y i) z) := by
    intro x y
    obtain ⟨b, e, ef⟩ := flipAll_eff hp (h y).wf
    rw [e]
    refine ⟨_, rfl, agree_upd h (agree_mk ef (fun i hi => ?_) (fun i hi => ?_))⟩
    · rw [(h y).act i hi]
    · rw [decide_eq_false (by omega)]; rfl
  cases o with
  | reset x => exact ⟨_, rfl, agree_upd h (agree_mk (resetAll_eff c _) (fun _ _ => rfl) (fun _ _ => rfl))⟩
  | setAll x =>
    obtain ⟨b, e, ef⟩ := setAll_eff hp (env x)
    simp only [exec, spec, e]
    exact ⟨_, rfl, agree_upd h (agree_mk ef (fun _ _ => rfl) (fun i hi => decide_eq_false (by omega)))⟩
  | flipAll x => exact complCase x x
  | compl x y => exact complCase x y
  | set x p v => exact setCase x p v
  | resetAt x p =>
    simp only [exec, spec]
    by_cases hq : p < c.N
    · rw [if_pos hq]
      obtain ⟨b, e, ef⟩ := reset_eff (h x).wf hq
      rw [e]
      refine ⟨_, rfl, agree_upd h (agree_mk ef (fun i hi => ?_) (fun i hi => ?_))⟩
      · rw [(h x).act i hi]
      · rw [if_neg (by omega)]; exact (h x).out i hi
    · rw [if_neg hq]; unfold reset; rw [if_neg hq]; exact ⟨env, rfl, h⟩
  | flipAt x p => exact flipCase x p
  | refFlip x p => exact flipCase x p
  | refSet x p y q =>
    simp only [exec]
    by_cases hq : q < c.N
    · rw [test_eff hq]; dsimp only
      rw [(h y).act q (by omega)]
      obtain ⟨env', e, h'⟩ := setCase x p (σ y q)
      have es : spec c.N σ (.refSet x p y q) = spec c.N σ (.set x p (σ y q)) := by
        simp only [spec]
        by_cases hr : p < c.N
        · rw [if_pos ⟨hq, hr⟩, if_pos hr]
        · rw [if_neg (fun hh => hr hh.2), if_neg hr]
      rw [es]; exact ⟨env', e, h'⟩
    · have e1 : test c (env y) q = .ok Option.none := by unfold test; rw [if_neg hq]
      have e2 : spec c.N σ (.refSet x p y q) = (true, σ) := by simp only [spec]; rw [if_neg (fun hh => hq hh.1)]
      rw [e1, e2]; exact ⟨env, rfl, h⟩
  | text x t =>
    cases t with
    | none => exact ⟨_, rfl, agree_upd h (agree_mk (resetAll_eff c _) (fun _ _ => rfl) (fun _ _ => rfl))⟩
    | some t =>
      obtain ⟨b, e, ef⟩ := fromString_eff (c := c) (env x) t
      simp only [exec, spec, e]
      refine ⟨_, rfl, agree_upd h (agree_mk ef (fun _ _ => rfl) (fun i hi => ?_))⟩
      rw [← textBit_spec]; unfold textBit; rw [decide_eq_false (by omega), Bool.false_and]
  | num x n =>
    obtain ⟨b, e, ef⟩ := initialise_eff hc (env x) hl
    simp only [exec, spec, e]
    exact ⟨_, rfl, agree_upd h (agree_mk ef (fun _ _ => rfl) (fun i hi => by rw [decide_eq_false (by omega)]; rfl))⟩
  | and x y =>
    refine ⟨_, rfl, agree_upd h (agree_mk (andWith_eff (h x).wf) (fun i hi => ?_) (fun i hi => ?_))⟩
    · rw [(h x).act i hi, (h y).act i hi]
    · rw [(h x).out i hi]; rfl
  | or x y =>
    refine ⟨_, rfl, agree_upd h (agree_mk (orWith_eff (h x).wf (h y).wf) (fun i hi => ?_) (fun i hi => ?_))⟩
    · rw [(h x).act i hi, (h y).act i hi]
    · rw [(h x).out i hi, (h y).out i hi]; rfl
  | xor x y =>
    refine ⟨_, rfl, agree_upd h (agree_mk (xorWith_eff (h x).wf (h y).wf) (fun i hi => ?_) (fun i hi => ?_))⟩
    · rw [(h x).act i hi, (h y).act i hi]
    · rw [(h x).out i hi, (h y).out i hi]; rfl
  | assign x y => exact ⟨_, rfl, agree_upd h (agree_mk (assign_eff (h y).wf) (h y).act (h y).out)⟩
  | swap x y =>
    exact ⟨_, rfl, agree_upd (agree_upd h (agree_mk (assign_eff (h y).wf) (h y).act (h y).out)) (agree_mk (assign_eff (h x).wf) (h x).act (h x).out)⟩
  | shl x s =>
    obtain ⟨b, e, ef⟩ := shiftLeft_eff (s := s) (h x).wf hp hl
    simp only [exec, spec, e]
    refine ⟨_, rfl, agree_upd h (agree_mk ef (fun i hi => ?_) (fun i hi => ?_))⟩
    · by_cases h1 : i < c.N
      · by_cases h2 : s ≤ i
        · rw [decide_eq_true h1, decide_eq_true h2, decide_eq_true (show s < c.N by omega), (h x).act _ (by omega)]; rfl
        · rw [decide_eq_false h2]; simp
      · rw [decide_eq_false h1]; simp
    · rw [decide_eq_false (by omega)]; rfl
  | shr x s =>
    obtain ⟨b, e, ef⟩ := shiftRight_eff (s := s) (h x).wf hp hl
    simp only [exec, spec, e]
    refine ⟨_, rfl, agree_upd h (agree_mk ef (fun i hi => ?_) (fun i hi => (h x).out _ (by omega)))⟩
    by_cases h1 : i + s < c.N
    · rw [decide_eq_true (show s < c.N by omega), decide_eq_true (show i + s < c.ne * c.w by omega), (h x).act _ (by omega)]; rfl
    · rw [(h x).out _ (by omega)]
      by_cases h2 : i + s < c.ne * c.w
      · rw [(h x).act _ h2, (h x).out _ (by omega)]; simp
      · rw [decide_eq_false h2]; simp

theorem run_agree {c : Cfg} (hc : Ok c) (os : List Op) : ∀ {env : Nat → Buf} {σ : Nat → Nat → Bool}, (∀ x, Agree c (env x) (σ x)) → (∀ o ∈ os, Legal c o) →
    ∃ env', run c env os = .ok ((specRun c.N σ os).1, env') ∧ ∀ x, Agree c (env' x) ((specRun c.N σ os).2 x) := by
  induction os with
  | nil => intro env σ h _; exact ⟨env, rfl, h⟩
  | cons o os ih =>
    intro env σ h hl
    obtain ⟨e1, f1, h1⟩ := step hc h (hl o (by simp))
    obtain ⟨e2, f2, h2⟩ := ih h1 (fun o ho => hl o (by simp [ho]))
    exact ⟨e2, by simp only [run, f1, f2, specRun], h2⟩

/-! ## The answers -/

/-- `find_next` shifts the `int` 1, in a bitset of one element by the position itself. -/
def FindOk (c : Cfg) (p : Nat) : Prop := if c.N ≤ c.w then p < 31 ∨ (p = 31 ∧ c.w ≤ 32) else c.w ≤ 32 ∨ p % c.w < 31

/-- What a caller can see of a bitset, if it is the vector `s` of `N` bits. -/
structure Answers (c : Cfg) (b : Buf) (s : Nat → Bool) : Prop where
  test : ∀ p, test c b p = .ok (if p < c.N then some (s p) else .none)
  all : all c b = true ↔ ∀ i, i < c.N → s i = true
  any : any c b = true ↔ ∃ i, i < c.N ∧ s i = true
  none : none c b = true ↔ ∀ i, i < c.N → s i = false
  count : count c b = (List.range c.N).countP s
  string : toString c b = .ok ((List.range c.N).reverse.map s)
  find : ∀ state p, FindOk c p → ∃ r, findNext c b state p = .ok r ∧ IsNext c.N s state p r
  number : ∀ tb, c.ne * c.w ≤ tb → ∃ n, value c tb b = some n ∧ ∀ i, n.testBit i = s i
  short : ∀ tb, tb < c.ne * c.w → value c tb b = .none

theorem none_new (c : Cfg) (b : Buf) : none c b = Bitset.none c b := by
  unfold none Bitset.none
  split
  · next h =>
    rw [h]; simp only [noneLoop]
    by_cases h2 : b 0 = 0 <;> simp [h2]
  · rfl

theorem count_new (c : Cfg) (b : Buf) : count c b = Bitset.count c b := by
  unfold count Bitset.count
  split
  · next h => rw [h]; simp [countLoop]
  · rfl

theorem equal_new (c : Cfg) (a b : Buf) : equal c a b = Bitset.equal c a b := by
  unfold equal Bitset.equal
  split
  · next h =>
    rw [h]; simp only [eqLoop]
    by_cases h2 : a 0 = b 0 <;> simp [h2]
  · rfl

theorem value_new {c : Cfg} {b : Buf} {tb : Nat} (hp : 0 < c.N) (ht : c.ne * c.w ≤ tb) : value c tb b = Bitset.value c tb b := by
  unfold value Bitset.value
  rw [if_neg (by omega), if_neg (by omega)]
  split
  · next h => rw [h]; simp [mValueLoop]
  · rfl

/-- If the unused bits are clear the last element is all of the mask exactly if its low bits are set. -/
theorem all_new {c : Cfg} {b : Buf} {s : Nat → Bool} (hp : 0 < c.N) (h : Agree c b s) : all c b = Bitset.all c b := by
  have hne := ne_pos hp
  have hl : c.ne - 1 < c.ne := by omega
  have top1 : b (c.ne - 1) &&& c.topMask = b (c.ne - 1) := by
    apply Nat.eq_of_testBit_eq; intro t
    rw [Nat.testBit_and, topMask_bit hp]
    by_cases h1 : t < top c
    · simp [h1]
    · have : (b (c.ne - 1)).testBit t = false := by
        by_cases h2 : t < c.w
        · rw [← bits_def h2, h.act _ (elem_lt hl h2)]
          apply h.out; unfold top at h1; omega
        · exact Binary.testBit_ge (h.wf _ hl) (by omega)
      rw [this]; rfl
  have top2 : c.allSet &&& c.topMask = c.topMask := by
    apply Nat.eq_of_testBit_eq; intro t
    rw [Nat.testBit_and, topMask_bit hp, allSet_bit]
    have := (top_pos hp).2
    by_cases h1 : t < top c
    · simp [h1, show t < c.w by omega]
    · simp [h1]
  have key : ∀ n i, i + n = c.ne - 1 → allLoop c b n i = Bitset.allLoop c b n i := by
    intro n
    induction n with
    | zero => intro i hi; simp only [allLoop, Bitset.allLoop]; rw [show i = c.ne - 1 by omega, top1, top2]
    | succ n ih => intro i hi; simp only [allLoop, Bitset.allLoop]; rw [ih (i + 1) (by omega)]
  unfold all Bitset.all
  rw [if_neg (by omega), key _ 0 (by omega)]
  split
  · next h1 => rw [h1]; rfl
  · rfl

theorem toString_eff (c : Cfg) (b : Buf) : toString c b = .ok ((List.range c.N).reverse.map (bits c b)) := by
  unfold toString
  have : ∀ n, n ≤ c.N → toStringLoop c b n = .ok ((List.range n).reverse.map (bits c b)) := by
    intro n
    induction n with
    | zero => intro _; rfl
    | succ n ih =>
      intro h
      simp only [toStringLoop]
      rw [test_eff (show n < c.N by omega), ih (by omega), List.range_succ]; simp
  exact this c.N (by omega)

theorem findNext_eff {c : Cfg} {b : Buf} {state : Bool} {p : Nat} (hw : WF c b) (hp : 0 < c.N) (hd : FindOk c p) : ∃ r, findNext c b state p = .ok r ∧ IsNext c.N (bits c b) state p r := by
  have hne := ne_pos hp
  unfold FindOk at hd
  unfold findNext
  rw [if_neg (by omega)]
  by_cases h1 : c.ne = 1
  · have hN := ne_one h1
    rw [if_pos hN] at hd
    rw [if_pos h1]
    by_cases h2 : p < c.w
    · rw [intShl_eq h2 (by omega)]
      have := mFindLoop_next (state := state) hw 1 0 p (by omega) h2
      rw [Nat.zero_mul, Nat.zero_add] at this
      exact ⟨_, rfl, this⟩
    · have e : ∃ m, c.intShl p = .ok m := by
        unfold Cfg.intShl
        by_cases h3 : p < 31
        · rw [if_pos h3]; exact ⟨_, rfl⟩
        · rw [if_neg h3, if_pos (by omega)]; exact ⟨_, rfl⟩
      obtain ⟨m, e⟩ := e
      rw [e]
      have g : mFindLoop c b state 1 0 p p m = Option.none := by
        have z : c.w - p = 0 := by omega
        simp only [mFindLoop, mFindElem, z, mFindBits]
        split <;> simp
      exact ⟨_, rfl, by rw [g]; intro i h3 h4; omega⟩
  · have hN : ¬ c.N ≤ c.w := fun hh => h1 ((ne_one_iff hp).mpr hh)
    rw [if_neg hN] at hd
    obtain ⟨r, e, hr⟩ := Bitset.findNext_eff (state := state) (p := p) hw hp (by omega) (by omega)
    unfold Bitset.findNext at e
    rw [if_neg h1] at e ⊢
    exact ⟨r, e, hr⟩

theorem answers {c : Cfg} (hc : Ok c) {b : Buf} {s : Nat → Bool} (h : Agree c b s) : Answers c b s := by
  have hp := hc.pos
  have hN := N_le c
  have hn : none c b = true ↔ ∀ i, i < c.N → s i = false := by
    rw [none_new, none_eff h.wf]
    exact ⟨fun g i hi => by rw [← h.act i (by omega)]; exact g i (by omega), fun g i hi => by
      rw [h.act i hi]
      by_cases h1 : i < c.N
      · exact g i h1
      · exact h.out i (by omega)⟩
  refine ⟨fun p => ?_, ?_, ?_, hn, ?_, ?_, fun state p hd => ?_, fun tb ht => ?_, fun tb ht => ?_⟩
  · by_cases h1 : p < c.N
    · rw [if_pos h1, test_eff h1, h.act p (by omega)]
    · rw [if_neg h1]; unfold test; rw [if_neg h1]
  · rw [all_new hp h, all_eff hp h.wf]
    exact ⟨fun g i hi => by rw [← h.act i (by omega)]; exact g i hi, fun g i hi => by rw [h.act i (by omega)]; exact g i hi⟩
  · unfold any
    cases hq : none c b
    · simp only [Bool.not_false, true_iff]
      by_contra hh
      rw [hq] at hn
      refine Bool.false_ne_true (hn.mpr fun i hi => ?_)
      by_contra h2; exact hh ⟨i, hi, by simpa using h2⟩
    · simp only [Bool.not_true, Bool.false_eq_true, false_iff]
      rintro ⟨i, h1, h2⟩
      have := hn.mp hq i h1
      rw [h2] at this; simp at this
  · rw [count_new, count_eff hc h.wf, show c.ne * c.w = c.N + (c.ne * c.w - c.N) by omega, List.range_add, List.countP_append]
    have : List.countP (bits c b) (List.map (fun x => c.N + x) (List.range (c.ne * c.w - c.N))) = 0 := by
      rw [List.countP_eq_zero]
      intro i hi
      simp only [List.mem_map, List.mem_range] at hi
      obtain ⟨k, hk, rfl⟩ := hi
      rw [h.act _ (by omega), h.out _ (by omega)]; simp
    rw [this, Nat.add_zero]
    apply List.countP_congr
    intro i hi; rw [List.mem_range] at hi; rw [h.act i (by omega)]
  · rw [toString_eff]; congr 1
    apply List.map_congr_left
    intro i hi; simp only [List.mem_reverse, List.mem_range] at hi; exact h.act i (by omega)
  · obtain ⟨r, e, g⟩ := findNext_eff (state := state) (p := p) h.wf hp hd
    refine ⟨r, e, ?_⟩
    cases r with
    | none => intro i h1 h2; rw [← h.act i (by omega)]; exact g i h1 h2
    | some q =>
      obtain ⟨g1, g2, g3, g4⟩ := g
      exact ⟨g1, g2, by rw [← h.act q (by omega)]; exact g3, fun i h1 h2 => by rw [← h.act i (by omega)]; exact g4 i h1 h2⟩
  · obtain ⟨n, e, g1, g2⟩ := value_eff hp h.wf ht
    refine ⟨n, by rw [value_new hp ht]; exact e, fun i => ?_⟩
    by_cases h1 : i < c.ne * c.w
    · rw [g2 i h1, h.act i h1]
    · rw [h.out i (by omega)]; exact Binary.testBit_ge g1 (by omega)
  · unfold value; rw [if_pos ht]

theorem equal_agree {c : Cfg} {a b : Buf} {s r : Nat → Bool} (ha : Agree c a s) (hb : Agree c b r) : equal c a b = true ↔ ∀ i, i < c.N → s i = r i := by
  have hN := N_le c
  rw [equal_new, equal_eff ha.wf hb.wf]
  exact ⟨fun g i hi => by rw [← ha.act i (by omega), ← hb.act i (by omega)]; exact g i (by omega), fun g i hi => by
    rw [ha.act i hi, hb.act i hi]
    by_cases h1 : i < c.N
    · exact g i h1
    · rw [ha.out i (by omega), hb.out i (by omega)]⟩

/-- All bits zero: after the default constructor. -/
def zeros : Nat → Nat → Bool := fun _ _ => false

theorem start_agree (c : Cfg) (mem : Nat → Buf) : ∀ x, Agree c (resetAll c (mem x)) (zeros x) := fun x => agree_mk (resetAll_eff c _) (fun _ _ => rfl) (fun _ _ => rfl)

/-- C113 (partial): take any number of bitsets of any size `N ≥ 1` with 8, 16, 32 or 64 bit elements, whatever their memory held before construction, and any sequence of operations whose shifts are defined (all, with
elements of less than 32 bits).  No undefined behaviour occurs, exactly the positions `≥ N` raise the error, and then every answer is that of the ideal vectors: `test`, `all`, `any`, `none`, `count`, `to_string`,
`find_first` and `find_next`, `value` and `==`.
Missing, because false: shifts by 0 and by the other multiples of the width of 32 and 64 bit elements (`shift_undefined`), `find_next` from far positions (`find_undefined`), `N = 0` (`empty_undefined`). -/
theorem C113_histories_partial {c : Cfg} (hc : Ok c) (mem : Nat → Buf) (os : List Op) (hl : ∀ o ∈ os, Legal c o) :
    ∃ env, run c (fun x => resetAll c (mem x)) os = .ok ((specRun c.N zeros os).1, env) ∧ (∀ x, Answers c (env x) ((specRun c.N zeros os).2 x)) ∧
      ∀ x y, equal c (env x) (env y) = true ↔ ∀ i, i < c.N → (specRun c.N zeros os).2 x i = (specRun c.N zeros os).2 y i := by
  obtain ⟨env, e, h⟩ := run_agree hc os (start_agree c mem) hl
  exact ⟨env, e, fun x => answers hc (h x), fun x y => equal_agree (h x) (h y)⟩

/-- With the default 8 bit elements (or 16) every sequence of operations is defined. -/
theorem C113_small_elements {c : Cfg} (hc : Ok c) (hw : c.w < 32) (mem : Nat → Buf) (os : List Op) (hl : ∀ x n, Op.num x n ∈ os → n < 2 ^ 64) :
    ∃ env, run c (fun x => resetAll c (mem x)) os = .ok ((specRun c.N zeros os).1, env) ∧ ∀ x, Answers c (env x) ((specRun c.N zeros os).2 x) := by
  obtain ⟨env, e, h, _⟩ := C113_histories_partial hc mem os (fun o ho => by
    cases o with
    | num x n => exact hl x n ho
    | shl x s => exact .inl hw
    | shr x s => exact .inl hw
    | _ => trivial)
  exact ⟨env, e, h⟩

/-! ## Examples -/

/-- The complement leaks nothing into a shift or a comparison; a shift by the width of an element; a copied bit; an error. -/
def demo : List Op := [.num 0 0xF8F3F1, .set 0 20 true, .compl 1 0, .shr 1 8, .shl 1 9, .text 2 (some [true, false, true, true]), .xor 2 0, .refSet 2 5 1 12, .swap 0 2, .flipAt 2 19, .text 3 (some []), .flipAll 3]
example : (∀ o ∈ demo, Legal ⟨20, 3⟩ o) ∧ (specRun 20 zeros demo).1 = [false, true, false, false, false, false, false, false, false, false, false, false] := by
  refine ⟨?_, by decide +kernel⟩
  intro o ho
  simp only [demo, List.mem_cons, List.not_mem_nil, or_false] at ho
  rcases ho with rfl | rfl | rfl | rfl | rfl | rfl | rfl | rfl | rfl | rfl | rfl | rfl <;> simp [Legal, ShiftOk, Cfg.w]
example : (List.range 20).countP ((specRun 20 zeros demo).2 3) = 20 ∧ (List.range 20).map ((specRun 20 zeros demo).2 1) =
    [false, false, false, false, false, false, false, false, false, false, false, true, true, false, false, false, false, true, true, true] := by decide +kernel

/-! ## Findings -/

/-- Shifts of a 64 bit bitset with 32 bit elements by 0: an element is shifted by its full width; by 32 is defined, by 64 of 96 bits is not. -/
theorem shift_undefined (b : Buf) : shiftRight ⟨64, 5⟩ b 0 = .error .overflow ∧ shiftLeft ⟨64, 5⟩ b 0 = .error .overflow ∧ shiftRight ⟨96, 5⟩ b 64 = .error .overflow ∧
    (∃ b', shiftRight ⟨64, 5⟩ b 32 = .ok b') := by
  refine ⟨by rfl, ?_, by rfl, ⟨_, rfl⟩⟩
  simp [shiftLeft, mShl, Cfg.ne, Cfg.w, Cfg.shr, Cfg.shl, get, put, shlLoop, bind, Except.bind]
/-- `find_next` from a position far past the end of a one element bitset is undefined (the new implementation answers `npos`), as are positions with bit 32 and above of 64 bit elements. -/
theorem find_undefined (b : Buf) : findNext ⟨8, 3⟩ b true 40 = .error .overflow ∧ Bitset.findNext ⟨8, 3⟩ b true 40 = .ok .none ∧ findNext ⟨128, 6⟩ b true 32 = .error .overflow := by
  refine ⟨by rfl, by rfl, by rfl⟩
/-- `etl::bitset<0>`: `set()`, `flip()`, `~` and the constructor from a number write `pdata[Number_Of_Elements - 1]`. -/
theorem empty_undefined (b : Buf) (v : Nat) : setAll ⟨0, 3⟩ b = .error .outOfBounds ∧ flipAll ⟨0, 3⟩ b = .error .outOfBounds ∧ initialise ⟨0, 3⟩ b v = .error .outOfBounds := by
  refine ⟨by rfl, by rfl, by rfl⟩

end Etl.Bitset.Legacy
