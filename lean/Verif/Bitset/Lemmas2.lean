import Verif.Bitset.Lemmas

/-! # Strings, numbers, queries -/
namespace Etl.Bitset
open Binary (testBit_ge eq_of_bits)

/-! ## `from_string` -/

/-- Bit `i` of a text of which `n` characters are used: the last character is bit 0. -/
def textBit (t : List Bool) (n i : Nat) : Bool := decide (i < n) && (t[n - 1 - i]?).getD false

theorem sFromLoop_bits (t : List Bool) : ∀ (k e : Nat), t.length = k → ∀ i, (sFromLoop t (2 ^ k / 2) e).testBit i = (e.testBit i || (decide (i < k) && (t[k - 1 - i]?).getD false)) := by
  induction t with
  | nil => intro k e h i; simp only [List.length_nil] at h; subst h; simp [sFromLoop]
  | cons ch t ih =>
    intro k e h i
    obtain ⟨k, rfl⟩ : ∃ m, k = m + 1 := ⟨k - 1, by simp at h; omega⟩
    have hl : t.length = k := by simpa using h
    simp only [sFromLoop]
    have e1 : 2 ^ (k + 1) / 2 = 2 ^ k := by rw [Nat.pow_succ]; omega
    rw [e1, Nat.shiftRight_one, ih k _ hl i]
    have : (if ch = true then e ||| 2 ^ k else e).testBit i = (e.testBit i || (decide (i = k) && ch)) := by
      cases ch
      · simp
      · rw [if_pos rfl, bit_or]; by_cases h : i = k <;> simp [h]
    rw [this]
    by_cases h1 : i < k
    · have : k - i = (k - 1 - i) + 1 := by omega
      simp [h1, Nat.ne_of_lt h1, show i < k + 1 by omega, this]
    · by_cases h2 : i = k
      · subst h2; simp
      · simp [h2, h1, show ¬ i < k + 1 by omega]

theorem getElem_take_or {t : List Bool} {n j : Nat} (h : j < n) : (t.take n)[j]? = t[j]? := by rw [List.getElem?_take]; simp [h]

theorem mFromLoop_eff {c : Cfg} (n : Nat) : ∀ (t : List Bool) (b : Buf), WF c b → n ≤ c.N → n ≤ t.length →
    ∃ b', mFromLoop c t n b = .ok b' ∧ Eff c b' (fun i => if i < n then (t[n - 1 - i]?).getD false else bits c b i) := by
  induction n with
  | zero => intro t b hw _ _; exact ⟨b, by cases t <;> rfl, hw, fun i _ => by simp⟩
  | succ n ih =>
    intro t b hw h1 h2
    cases t with
    | nil => simp at h2
    | cons ch t =>
      obtain ⟨b1, e1, ef1, _⟩ := mSet_eff (v := ch) hw (show n < c.N by omega)
      obtain ⟨b2, e2, ef2⟩ := ih t b1 ef1.1 (by omega) (by simp at h2; omega)
      refine ⟨b2, by simp only [mFromLoop, e1, e2], ef2.1, fun i hi => ?_⟩
      rw [ef2.2 i hi]; dsimp only
      by_cases h3 : i < n
      · have : n - i = (n - 1 - i) + 1 := by omega
        simp [h3, show i < n + 1 by omega, this]
      · rw [if_neg h3, ef1.2 i hi]; dsimp only
        by_cases h4 : i = n
        · subst h4; simp
        · rw [if_neg h4, if_neg (by omega)]

theorem fromString_none {c : Cfg} (b : Buf) (hp : 0 < c.N) : ∃ b', fromString c b Option.none = .ok b' ∧ Eff c b' (fun _ => false) := by
  have hx := resetAll_eff c b
  unfold resetAll at hx; unfold fromString
  by_cases h1 : c.ne = 1
  · rw [if_pos h1] at hx ⊢; exact ⟨_, rfl, hx⟩
  · rw [if_neg h1] at hx ⊢; exact ⟨_, rfl, hx⟩

theorem fromString_some {c : Cfg} {b : Buf} {t : List Bool} (hw : WF c b) (hp : 0 < c.N) (ht : c.ne = 1 → t ≠ []) :
    ∃ b', fromString c b (some t) = .ok b' ∧ Eff c b' (textBit t (min c.N t.length)) := by
  unfold fromString
  by_cases h1 : c.ne = 1
  · rw [if_pos h1]
    have ht := ht h1
    have hl : 0 < t.length := List.length_pos_iff.mpr ht
    have hm : 0 < min c.N t.length := by omega
    have hw1 := ne_one h1
    unfold sFrom
    dsimp only
    rw [if_neg (by omega), shl_ok (max_w (by omega)), Nat.one_shiftLeft, cut_eq (Nat.pow_lt_pow_right (by omega) (by omega))]
    refine ⟨_, rfl, ?_⟩
    have e1 : 2 ^ (min c.N t.length - 1) = 2 ^ (min c.N t.length) / 2 := by
      obtain ⟨k, hk⟩ : ∃ k, min c.N t.length = k + 1 := ⟨min c.N t.length - 1, by omega⟩
      rw [hk, Nat.pow_succ]; simp
    rw [e1]
    have hb := sFromLoop_bits (t.take (min c.N t.length)) (min c.N t.length) 0 (by rw [List.length_take]; omega)
    refine eff_mk (fun j hj => ?_) (fun j s hj hs => ?_)
    · have : j = 0 := by omega
      subst this; rw [upd_same]
      apply Nat.lt_pow_two_of_testBit
      intro i hi
      rw [hb i]; simp; omega
    · have : j = 0 := by omega
      subst this; rw [upd_same, hb s]
      unfold textBit
      simp only [Nat.zero_testBit, Bool.false_or, Nat.zero_mul, Nat.zero_add]
      by_cases h3 : s < min c.N t.length
      · rw [getElem_take_or (by omega)]
      · simp only [decide_eq_false h3, Bool.false_and]
  · rw [if_neg h1]
    unfold mFrom; dsimp only
    generalize hk : min (c.ne - 1) (t.length / c.w) = k
    have hne := ne_pos hp
    have hz : ∀ j, mapLoop (fun _ _ => 0) (c.ne - k) k b j = if k ≤ j ∧ j < c.ne then 0 else b j := by
      intro j; rw [mapLoop_get]; congr 1; apply propext; omega
    have hwf : WF c (mapLoop (fun _ _ => 0) (c.ne - k) k b) := by
      intro j hj; rw [hz]; split
      · exact Nat.two_pow_pos _
      · exact hw j hj
    obtain ⟨b', e, ef⟩ := mFromLoop_eff (min c.N t.length) t _ hwf (by omega) (by omega)
    refine ⟨b', e, ef.1, fun i hi => ?_⟩
    rw [ef.2 i hi]; unfold textBit; dsimp only
    by_cases h3 : i < min c.N t.length
    · rw [if_pos h3, decide_eq_true h3, Bool.true_and]
    · rw [if_neg h3, decide_eq_false h3, Bool.false_and]
      unfold bits; rw [hz, if_pos, Nat.zero_testBit]
      refine ⟨?_, div_lt_ne.mpr hi⟩
      rcases Nat.lt_or_ge t.length c.N with h4 | h4
      · have h5 : t.length / c.w ≤ i / c.w := Nat.div_le_div_right (by omega)
        omega
      · have h5 : c.ne - 1 ≤ i / c.w := by
          rw [Nat.le_div_iff_mul_le (w_pos c)]
          have := ne_lt hp; omega
        omega

/-! ## The constructor from a number -/

theorem mInitLoop_get (c : Cfg) (n : Nat) : ∀ (i v : Nat) (b : Buf) (j : Nat), mInitLoop c n i v b j = if i ≤ j ∧ j < i + n then (v >>> ((j - i) * c.w)) &&& c.allSet else b j := by
  induction n with
  | zero => intro i v b j; simp only [mInitLoop]; rw [if_neg (by omega)]
  | succ n ih =>
    intro i v b j
    simp only [mInitLoop]
    have key : ∀ u : Nat, (u = v >>> c.w) → mInitLoop c n (i + 1) u (upd b i (v &&& c.allSet)) j = if i ≤ j ∧ j < i + (n + 1) then (v >>> ((j - i) * c.w)) &&& c.allSet else b j := by
      intro u hu
      rw [ih]
      by_cases h : j = i
      · subst h; rw [if_neg (by omega), if_pos (by omega)]; simp
      · rw [upd_other _ _ h]
        by_cases h1 : i + 1 ≤ j ∧ j < i + 1 + n
        · rw [if_pos h1, if_pos (by omega), hu, ← Nat.shiftRight_add, show j - i = (j - (i + 1)) + 1 by omega, Nat.add_mul, Nat.one_mul, Nat.add_comm c.w]
        · rw [if_neg h1, if_neg (by omega)]
    split
    · exact key _ rfl
    · next h =>
      have h : v = 0 := by simpa using h
      subst h
      have := key 0 (by simp)
      rw [← this]; simp

theorem initialise_eff {c : Cfg} (hp : 0 < c.N) (b : Buf) {v : Nat} (hv : v < 2 ^ 64) : Eff c (initialise c b v) (fun i => v.testBit i) := by
  have hne := ne_pos hp
  unfold initialise
  split
  · next h1 =>
    refine eff_mk (fun j hj => ?_) (fun j t hj ht => ?_)
    · have : j = 0 := by omega
      subst this; rw [upd_same]; exact cut_lt _ _
    · have : j = 0 := by omega
      subst this; rw [upd_same, testBit_cut]; simp [ht]
  · unfold mInit
    split
    · next hw =>
      have hg : ∀ j, j < c.ne → mapLoop (fun _ _ => 0) (c.ne - 1) 1 (upd b 0 v) j = if j = 0 then v else 0 := by
        intro j hj; rw [mapLoop_get]
        by_cases h : j = 0
        · rw [if_neg (by omega), if_pos h, h, upd_same]
        · rw [if_pos (by omega), if_neg h]
      refine eff_mk (fun j hj => ?_) (fun j t hj ht => ?_)
      · rw [hg j hj]; split
        · rw [hw]; exact hv
        · exact Nat.two_pow_pos _
      · rw [hg j hj]; split
        · next h => subst h; simp
        · next h =>
          rw [Nat.zero_testBit]; symm
          refine testBit_ge hv ?_
          have := Nat.le_mul_of_pos_left c.w (show 0 < j by omega)
          omega
    · refine eff_mk (fun j hj => ?_) (fun j t hj ht => ?_)
      · rw [mInitLoop_get, if_pos (by omega)]; exact Nat.lt_of_le_of_lt Nat.and_le_right (allSet_lt c)
      · rw [mInitLoop_get, if_pos (by omega), Nat.testBit_and, allSet_bit, Nat.testBit_shiftRight]; simp [ht]

/-! ## Queries -/

theorem none_eff {c : Cfg} {b : Buf} (hw : WF c b) : none c b = true ↔ ∀ i, i < c.ne * c.w → bits c b i = false := by
  have key : none c b = true ↔ ∀ j, j < c.ne → b j = 0 := by
    unfold none
    split
    · next h1 =>
      simp only [decide_eq_true_eq]
      constructor
      · intro h j hj; rw [show j = 0 by omega]; exact h
      · intro h; exact h 0 (by omega)
    · have : ∀ n i, noneLoop b n i = true ↔ ∀ j, i ≤ j → j < i + n → b j = 0 := by
        intro n
        induction n with
        | zero => intro i; simp only [noneLoop, true_iff]; intro j _ _; omega
        | succ n ih =>
          intro i; simp only [noneLoop]
          split
          · next h => simp only [Bool.false_eq_true, false_iff]; intro hh; exact h (hh i (by omega) (by omega))
          · next h =>
            rw [ih]; constructor
            · intro hh j h1 h2; by_cases h3 : j = i
              · rw [h3]; simpa using h
              · exact hh j (by omega) (by omega)
            · intro hh j h1 h2; exact hh j (by omega) (by omega)
      rw [this]; simp
  rw [key]; constructor
  · intro h i hi; unfold bits; rw [h _ (div_lt_ne.mpr hi), Nat.zero_testBit]
  · intro h j hj
    refine eq_of_bits (hw j hj) (Nat.two_pow_pos _) fun t ht => ?_
    rw [← bits_def ht, h, Nat.zero_testBit]
    have := Nat.mul_le_mul_right c.w (show j + 1 ≤ c.ne by omega)
    rw [Nat.add_mul] at this; omega

theorem any_not (c : Cfg) (b : Buf) : any c b = !none c b := by
  unfold any none
  split
  · by_cases h : b 0 = 0 <;> simp [h]
  · have : ∀ n i, anyLoop b n i = !noneLoop b n i := by
      intro n; induction n with
      | zero => intro i; rfl
      | succ n ih => intro i; simp only [anyLoop, noneLoop]; split <;> simp [ih]
    exact this _ _

theorem equal_eff {c : Cfg} {a b : Buf} (ha : WF c a) (hb : WF c b) : equal c a b = true ↔ ∀ i, i < c.ne * c.w → bits c a i = bits c b i := by
  have key : equal c a b = true ↔ ∀ j, j < c.ne → a j = b j := by
    unfold equal
    split
    · next h1 =>
      simp only [decide_eq_true_eq]
      constructor
      · intro h j hj; rw [show j = 0 by omega]; exact h
      · intro h; exact h 0 (by omega)
    · have : ∀ n i, eqLoop a b n i = true ↔ ∀ j, i ≤ j → j < i + n → a j = b j := by
        intro n
        induction n with
        | zero => intro i; simp only [eqLoop, true_iff]; intro j _ _; omega
        | succ n ih =>
          intro i; simp only [eqLoop]
          split
          · next h =>
            rw [ih]; constructor
            · intro hh j h1 h2; by_cases h3 : j = i
              · rw [h3]; exact h
              · exact hh j (by omega) (by omega)
            · intro hh j h1 h2; exact hh j (by omega) (by omega)
          · next h => simp only [Bool.false_eq_true, false_iff]; intro hh; exact h (hh i (by omega) (by omega))
      rw [this]; simp
  rw [key]; constructor
  · intro h i hi; unfold bits; rw [h _ (div_lt_ne.mpr hi)]
  · intro h j hj
    refine eq_of_bits (ha j hj) (hb j hj) fun t ht => ?_
    rw [← bits_def ht, ← bits_def ht, h]
    have := Nat.mul_le_mul_right c.w (show j + 1 ≤ c.ne by omega)
    rw [Nat.add_mul] at this; omega

theorem elem_lt {c : Cfg} {j t : Nat} (hj : j < c.ne) (ht : t < c.w) : j * c.w + t < c.ne * c.w := by
  have := Nat.mul_le_mul_right c.w (show j + 1 ≤ c.ne by omega)
  rw [Nat.add_mul] at this; omega

theorem topTest {c : Cfg} (hp : 0 < c.N) (e : Nat) : (e &&& c.topMask = c.topMask) ↔ ∀ t, t < top c → e.testBit t = true := by
  constructor
  · intro h t ht
    have := congrArg (fun x => Nat.testBit x t) h
    simp only [Nat.testBit_and, topMask_bit hp, decide_eq_true ht, Bool.and_true] at this
    exact this
  · intro h
    apply Nat.eq_of_testBit_eq; intro t
    rw [Nat.testBit_and, topMask_bit hp]
    by_cases h1 : t < top c
    · simp [h1, h t h1]
    · simp [h1]

theorem allElem {c : Cfg} {e : Nat} (he : e < 2 ^ c.w) : e = c.allSet ↔ ∀ t, t < c.w → e.testBit t = true := by
  constructor
  · intro h t ht; rw [h, allSet_bit]; simp [ht]
  · intro h; exact eq_of_bits he (allSet_lt c) fun t ht => by rw [h t ht, allSet_bit]; simp [ht]

theorem all_eff {c : Cfg} {b : Buf} (hp : 0 < c.N) (hw : WF c b) : all c b = true ↔ ∀ i, i < c.N → bits c b i = true := by
  have hl := ne_lt hp
  have hne := ne_pos hp
  have key : all c b = true ↔ (∀ j, j < c.ne - 1 → b j = c.allSet) ∧ b (c.ne - 1) &&& c.topMask = c.topMask := by
    unfold all
    split
    · next h1 => rw [h1]; simp
    · have : ∀ n i, allLoop c b n i = true ↔ (∀ j, i ≤ j → j < i + n → b j = c.allSet) ∧ b (i + n) &&& c.topMask = c.topMask := by
        intro n
        induction n with
        | zero => intro i; simp only [allLoop, decide_eq_true_eq, Nat.add_zero]; constructor
                  · intro h; exact ⟨fun j _ _ => by omega, h⟩
                  · intro h; exact h.2
        | succ n ih =>
          intro i; simp only [allLoop]
          split
          · next h => simp only [Bool.false_eq_true, false_iff]; intro hh; exact h (hh.1 i (by omega) (by omega))
          · next h =>
            rw [ih, show i + 1 + n = i + (n + 1) by omega]; constructor
            · intro hh; refine ⟨fun j h1 h2 => ?_, hh.2⟩
              by_cases h3 : j = i
              · rw [h3]; simpa using h
              · exact hh.1 j (by omega) (by omega)
            · intro hh; exact ⟨fun j h1 h2 => hh.1 j (by omega) (by omega), hh.2⟩
      rw [this]; simp
  rw [key, topTest hp]
  constructor
  · intro h i hi
    have h1 : i / c.w < c.ne := pos_lt hi
    unfold bits
    by_cases h2 : i / c.w = c.ne - 1
    · rw [h2]; apply h.2
      have e : i / c.w * c.w + i % c.w = i := by rw [Nat.mul_comm]; exact Nat.div_add_mod i c.w
      rw [h2] at e; unfold top; omega
    · exact (allElem (hw _ h1)).mp (h.1 _ (by omega)) _ (Nat.mod_lt _ (w_pos c))
  · intro h
    refine ⟨fun j hj => (allElem (hw j (by omega))).mpr fun t ht => ?_, fun t ht => ?_⟩
    · rw [← bits_def ht]; apply h
      have := Nat.mul_le_mul_right c.w (show j + 1 ≤ c.ne - 1 by omega)
      rw [Nat.add_mul] at this; omega
    · have ht2 : t < c.w := by have := top_pos hp; omega
      rw [← bits_def ht2]; apply h
      unfold top at ht; omega

theorem countBits_eq {c : Cfg} (hc : Ok c) {v : Nat} (hv : v < 2 ^ c.w) : countBits c v = Binary.popCount c.w v := by
  have h := Binary.C27_count_bits v
  unfold countBits
  rcases w_cases hc with ⟨h1, h2⟩ | ⟨h1, h2⟩ | ⟨h1, h2⟩ | ⟨h1, h2⟩
  all_goals rw [h2] at hv ⊢; simp only [h1]
  · exact h.1 hv
  · exact h.2.1 hv
  · exact h.2.2.1 hv
  · exact h.2.2.2 hv

theorem range_split (m w : Nat) (p : Nat → Bool) : (List.range ((m + 1) * w)).countP p = (List.range (m * w)).countP p + (List.range w).countP (fun t => p (m * w + t)) := by
  rw [Nat.add_mul, Nat.one_mul, List.range_add, List.countP_append, List.countP_map]; rfl

theorem count_eff {c : Cfg} (hc : Ok c) {b : Buf} (hw : WF c b) : count c b = (List.range (c.ne * c.w)).countP (bits c b) := by
  have sum : ∀ n, n ≤ c.ne → ∀ i k, i + n = c.ne → k = (List.range (i * c.w)).countP (bits c b) → countLoop c b n i k = (List.range (c.ne * c.w)).countP (bits c b) := by
    intro n
    induction n with
    | zero => intro _ i k hi hk; simp only [countLoop]; rw [hk, show i = c.ne by omega]
    | succ n ih =>
      intro hn i k hi hk
      simp only [countLoop]
      apply ih (by omega) (i + 1) _ (by omega)
      rw [range_split, hk, countBits_eq hc (hw i (by omega))]
      unfold Binary.popCount
      congr 1
      apply List.countP_congr
      intro t ht; rw [List.mem_range] at ht; rw [bits_def ht]
  unfold count
  split
  · next h1 =>
    have := sum 1 (by omega) 0 0 (by omega) (by simp)
    simpa [countLoop] using this
  · exact sum c.ne (by omega) 0 0 (by omega) (by simp)

/-! ## `value` -/

theorem value_eff {c : Cfg} {b : Buf} {tb : Nat} (hp : 0 < c.N) (hw : WF c b) (ht : c.ne * c.w ≤ tb) :
    ∃ v, value c tb b = some v ∧ v < 2 ^ (c.ne * c.w) ∧ ∀ i, i < c.ne * c.w → v.testBit i = bits c b i := by
  unfold value
  rw [if_neg (by omega)]
  have hne := ne_pos hp
  have hwt : c.w ≤ tb := by have := Nat.le_mul_of_pos_left c.w hne; omega
  have htb : ∀ j, j < c.ne → b j % 2 ^ tb = b j := fun j hj => Nat.mod_eq_of_lt (Nat.lt_of_lt_of_le (hw j hj) (Nat.pow_le_pow_right (by omega) hwt))
  have key : ∀ n i v, i + n = c.ne → (∀ k, v.testBit k = (decide (k < i * c.w) && bits c b k)) → ∀ k, (mValueLoop c tb b n i v).testBit k = (decide (k < c.ne * c.w) && bits c b k) := by
    intro n
    induction n with
    | zero => intro i v hi hv k; simp only [mValueLoop]; rw [hv, show i = c.ne by omega]
    | succ n ih =>
      intro i v hi hv
      simp only [mValueLoop]
      apply ih (i + 1) _ (by omega)
      intro k
      have hi2 : i < c.ne := by omega
      rw [Nat.testBit_or, hv, htb i hi2, Nat.testBit_mod_two_pow, Nat.testBit_shiftLeft]
      have e1 : (i + 1) * c.w = i * c.w + c.w := by rw [Nat.add_mul, Nat.one_mul]
      have e2 := Nat.mul_le_mul_right c.w (show i + 1 ≤ c.ne by omega)
      rcases Nat.lt_or_ge k (i * c.w) with h | h
      · simp [h, show ¬ i * c.w ≤ k by omega, show k < (i + 1) * c.w by omega]
      · have hd := Nat.div_add_mod k c.w
        rcases Nat.lt_or_ge k ((i + 1) * c.w) with h2 | h2
        · have h4 : bits c b k = (b i).testBit (k - i * c.w) := by
            rw [← bits_def (show k - i * c.w < c.w by omega)]; congr 1; omega
          simp [h, h2, show ¬ k < i * c.w by omega, show k < tb by omega, h4]
        · have h4 : (b i).testBit (k - i * c.w) = false := testBit_ge (hw i hi2) (by omega)
          simp [h4, show ¬ k < i * c.w by omega, show ¬ k < (i + 1) * c.w by omega]
  refine ⟨_, rfl, ?_⟩
  have fin : ∀ v : Nat, (∀ k, v.testBit k = (decide (k < c.ne * c.w) && bits c b k)) → v < 2 ^ (c.ne * c.w) ∧ ∀ i, i < c.ne * c.w → v.testBit i = bits c b i := by
    intro v hv
    refine ⟨Nat.lt_pow_two_of_testBit _ fun i hi => by rw [hv]; simp; omega, fun i hi => by rw [hv]; simp [hi]⟩
  apply fin
  split
  · next h1 =>
    intro k; rw [htb 0 (by omega), h1, Nat.one_mul]
    rcases Nat.lt_or_ge k c.w with h | h
    · rw [decide_eq_true h, Bool.true_and]; have := bits_def (c := c) (b := b) (j := 0) h; rw [Nat.zero_mul, Nat.zero_add] at this; exact this.symm
    · rw [testBit_ge (hw 0 (by omega)) h]; simp; omega
  · exact key c.ne 0 0 (by omega) (by simp)

end Etl.Bitset
