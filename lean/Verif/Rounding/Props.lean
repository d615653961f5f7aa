import Verif.Rounding.Model
import Mathlib.Tactic.Linarith
import Mathlib.Tactic.Ring

/-!
# Properties of scaled_rounding.h (C85)
-/
namespace Etl.Rounding

/-! ## Specification: `r` is the value `v / S` rounded -/

/-- the least integer not below -/
def IsCeil (S v r : Int) : Prop := (r - 1) * S < v ∧ v ≤ r * S
/-- the greatest integer not above -/
def IsFloor (S v r : Int) : Prop := r * S ≤ v ∧ v < (r + 1) * S
/-- toward zero, away from zero -/
def IsZero (S v r : Int) : Prop := (0 ≤ v → IsFloor S v r) ∧ (v ≤ 0 → IsCeil S v r)
def IsAway (S v r : Int) : Prop := (0 ≤ v → IsCeil S v r) ∧ (v ≤ 0 → IsFloor S v r)
/-- to the nearest integer: no other one is closer -/
def IsNearest (S v r : Int) : Prop := -S ≤ 2 * (v - r * S) ∧ 2 * (v - r * S) ≤ S
/-- just between two integers -/
def Tie (S v r : Int) : Prop := 2 * (v - r * S) = S ∨ 2 * (v - r * S) = -S

/-- The values of the type. -/
def In (t : Ty) (v : Int) : Prop := if t.sgn then -2 ^ (t.w - 1) ≤ v ∧ v < 2 ^ (t.w - 1) else 0 ≤ v ∧ v < 2 ^ t.w

/-- No overflow on the way: the absolute value is one of the type, and adding the scaling stays in the arithmetic (for signed types that are at least as wide as int the scaling is an int32_t). -/
structure Ok (t : Ty) (S : Nat) (v : Int) : Prop where
  w : 0 < t.w
  pos : 0 < S
  scale : S < 2 ^ (if t.sgn then 31 else 32)
  val : In t v
  abs : In t (-v) ∨ 0 ≤ v
  room : |v| + S < 2 ^ (if t.sgn then t.a - 1 else t.a)

/-! ## Proofs -/

variable {t : Ty} {S : Nat} {v : Int}

theorem scale_eq (t : Ty) (x : Nat) (h : x < 2 ^ (if t.sgn then 31 else 32)) : scale t x = x := by
  unfold scale
  cases hs : t.sgn with
  | true =>
    rw [hs] at h
    simp only [if_true] at h ⊢
    have : x < 2147483648 := h
    rw [Int.bmod_eq_of_le] <;> omega
  | false =>
    rw [hs] at h
    have : x < 4294967296 := h
    simp only [Bool.false_eq_true, if_false]
    omega

theorem arith_eq (t : Ty) (x : Int) (h : |x| < 2 ^ (if t.sgn then t.a - 1 else t.a)) (hn : t.sgn = false → 0 ≤ x) : arith t x = .ok x := by
  unfold arith
  cases hs : t.sgn with
  | true =>
    rw [hs] at h
    simp only [if_true] at h ⊢
    rw [abs_lt] at h
    rw [if_pos ⟨by omega, h.2⟩]
  | false =>
    rw [hs] at h
    simp only [Bool.false_eq_true, if_false] at h ⊢
    have := hn hs
    rw [abs_of_nonneg this] at h
    rw [Int.emod_eq_of_lt this h]

theorem conv_eq (t : Ty) (hw : 0 < t.w) (x : Int) (h : In t x) : conv t x = x := by
  unfold conv In at *
  cases hs : t.sgn with
  | true =>
    rw [hs] at h
    simp only [if_true] at h ⊢
    have hp : (2 : Int) ^ t.w = 2 * 2 ^ (t.w - 1) := by rw [← pow_succ']; congr 1; omega
    rw [Int.bmod_eq_of_le]
    · push_cast; rw [hp]; omega
    · push_cast; rw [hp]; omega
  | false =>
    rw [hs] at h
    simp only [Bool.false_eq_true, if_false] at h ⊢
    exact Int.emod_eq_of_lt h.1 h.2

/-- A value of smaller size than one of the type. -/
theorem in_of_le (hv : In t v) (ha : In t (-v) ∨ 0 ≤ v) {x : Int} (h : (0 ≤ v → 0 ≤ x ∧ x ≤ v) ∧ (v ≤ 0 → v ≤ x ∧ x ≤ 0)) : In t x := by
  unfold In at *
  cases hs : t.sgn with
  | true =>
    rw [hs] at hv
    simp only [if_true] at hv ⊢
    have : (0 : Int) < 2 ^ (t.w - 1) := by positivity
    rcases Int.le_total 0 v with h0 | h0
    · have := h.1 h0; omega
    · have := h.2 h0; omega
  | false =>
    rw [hs] at hv
    simp only [Bool.false_eq_true, if_false] at hv ⊢
    have := h.1 hv.1
    omega

theorem nonneg_of (hv : In t v) (hs : t.sgn = false) : 0 ≤ v := by
  unfold In at hv
  rw [hs] at hv
  simp only [Bool.false_eq_true, if_false] at hv
  exact hv.1

theorem quo_eq {x : Int} (hS : 0 < S) : quo x S = .ok (x.tdiv S) := by
  unfold quo; rw [if_neg (by omega)]

/-- `(v + c) / S` for a value that is not negative, `(v - c) / S` for a negative one. -/
theorem up_eq (h : Ok t S v) (hv : 0 ≤ v) {c : Nat} (hc : c ≤ S) (hin : In t ((v + c) / S)) : up t S v c = .ok ((v + c) / S) := by
  unfold up
  rw [scale_eq t S h.scale]
  have h1 : arith t (v + c) = .ok (v + c) := arith_eq t _ (by have := h.room; rw [abs_of_nonneg hv] at this; rw [abs_of_nonneg (by omega)]; omega) (fun _ => by omega)
  simp only [bind, Except.bind, h1, quo_eq h.pos]
  rw [Int.tdiv_eq_ediv_of_nonneg (by omega), conv_eq t h.w _ hin]

theorem down_eq (h : Ok t S v) (hv : v < 0) {c : Nat} (hc : c ≤ S) (hin : In t (-((-v + c) / S))) : down t S v c = .ok (-((-v + c) / S)) := by
  unfold down
  rw [scale_eq t S h.scale]
  have hsg : t.sgn = true := by
    cases hs : t.sgn with
    | true => rfl
    | false => have := nonneg_of h.val hs; omega
  have h1 : arith t (v - c) = .ok (v - c) := arith_eq t _ (by have := h.room; rw [abs_of_neg hv] at this; rw [abs_of_neg (by omega)]; omega) (fun e => by rw [hsg] at e; cases e)
  simp only [bind, Except.bind, h1, quo_eq h.pos]
  rw [show v - c = -(-v + c) by ring, Int.neg_tdiv, Int.tdiv_eq_ediv_of_nonneg (by omega), conv_eq t h.w _ hin]

theorem div_facts (x : Int) (hS : 0 < S) : x / S * S ≤ x ∧ x < (x / S + 1) * S := by
  have h1 := Int.mul_ediv_add_emod x S
  have h2 := Int.emod_nonneg x (b := (S : Int)) (by omega)
  have h3 := Int.emod_lt_of_pos x (b := (S : Int)) (by omega)
  constructor <;> nlinarith

/-- The quotient is between 0 and `v`. -/
theorem small {v : Int} (hv : 0 ≤ v) {c : Nat} (hS : 0 < S) (hc : c < S) : 0 ≤ (v + c) / S ∧ (v + c) / S ≤ v := by
  refine ⟨Int.ediv_nonneg (by omega) (by omega), ?_⟩
  rcases lt_or_ge 0 v with h1 | h1
  · apply Int.le_of_lt_add_one
    apply Int.ediv_lt_of_lt_mul (by omega)
    nlinarith
  · have : v = 0 := by omega
    subst this
    rw [Int.zero_add, Int.ediv_eq_zero_of_lt (by omega) (by omega)]

theorem small_in (h : Ok t S v) {c : Nat} (hc : c < S) : (0 ≤ v → In t ((v + c) / S)) ∧ (v < 0 → In t (-((-v + c) / S))) := by
  constructor
  · intro hv
    exact in_of_le h.val h.abs ⟨fun _ => small hv h.pos hc, fun h0 => by
      have : v = 0 := by omega
      subst this
      have := small hv h.pos hc; omega⟩
  · intro hv
    exact in_of_le h.val h.abs ⟨fun h0 => by omega, fun _ => by have := small (v := -v) (by omega) h.pos hc; omega⟩

/-- Adding `c` less than the scaling and dividing. -/
def shift (S : Nat) (c : Nat) (v : Int) : Int := if 0 ≤ v then (v + c) / S else -((-v + c) / S)

theorem shift_eq (h : Ok t S v) {c : Nat} (hc : c < S) : (if 0 ≤ v then up t S v c else down t S v c) = .ok (shift S c v) := by
  unfold shift
  by_cases hv : 0 ≤ v
  · rw [if_pos hv, if_pos hv]; exact up_eq h hv (by omega) ((small_in h hc).1 hv)
  · rw [if_neg hv, if_neg hv]; exact down_eq h (by omega) (by omega) ((small_in h hc).2 (by omega))

theorem half_lt (h : Ok t S v) (x : Nat) (hx : x ≤ S) : x < 2 ^ (if t.sgn then 31 else 32) := lt_of_le_of_lt hx h.scale

theorem halfUp_eq (h : Ok t S v) : halfUp t S v = .ok (shift S (S / 2) v) := by
  unfold halfUp
  rw [scale_eq t _ (half_lt h _ (by omega))]
  exact shift_eq h (by have := h.pos; omega)
theorem halfDown_eq (h : Ok t S v) : halfDown t S v = .ok (shift S (S / 2 - 1) v) := by
  unfold halfDown
  rw [scale_eq t _ (half_lt h _ (by omega))]
  exact shift_eq h (by have := h.pos; omega)
theorem quo0 (h : Ok t S v) : (do .ok (conv t (← quo v (scale t S))) : Res Int) = .ok (shift S 0 v) := by
  have hin := small_in h (c := 0) h.pos
  simp only [bind, Except.bind, scale_eq t S h.scale, quo_eq h.pos]
  unfold shift
  by_cases hv : 0 ≤ v
  · rw [if_pos hv, Int.tdiv_eq_ediv_of_nonneg hv]
    have := hin.1 hv
    simp only [Nat.cast_zero, Int.add_zero] at this ⊢
    rw [conv_eq t h.w _ this]
  · rw [if_neg hv]
    have := hin.2 (by omega)
    simp only [Nat.cast_zero, Int.add_zero] at this ⊢
    have hq : v.tdiv S = -(-v / S) := by
      conv_lhs => rw [show v = -(-v) by ring]
      rw [Int.neg_tdiv, Int.tdiv_eq_ediv_of_nonneg (by omega)]
    rw [hq, conv_eq t h.w _ this]

theorem shift_facts (S c : Nat) (hS : 0 < S) (v : Int) :
    (0 ≤ v → shift S c v * S ≤ v + c ∧ v + c < (shift S c v + 1) * S) ∧ (v < 0 → v - c ≤ shift S c v * S ∧ (shift S c v - 1) * S < v - c) := by
  constructor
  · intro hv
    unfold shift; rw [if_pos hv]
    exact div_facts _ hS
  · intro hv
    unfold shift; rw [if_neg (by omega)]
    have := div_facts (-v + c) hS
    constructor <;> nlinarith [this.1, this.2]

theorem zero_spec (hS : 0 < S) (v : Int) : IsZero S v (shift S 0 v) := by
  obtain ⟨h1, h2⟩ := shift_facts S 0 hS v
  simp only [Nat.cast_zero, Int.add_zero, Int.sub_zero] at h1 h2
  refine ⟨h1, fun hv => ?_⟩
  by_cases h0 : v < 0
  · exact ⟨(h2 h0).2, (h2 h0).1⟩
  · have : v = 0 := by omega
    subst this
    have : shift S 0 0 = 0 := by unfold shift; simp
    rw [this]
    exact ⟨by omega, by omega⟩

/-! ## Properties -/

/-- C85: rounding toward zero. -/
theorem C85_zero (h : Ok t S v) : ∃ r, zero t S v = .ok r ∧ IsZero S v r := ⟨_, quo0 h, zero_spec h.pos v⟩

/-- C85: to the nearest, halves away from zero ("symmetric up"). -/
theorem C85_half_up (h : Ok t S v) (he : S % 2 = 0) : ∃ r, halfUp t S v = .ok r ∧ IsNearest S v r ∧ (Tie S v r → IsAway S v r) := by
  refine ⟨_, halfUp_eq h, ?_⟩
  obtain ⟨h1, h2⟩ := shift_facts S (S / 2) h.pos v
  have hc : ((S / 2 : Nat) : Int) * 2 = S := by omega
  have hp : (0 : Int) < S := by have := h.pos; omega
  generalize shift S (S / 2) v = r at *
  generalize ((S / 2 : Nat) : Int) = c at *
  unfold IsNearest Tie IsAway IsCeil IsFloor
  rcases Int.lt_or_le v 0 with hv | hv
  · obtain ⟨a, b⟩ := h2 hv
    refine ⟨⟨by nlinarith, by nlinarith⟩, fun ht => ⟨fun h0 => by omega, fun _ => ?_⟩⟩
    rcases ht with ht | ht
    · exact ⟨by nlinarith, by nlinarith⟩
    · nlinarith
  · obtain ⟨a, b⟩ := h1 hv
    refine ⟨⟨by nlinarith, by nlinarith⟩, fun ht => ?_⟩
    have hlt : 2 * (v - r * S) = -S := by
      rcases ht with ht | ht
      · nlinarith
      · exact ht
    refine ⟨fun _ => ⟨by nlinarith, by nlinarith⟩, fun h0 => ?_⟩
    have hv0 : v = 0 := by omega
    subst hv0
    -- no tie at 0
    exfalso
    have hr : 2 * r * S = S := by nlinarith
    have : (2 * r - 1) * S = 0 := by nlinarith
    rcases mul_eq_zero.mp this with h' | h'
    · omega
    · omega

/-- C85: to the nearest, halves toward zero ("symmetric down"). -/
theorem C85_half_down (h : Ok t S v) (he : S % 2 = 0) : ∃ r, halfDown t S v = .ok r ∧ IsNearest S v r ∧ (Tie S v r → IsZero S v r) := by
  refine ⟨_, halfDown_eq h, ?_⟩
  obtain ⟨h1, h2⟩ := shift_facts S (S / 2 - 1) h.pos v
  have hp : (0 : Int) < S := by have := h.pos; omega
  have hc : ((S / 2 - 1 : Nat) : Int) * 2 = S - 2 := by have := h.pos; omega
  have hz : v = 0 → shift S (S / 2 - 1) v = 0 := by
    intro hv; subst hv
    unfold shift
    rw [if_pos (by omega), Int.zero_add, Int.ediv_eq_zero_of_lt (by omega) (by omega)]
  generalize shift S (S / 2 - 1) v = r at *
  generalize ((S / 2 - 1 : Nat) : Int) = c at *
  unfold IsNearest Tie IsZero IsCeil IsFloor
  rcases lt_trichotomy v 0 with hv | hv | hv
  · obtain ⟨a, b⟩ := h2 hv
    refine ⟨⟨by nlinarith, by nlinarith⟩, fun ht => ⟨fun h0 => by omega, fun _ => ?_⟩⟩
    rcases ht with ht | ht
    · nlinarith
    · exact ⟨by nlinarith, by nlinarith⟩
  · have := hz hv
    subst hv; subst this
    refine ⟨⟨by omega, by omega⟩, fun ht => by omega⟩
  · obtain ⟨a, b⟩ := h1 (by omega)
    refine ⟨⟨by nlinarith, by nlinarith⟩, fun ht => ⟨fun _ => ?_, fun h0 => by omega⟩⟩
    rcases ht with ht | ht
    · exact ⟨by nlinarith, by nlinarith⟩
    · nlinarith

theorem abs_eq (h : Ok t S v) : absolute t v = .ok |v| := by
  unfold absolute
  by_cases hv : v < 0
  · have hsg : t.sgn = true := by
      cases hs : t.sgn with
      | true => rfl
      | false => have := nonneg_of h.val hs; omega
    have h1 : arith t (-v) = .ok (-v) := arith_eq t _ (by have := h.room; rw [abs_neg]; omega) (fun e => by rw [hsg] at e; cases e)
    rw [if_pos hv]
    simp only [bind, Except.bind, h1]
    rw [conv_eq t h.w _ (h.abs.resolve_right (by omega)), abs_of_neg hv]
  · rw [if_neg hv, abs_of_nonneg (by omega)]

theorem quoRaw (h : Ok t S v) : quo v (scale t S) = .ok (shift S 0 v) := by
  rw [scale_eq t S h.scale, quo_eq h.pos]
  unfold shift
  by_cases hv : 0 ≤ v
  · rw [if_pos hv, Int.tdiv_eq_ediv_of_nonneg hv]; simp
  · rw [if_neg hv]
    have hq : v.tdiv S = -(-v / S) := by
      conv_lhs => rw [show v = -(-v) by ring]
      rw [Int.neg_tdiv, Int.tdiv_eq_ediv_of_nonneg (by omega)]
    rw [hq]; simp

theorem remRaw (h : Ok t S v) : rem |v| (scale t S) = .ok (|v| % S) := by
  rw [scale_eq t S h.scale]
  unfold rem
  rw [if_neg (by have := h.pos; omega), Int.tmod_eq_emod_of_nonneg (abs_nonneg v)]

theorem tie_of (he : S % 2 = 0) (hS : 0 < S) {r : Int} (ht : Tie S v r) : |v| % S = (S / 2 : Nat) := by
  have hv : v = r * S + (S / 2 : Nat) ∨ v = r * S - (S / 2 : Nat) := by
    unfold Tie at ht; omega
  have key : ∀ q : Int, (q * S + (S / 2 : Nat)) % S = (S / 2 : Nat) := by
    intro q
    rw [Int.add_comm, Int.add_mul_emod_self_right]
    exact Int.emod_eq_of_lt (by omega) (by omega)
  rcases abs_choice v with e | e
  · rw [e]
    rcases hv with hv | hv
    · rw [hv]; exact key r
    · rw [hv, show r * S - ((S / 2 : Nat) : Int) = (r - 1) * S + (S / 2 : Nat) by
        have : (S : Int) = (S / 2 : Nat) + (S / 2 : Nat) := by omega
        rw [sub_mul]; omega]
      exact key _
  · rw [e]
    rcases hv with hv | hv
    · rw [hv, show -(r * S + ((S / 2 : Nat) : Int)) = (-r - 1) * S + (S / 2 : Nat) by
        have : (S : Int) = (S / 2 : Nat) + (S / 2 : Nat) := by omega
        rw [sub_mul, neg_mul]; omega]
      exact key _
    · rw [hv, show -(r * S - ((S / 2 : Nat) : Int)) = (-r) * S + (S / 2 : Nat) by rw [neg_mul]; omega]
      exact key _

theorem ediv_of {x q c S : Int} (h : x = q * S + c) (h0 : 0 ≤ c) (h1 : c < S) : x / S = q := by
  rw [h, Int.add_comm, Int.add_mul_ediv_right _ _ (by omega), Int.ediv_eq_zero_of_lt h0 h1, Int.zero_add]

/-- At a tie: down gives the quotient toward zero, up the next one. -/
theorem tie_shift (he : S % 2 = 0) (hS : 0 < S) (ht : |v| % S = (S / 2 : Nat)) :
    shift S (S / 2 - 1) v = shift S 0 v ∧ (shift S (S / 2) v = shift S 0 v + 1 ∨ shift S (S / 2) v = shift S 0 v - 1) := by
  have hd := Int.mul_ediv_add_emod |v| S
  rw [ht] at hd
  generalize hq : |v| / (S : Int) = q at hd
  rw [Int.mul_comm] at hd
  have h0 : (|v| + ((0 : Nat) : Int)) / S = q := ediv_of (c := (S / 2 : Nat)) (by omega) (by omega) (by omega)
  have h1 : (|v| + ((S / 2 - 1 : Nat) : Int)) / S = q := ediv_of (c := (S / 2 : Nat) + (S / 2 - 1 : Nat)) (by omega) (by omega) (by omega)
  have h2 : (|v| + ((S / 2 : Nat) : Int)) / S = q + 1 := ediv_of (c := 0) (by rw [add_mul]; omega) (by omega) (by omega)
  unfold shift
  by_cases hv : 0 ≤ v
  · rw [abs_of_nonneg hv] at h0 h1 h2
    rw [if_pos hv, if_pos hv, if_pos hv, h0, h1, h2]
    exact ⟨rfl, Or.inl rfl⟩
  · rw [abs_of_neg (by omega)] at h0 h1 h2
    rw [if_neg hv, if_neg hv, if_neg hv, h0, h1, h2]
    exact ⟨rfl, Or.inr (by omega)⟩

/-- C85: to the nearest, halves to the even one (Banker's rounding). -/
theorem C85_half_even (h : Ok t S v) (he : S % 2 = 0) : ∃ r, halfEven t S v = .ok r ∧ IsNearest S v r ∧ (Tie S v r → r % 2 = 0) := by
  obtain ⟨r1, e1, n1, _⟩ := C85_half_up h he
  obtain ⟨r2, e2, n2, _⟩ := C85_half_down h he
  unfold halfEven
  simp only [bind, Except.bind, abs_eq h, remRaw h, quoRaw h]
  rw [scale_eq t _ (half_lt h (S / 2) (by omega))]
  by_cases ht : |v| % (S : Int) = (S / 2 : Nat)
  · rw [if_pos ht]
    obtain ⟨a, b⟩ := tie_shift he h.pos ht
    rw [halfUp_eq h] at e1
    rw [halfDown_eq h] at e2
    cases e1; cases e2
    by_cases ho : shift S 0 v % 2 ≠ 0
    · rw [if_pos ho]
      exact ⟨_, halfUp_eq h, n1, fun _ => by omega⟩
    · rw [if_neg ho]
      exact ⟨_, halfDown_eq h, n2, fun _ => by omega⟩
  · rw [if_neg ht]
    exact ⟨r1, e1, n1, fun hT => absurd (tie_of he h.pos hT) ht⟩

/-- C85: to the nearest, halves to the odd one. -/
theorem C85_half_odd (h : Ok t S v) (he : S % 2 = 0) : ∃ r, halfOdd t S v = .ok r ∧ IsNearest S v r ∧ (Tie S v r → r % 2 = 1) := by
  obtain ⟨r1, e1, n1, _⟩ := C85_half_up h he
  obtain ⟨r2, e2, n2, _⟩ := C85_half_down h he
  unfold halfOdd
  simp only [bind, Except.bind, abs_eq h, remRaw h, quoRaw h]
  rw [scale_eq t _ (half_lt h (S / 2) (by omega))]
  by_cases ht : |v| % (S : Int) = (S / 2 : Nat)
  · rw [if_pos ht]
    obtain ⟨a, b⟩ := tie_shift he h.pos ht
    rw [halfUp_eq h] at e1
    rw [halfDown_eq h] at e2
    cases e1; cases e2
    by_cases ho : shift S 0 v % 2 ≠ 0
    · rw [if_pos ho]
      exact ⟨_, halfDown_eq h, n2, fun _ => by omega⟩
    · rw [if_neg ho]
      exact ⟨_, halfUp_eq h, n1, fun _ => by omega⟩
  · rw [if_neg ht]
    exact ⟨r1, e1, n1, fun hT => absurd (tie_of he h.pos hT) ht⟩

/-- Adding the whole scaling. -/
theorem add_one (S : Nat) (hS : 0 < S) (x : Int) : (x + S) / S = x / S + 1 := by
  rw [Int.add_ediv_of_dvd_right (Int.dvd_refl _), Int.ediv_self (by omega)]

theorem next_in (h : Ok t S v) (hd : ¬ (S : Int) ∣ v) : (0 ≤ v → In t ((v + S) / S)) ∧ (v < 0 → In t (-((-v + S) / S))) := by
  have h2 : 2 ≤ S := by
    rcases Nat.lt_or_ge S 2 with h1 | h1
    · have : S = 1 := by have := h.pos; omega
      subst this; simp at hd
    · exact h1
  have hv0 : v ≠ 0 := fun e => hd (by rw [e]; simp)
  have key : ∀ x : Int, 0 < x → ¬ (S : Int) ∣ x → (x + S) / S ≤ x ∧ 0 ≤ (x + S) / S := by
    intro x hx hdx
    refine ⟨?_, Int.ediv_nonneg (by omega) (by omega)⟩
    rcases Int.lt_or_le x 2 with hx1 | hx1
    · have : x = 1 := by omega
      subst this
      rw [add_one S h.pos, Int.ediv_eq_zero_of_lt (by omega) (by omega)]; omega
    · rw [add_one S h.pos]
      have : x / (S : Int) < x := Int.ediv_lt_of_lt_mul (by omega) (by nlinarith)
      omega
  constructor
  · intro hv
    have := key v (by omega) hd
    exact in_of_le h.val h.abs ⟨fun _ => by omega, fun _ => by omega⟩
  · intro hv
    have := key (-v) (by omega) (by rwa [Int.dvd_neg])
    exact in_of_le h.val h.abs ⟨fun _ => by omega, fun _ => by omega⟩

theorem strict (hS : 0 < S) {x : Int} (hd : ¬ (S : Int) ∣ x) : x / S * S < x := by
  have h1 := Int.mul_ediv_add_emod x S
  have h2 := Int.emod_nonneg x (b := (S : Int)) (by omega)
  have h3 : x % S ≠ 0 := fun e => hd (Int.dvd_of_emod_eq_zero e)
  rw [Int.mul_comm] at h1; omega

theorem up_next (h : Ok t S v) (hv : 0 ≤ v) (hd : ¬ (S : Int) ∣ v) : ∃ r, up t S v (scale t S) = .ok r ∧ IsCeil S v r := by
  rw [scale_eq t S h.scale]
  refine ⟨_, up_eq h hv (le_refl _) ((next_in h hd).1 hv), ?_⟩
  rw [add_one S h.pos]
  have := div_facts v h.pos
  have := strict h.pos hd
  exact ⟨by rw [show v / (S : Int) + 1 - 1 = v / S by ring]; exact this, by omega⟩

theorem down_next (h : Ok t S v) (hv : v < 0) (hd : ¬ (S : Int) ∣ v) : ∃ r, down t S v (scale t S) = .ok r ∧ IsFloor S v r := by
  rw [scale_eq t S h.scale]
  refine ⟨_, down_eq h hv (le_refl _) ((next_in h hd).2 hv), ?_⟩
  rw [add_one S h.pos]
  have h1 := div_facts (-v) h.pos
  have h2 := strict h.pos (x := -v) (by rwa [Int.dvd_neg])
  exact ⟨by nlinarith, by nlinarith⟩

/-- C85: the least integer not below, of every value that is not a multiple of the scaling, and of every negative one.  What is missing: the multiples that are not negative, where the function is wrong (`C85_finding_ceiling`). -/
theorem C85_ceiling_partial (h : Ok t S v) (hd : v < 0 ∨ ¬ (S : Int) ∣ v) : ∃ r, ceiling t S v = .ok r ∧ IsCeil S v r := by
  unfold ceiling
  by_cases hv : 0 ≤ v
  · rw [if_pos hv]; exact up_next h hv (hd.resolve_left (by omega))
  · rw [if_neg hv]
    exact ⟨_, quo0 h, (zero_spec h.pos v).2 (by omega)⟩

/-- C85: the greatest integer not above, of every value that is not a multiple of the scaling, and of every one that is not negative.  What is missing: the negative multiples, where the function is wrong (`C85_finding_floor`). -/
theorem C85_floor_partial (h : Ok t S v) (hd : 0 ≤ v ∨ ¬ (S : Int) ∣ v) : ∃ r, floor t S v = .ok r ∧ IsFloor S v r := by
  unfold floor
  by_cases hv : 0 ≤ v
  · rw [if_pos hv]
    exact ⟨_, quo0 h, (zero_spec h.pos v).1 hv⟩
  · rw [if_neg hv]; exact down_next h (by omega) (hd.resolve_left (by omega))

/-- C85: away from zero, of every value that is not a multiple of the scaling.  What is missing: the multiples, where the function is wrong (`C85_finding_infinity`). -/
theorem C85_infinity_partial (h : Ok t S v) (hd : ¬ (S : Int) ∣ v) : ∃ r, infinity t S v = .ok r ∧ IsAway S v r := by
  have hv0 : v ≠ 0 := fun e => hd (by rw [e]; simp)
  unfold infinity
  by_cases hv : 0 ≤ v
  · rw [if_pos hv]
    obtain ⟨r, e, hr⟩ := up_next h hv hd
    exact ⟨r, e, fun _ => hr, fun _ => by omega⟩
  · rw [if_neg hv]
    obtain ⟨r, e, hr⟩ := down_next h (by omega) hd
    exact ⟨r, e, fun _ => by omega, fun _ => hr⟩

/-- C85: the `..._scaled` functions give the rounded value times the scaling, if the type has this value. -/
theorem C85_scaled (f : Ty → Nat → Int → Res Int) (h : Ok t S v) {r : Int} (hf : f t S v = .ok r) (hin : In t (r * S)) : scaled f t S v = .ok (r * S) := by
  unfold scaled
  have hpw : ∀ k l : Nat, k ≤ l → (2 : Int) ^ k ≤ 2 ^ l := fun k l hkl => pow_le_pow_right₀ (by omega) hkl
  have h1 : arith t (r * S) = .ok (r * S) := by
    unfold arith In at *
    cases hs : t.sgn with
    | true =>
      rw [hs] at hin
      simp only [if_true] at hin ⊢
      have := hpw (t.w - 1) (t.a - 1) (by unfold Ty.a; omega)
      rw [if_pos ⟨by omega, by omega⟩]
    | false =>
      rw [hs] at hin
      simp only [Bool.false_eq_true, if_false] at hin ⊢
      have := hpw t.w t.a (by unfold Ty.a; omega)
      rw [Int.emod_eq_of_lt hin.1 (by omega)]
  simp only [bind, Except.bind, hf, scale_eq t S h.scale, h1]
  rw [conv_eq t h.w _ hin]

/-! ## Findings -/

/-- `round_ceiling` of a multiple of the scaling that is not negative gives the next integer: 1.00 becomes 2, 0 becomes 1 (l.74). -/
theorem C85_finding_ceiling (h : Ok t S v) (hv : 0 ≤ v) (hd : (S : Int) ∣ v) (hin : In t (v / S + 1)) : ceiling t S v = .ok (v / S + 1) ∧ ¬ IsCeil S v (v / S + 1) := by
  constructor
  · unfold ceiling
    rw [if_pos hv, scale_eq t S h.scale, up_eq h hv (le_refl _) (by rw [add_one S h.pos]; exact hin), add_one S h.pos]
  · intro hc
    have := hc.1
    rw [show v / (S : Int) + 1 - 1 = v / S by ring, Int.ediv_mul_cancel hd] at this
    omega

/-- `round_floor` of a negative multiple gives the integer below: -1.00 becomes -2 (l.112). -/
theorem C85_finding_floor (h : Ok t S v) (hv : v < 0) (hd : (S : Int) ∣ v) (hin : In t (v / S - 1)) : floor t S v = .ok (v / S - 1) ∧ ¬ IsFloor S v (v / S - 1) := by
  have he : -((-v + S) / (S : Int)) = v / S - 1 := by rw [add_one S h.pos, Int.neg_ediv_of_dvd hd]; ring
  constructor
  · unfold floor
    rw [if_neg (by omega), scale_eq t S h.scale, down_eq h hv (le_refl _) (by rw [he]; exact hin), he]
  · intro hc
    have := hc.2
    rw [show v / (S : Int) - 1 + 1 = v / S by ring, Int.ediv_mul_cancel hd] at this
    omega

/-- `round_infinity` of a multiple gives the next integer away from zero: 0 becomes 1 (l.243, l.247). -/
theorem C85_finding_infinity : infinity ⟨true, 32⟩ 100 0 = .ok 1 ∧ infinity ⟨true, 32⟩ 100 100 = .ok 2 ∧ infinity ⟨true, 32⟩ 100 (-100) = .ok (-2) ∧ ¬ IsAway 100 0 1 := by
  refine ⟨rfl, rfl, rfl, fun h => ?_⟩
  have := (h.1 (by omega)).1
  omega

/-- Banker's rounding of the least value of a narrow type: -128 / 256 = -0.5 becomes -1, not 0, since `absolute(-128)` is -128. -/
theorem C85_finding_least : halfEven ⟨true, 8⟩ 256 (-128) = .ok (-1) := by decide +kernel

/-! ## Examples -/

example : Ok ⟨true, 32⟩ 100 (-250) := ⟨by decide, by decide, by decide, by unfold In; decide, Or.inl (by unfold In; decide), by unfold Ty.a; decide⟩
example : halfEven ⟨true, 32⟩ 100 250 = .ok 2 ∧ halfEven ⟨true, 32⟩ 100 (-350) = .ok (-4) ∧ halfOdd ⟨true, 32⟩ 100 250 = .ok 3 ∧ halfUp ⟨true, 32⟩ 100 250 = .ok 3 ∧ halfDown ⟨true, 32⟩ 100 (-250) = .ok (-2) ∧
    zero ⟨true, 16⟩ 100 (-299) = .ok (-2) ∧ ceiling ⟨false, 8⟩ 100 201 = .ok 3 ∧ floor ⟨true, 16⟩ 100 (-201) = .ok (-3) ∧ scaled halfUp ⟨true, 32⟩ 100 250 = .ok 300 := by decide +kernel

end Etl.Rounding
