import Verif.Cyclic.Model
import Mathlib.Tactic.SplitIfs

/-!
# Properties of `etl::cyclic_value` (C40)
-/
namespace Etl.Cyclic

/-! ## Specification: a point on a cycle of `last - first + 1` values -/

/-- `v` moved `n` steps around the cycle `[f, l]` (mathematical `mod`, result in `[0, length)`). -/
def around (f l v n : Int) : Int := f + (v - f + n) % (l - f + 1)

def clamp (f l v : Int) : Int := max f (min l v)

/-- (first object, second object) as (first, last, value). -/
def specStep (p : St × St) : Op → (St × St) × Option Int
  | .set v => (({ p.1 with value := clamp p.1.first p.1.last v }, p.2), none)
  | .setRange f l => ((⟨f, f, l⟩, p.2), none)
  | .toFirst => (({ p.1 with value := p.1.first }, p.2), none)
  | .toLast => (({ p.1 with value := p.1.last }, p.2), none)
  | .inc => (({ p.1 with value := around p.1.first p.1.last p.1.value 1 }, p.2), none)
  | .dec => (({ p.1 with value := around p.1.first p.1.last p.1.value (-1) }, p.2), none)
  | .advance n => (({ p.1 with value := around p.1.first p.1.last p.1.value n }, p.2), none)
  | .postInc => (({ p.1 with value := around p.1.first p.1.last p.1.value 1 }, p.2), some p.1.value)
  | .postDec => (({ p.1 with value := around p.1.first p.1.last p.1.value (-1) }, p.2), some p.1.value)
  | .swap => ((p.2, p.1), none)
  | .assign => ((p.2, p.2), none)

def specRun (p : St × St) : List Op → (St × St) × List (Option Int)
  | [] => (p, [])
  | o :: os => ((specRun (specStep p o).1 os).1, (specStep p o).2 :: (specRun (specStep p o).1 os).2)

/-- `advance` takes an `int` other than the smallest one; a new range is a range of `T`. -/
def Legal (ty : Ty) : Op → Prop
  | .advance n => -ty.imax ≤ n ∧ n ≤ ty.imax
  | .setRange f l => ty.tmin ≤ f ∧ f ≤ l ∧ l ≤ ty.tmax
  | _ => True

/-- A proper object: limits in the range of the type, the value between them. -/
def Within (ty : Ty) (s : St) : Prop := ty.tmin ≤ s.first ∧ s.first ≤ s.value ∧ s.value ≤ s.last ∧ s.last ≤ ty.tmax

/-! ## Proof -/

theorem around_range {f l v n : Int} (h : f ≤ l) : f ≤ around f l v n ∧ around f l v n ≤ l := by
  have h1 := Int.emod_nonneg (v - f + n) (show l - f + 1 ≠ 0 by omega)
  have h2 := Int.emod_lt_of_pos (v - f + n) (show 0 < l - f + 1 by omega)
  unfold around; omega

theorem around_zero {f l v : Int} (h1 : f ≤ v) (h2 : v ≤ l) : around f l v 0 = v := by
  unfold around; rw [Int.add_zero, Int.emod_eq_of_lt (by omega) (by omega)]; omega

theorem around_add {f l v : Int} (m n : Int) : around f l (around f l v m) n = around f l v (m + n) := by
  unfold around
  congr 1
  rw [show f + (v - f + m) % (l - f + 1) - f + n = (v - f + m) % (l - f + 1) + n by omega, Int.emod_add_emod]
  congr 1; omega

theorem inc_ok {ty : Ty} {s : St} (h : Within ty s) : inc ty s = .ok { s with value := around s.first s.last s.value 1 } := by
  obtain ⟨h1, h2, h3, h4⟩ := h
  unfold inc around
  by_cases hc : s.value ≥ s.last
  · rw [if_pos hc]
    have : s.value - s.first + 1 = s.last - s.first + 1 := by omega
    rw [this, Int.emod_self]; simp
  · rw [if_neg hc, arith, if_pos (by omega)]
    rw [Int.emod_eq_of_lt (by omega) (by omega)]
    simp only [bind, Except.bind]; congr 2; omega

theorem dec_ok {ty : Ty} {s : St} (h : Within ty s) : dec ty s = .ok { s with value := around s.first s.last s.value (-1) } := by
  obtain ⟨h1, h2, h3, h4⟩ := h
  unfold dec around
  by_cases hc : s.value ≤ s.first
  · rw [if_pos hc]
    have : s.value - s.first + -1 = (s.last - s.first) + (s.last - s.first + 1) * (-1) := by omega
    rw [this, Int.add_mul_emod_self_left, Int.emod_eq_of_lt (by omega) (by omega)]
    congr 2; omega
  · rw [if_neg hc, arith, if_pos (by omega)]
    rw [Int.emod_eq_of_lt (by omega) (by omega)]
    simp only [bind, Except.bind]; congr 2; omega

theorem Within.around {ty : Ty} {s : St} (h : Within ty s) (n : Int) : Within ty { s with value := around s.first s.last s.value n } := by
  obtain ⟨h1, h2, h3, h4⟩ := h
  have := around_range (f := s.first) (l := s.last) (v := s.value) (n := n) (by omega)
  exact ⟨h1, this.1, this.2, h4⟩

theorem repeat_ok {ty : Ty} {f : St → Res St} {d : Int} (hf : ∀ s, Within ty s → f s = .ok { s with value := around s.first s.last s.value d }) :
    ∀ (k : Nat) {s : St}, Within ty s → repeatOp f k s = .ok { s with value := around s.first s.last s.value (d * k) }
  | 0, s, h => by
    obtain ⟨h1, h2, h3, h4⟩ := h
    simp [repeatOp, around_zero h2 h3]
  | k + 1, s, h => by
    have := repeat_ok hf k (h.around d)
    simp only [repeatOp, hf s h, bind, Except.bind, this]
    rw [around_add]
    congr 3; rw [Int.natCast_add, Int.mul_add]; omega

theorem advance_ok {ty : Ty} {s : St} {n : Int} (h : Within ty s) (hn : -ty.imax ≤ n) : advance ty s n = .ok { s with value := around s.first s.last s.value n } := by
  unfold advance
  by_cases h0 : n > 0
  · rw [if_pos h0, repeat_ok (d := 1) (fun s hs => inc_ok hs) _ h]
    congr 3; omega
  · rw [if_neg h0, if_neg (by omega), repeat_ok (d := -1) (fun s hs => dec_ok hs) _ h]
    congr 3; omega

theorem set_ok {s : St} (v : Int) (h : s.first ≤ s.last) : (set s v).value = clamp s.first s.last v := by
  unfold set clamp; simp only; split_ifs <;> omega

theorem step_ok {ty : Ty} {p : St × St} (h1 : Within ty p.1) (h2 : Within ty p.2) (o : Op) (hl : Legal ty o) :
    step ty p o = .ok (specStep p o) ∧ Within ty (specStep p o).1.1 ∧ Within ty (specStep p o).1.2 := by
  have hr : p.1.first ≤ p.1.last := by obtain ⟨a, b, c, d⟩ := h1; omega
  cases o with
  | set v =>
    have := set_ok v hr
    refine ⟨by simp only [step, specStep]; rw [← this]; rfl, ?_, h2⟩
    obtain ⟨a, b, c, d⟩ := h1
    refine ⟨a, ?_, ?_, d⟩ <;> simp only [specStep, clamp] <;> omega
  | setRange f l => obtain ⟨a, b, c⟩ := hl; exact ⟨rfl, ⟨a, Int.le_refl _, b, c⟩, h2⟩
  | toFirst => obtain ⟨a, b, c, d⟩ := h1; exact ⟨rfl, ⟨a, Int.le_refl _, hr, d⟩, h2⟩
  | toLast => obtain ⟨a, b, c, d⟩ := h1; exact ⟨rfl, ⟨a, hr, Int.le_refl _, d⟩, h2⟩
  | inc => exact ⟨by simp [step, inc_ok h1, bind, Except.bind, specStep], h1.around 1, h2⟩
  | dec => exact ⟨by simp [step, dec_ok h1, bind, Except.bind, specStep], h1.around (-1), h2⟩
  | advance n => exact ⟨by simp [step, advance_ok h1 hl.1, bind, Except.bind, specStep], h1.around n, h2⟩
  | postInc => exact ⟨by simp [step, postInc, inc_ok h1, bind, Except.bind, specStep], h1.around 1, h2⟩
  | postDec => exact ⟨by simp [step, postDec, dec_ok h1, bind, Except.bind, specStep], h1.around (-1), h2⟩
  | swap => exact ⟨rfl, h2, h1⟩
  | assign => exact ⟨rfl, h2, h2⟩

/-- **C40.** Any history on cyclic values with proper limits is free of overflow, keeps `first <= value <= last`, and every operation is the specified walk on
the cycle; in particular `advance(n)` is `n` steps modulo the cycle length. -/
theorem C40_cyclic_value_refines {ty : Ty} (os : List Op) : ∀ {p : St × St}, Within ty p.1 → Within ty p.2 → (∀ o ∈ os, Legal ty o) →
    run ty p os = .ok (specRun p os) ∧ Within ty (specRun p os).1.1 ∧ Within ty (specRun p os).1.2 := by
  induction os with
  | nil => intro p h1 h2 _; exact ⟨rfl, h1, h2⟩
  | cons o os ih =>
    intro p h1 h2 hl
    obtain ⟨e, g1, g2⟩ := step_ok h1 h2 o (hl o (by simp))
    obtain ⟨e2, g3, g4⟩ := ih g1 g2 (fun o ho => hl o (by simp [ho]))
    refine ⟨?_, g3, g4⟩
    rw [run, e]; simp only [bind, Except.bind]; rw [e2]; rfl

/-- `advance(n)` leaves the value on the cycle, at the place congruent to `value + n`. -/
theorem C40_advance_mod {ty : Ty} {s : St} {n : Int} (h : Within ty s) (hn : -ty.imax ≤ n) :
    ∃ s', advance ty s n = .ok s' ∧ s.first ≤ s'.value ∧ s'.value ≤ s.last ∧ (s.last - s.first + 1) ∣ (s'.value - (s.value + n)) ∧ s'.first = s.first ∧ s'.last = s.last := by
  refine ⟨_, advance_ok h hn, ?_⟩
  obtain ⟨h1, h2, h3, h4⟩ := h
  have := around_range (f := s.first) (l := s.last) (v := s.value) (n := n) (by omega)
  refine ⟨this.1, this.2, ?_, rfl, rfl⟩
  have h5 := Int.mul_ediv_add_emod (s.value - s.first + n) (s.last - s.first + 1)
  refine ⟨-((s.value - s.first + n) / (s.last - s.first + 1)), ?_⟩
  show around _ _ _ _ - _ = _
  unfold around
  rw [Int.mul_neg]; omega

/-- Constructed objects are proper. -/
theorem C40_constructed {ty : Ty} {f l : Int} (i : Int) (h1 : ty.tmin ≤ f) (h2 : f ≤ l) (h3 : l ≤ ty.tmax) : Within ty (mk2 f l) ∧ Within ty (mk3 f l i) ∧ (mk3 f l i).value = clamp f l i := by
  refine ⟨⟨h1, Int.le_refl _, h2, h3⟩, ?_, set_ok i h2⟩
  have := set_ok (s := ⟨i, f, l⟩) i h2
  refine ⟨h1, ?_, ?_, h3⟩
  · show f ≤ (set ⟨i, f, l⟩ i).value; rw [this]; simp only [clamp]; omega
  · show (set ⟨i, f, l⟩ i).value ≤ l; rw [this]; simp only [clamp]; omega

/-- `advance` of the smallest `int` negates it: undefined behaviour. -/
theorem advance_min_overflows (ty : Ty) (s : St) (h : 0 ≤ ty.imax) : advance ty s (-ty.imax - 1) = .error .overflow := by
  unfold advance; rw [if_neg (by omega), if_pos (by omega)]

/-! ## Examples -/
def int8 : Ty := ⟨-128, 127, 2147483647⟩
example : Within int8 (mk2 (-3) 5) := by refine ⟨?_, ?_, ?_, ?_⟩ <;> decide
example : run int8 (mk2 (-128) 127, mk3 0 5 9) [.dec, .inc, .swap, .inc, .advance (-14), .postDec] = .ok ((⟨3, 0, 5⟩, ⟨-128, -128, 127⟩), [none, none, none, none, none, some 4]) := by rfl

end Etl.Cyclic
