import Verif.Line.Model
import Mathlib.Tactic.Ring
import Mathlib.Tactic.SplitIfs
import Mathlib.Tactic.Linarith

/-! # C70: Bresenham lines -/
namespace Etl.Line

/-! ## Specification -/

/-- The number of steps from one point to the other: the larger of the two distances. -/
def steps (f l : Pt) : Nat := max (l.x - f.x).natAbs (l.y - f.y).natAbs

/-- The smaller of the two distances. -/
def minorSteps (f l : Pt) : Nat := min (l.x - f.x).natAbs (l.y - f.y).natAbs

/-- The point `q` is one step from `p` on the way from `f` to `l`: one unit along the longer axis, none or one along the other, both towards `l`. -/
def Step (f l p q : Pt) : Prop :=
  if (l.x - f.x).natAbs < (l.y - f.y).natAbs then
    q.y = p.y + (l.y - f.y).sign ∧ (q.x = p.x ∨ q.x = p.x + (l.x - f.x).sign)
  else
    q.x = p.x + (l.x - f.x).sign ∧ (q.y = p.y ∨ q.y = p.y + (l.y - f.y).sign)

/-- Twice the distance of a point from the ideal line, along the shorter axis, times the length of the longer. -/
def off (f l p : Pt) : Nat := (2 * ((p.x - f.x) * (l.y - f.y) - (p.y - f.y) * (l.x - f.x))).natAbs

/-- What users expect of the points of a line: as many as `steps + 1`, from `f` to `l`, each one step from the one before, and off the ideal line by at most half
a unit, or by at most the slope if that is more than one half (less than one unit in any case). -/
structure Good (f l : Pt) (ps : List Pt) : Prop where
  count : ps.length = steps f l + 1
  head : ps.head? = some f
  last : ps.getLast? = some l
  next : ∀ i p q, ps[i]? = some p → ps[i + 1]? = some q → Step f l p q
  close : ∀ p ∈ ps, off f l p ≤ max (2 * minorSteps f l) (steps f l)

/-! ## The automaton: balance, flag, and number of steps made on the minor axis -/

structure A where
  b : Int
  mn : Bool
  k : Nat

def aStep (m M : Nat) (a : A) : A :=
  let b := (if a.mn then a.b - 2 * M else a.b) + 2 * m
  ⟨b, decide (b ≥ 0), if a.mn then a.k + 1 else a.k⟩

def aRun (m M : Nat) (a : A) : Nat → A
  | 0 => a
  | i + 1 => aStep m M (aRun m M a i)

structure AInv (m M : Nat) (a : A) (i : Nat) : Prop where
  eq : a.b = 2 * m - M + 2 * m * i - 2 * M * a.k
  lo : 2 * (m : Int) - 2 * M ≤ a.b
  hi : a.b ≤ 4 * m - M ∨ a.b < 2 * m
  flag : a.mn = decide (a.b ≥ 0) ∨ (a.mn = false ∧ a.b = 2 * m - M)

theorem aInv_step {m M : Nat} (hm : m < M) {a : A} {i : Nat} (h : AInv m M a i) : AInv m M (aStep m M a) (i + 1) := by
  obtain ⟨e, lo, hi, fl⟩ := h
  have hm' : (m : Int) < M := by exact_mod_cast hm
  cases hmn : a.mn with
  | true =>
    have hb : a.b ≥ 0 := by
      rcases fl with fl | fl
      · rw [hmn] at fl; simpa using fl.symm
      · rw [hmn] at fl; cases fl.1
    refine ⟨?_, ?_, ?_, .inl (by simp [aStep])⟩
    · simp only [aStep, hmn, if_true]; rw [e]; push_cast; ring
    · simp only [aStep, hmn, if_true]; omega
    · simp only [aStep, hmn, if_true]; omega
  | false =>
    have hb : a.b < 0 ∨ a.b = 2 * m - M := by
      rcases fl with fl | fl
      · rw [hmn] at fl; left; have := fl.symm; simp at this; omega
      · exact .inr fl.2
    refine ⟨?_, ?_, ?_, .inl (by simp [aStep])⟩
    · simp only [aStep, hmn]; simp; rw [e]; push_cast; ring
    · simp only [aStep, hmn]; simp; omega
    · simp only [aStep, hmn]; simp; omega

theorem aInv_run {m M : Nat} (hm : m < M) {a : A} (h : AInv m M a 0) : ∀ i, AInv m M (aRun m M a i) i
  | 0 => h
  | i + 1 => aInv_step hm (aInv_run hm h i)

theorem aRun_mono {m M : Nat} (a : A) : ∀ i j, i ≤ j → (aRun m M a i).k ≤ (aRun m M a j).k := by
  intro i j h
  induction h with
  | refl => exact Nat.le_refl _
  | step _ ih =>
    refine Nat.le_trans ih ?_
    simp only [aRun, aStep]
    split_ifs <;> omega

/-- After as many steps as the line is long, the minor axis has been stepped exactly as often as it has to be, and the balance is what it was. -/
theorem aRun_end {m M : Nat} (hm : m < M) {a : A} (h : AInv m M a 0) : (aRun m M a M).k = m ∧ (aRun m M a M).b = 2 * m - M := by
  obtain ⟨e, lo, hi, _⟩ := aInv_run hm h M
  have hm' : (m : Int) < M := by exact_mod_cast hm
  have key : (aRun m M a M).b - (2 * m - M) = 2 * M * (m - (aRun m M a M).k) := by rw [e]; ring
  have hk : ((aRun m M a M).k : Int) = m := by
    generalize hD : (m : Int) - (aRun m M a M).k = D at key
    have h1 : D < 1 := by
      by_contra hc
      have : 2 * (M : Int) * 1 ≤ 2 * M * D := Int.mul_le_mul_of_nonneg_left (by omega) (by omega)
      omega
    have h2 : D > -1 := by
      by_contra hc
      have : 2 * (M : Int) * D ≤ 2 * M * (-1) := Int.mul_le_mul_of_nonneg_left (by omega) (by omega)
      omega
    omega
  refine ⟨by exact_mod_cast hk, ?_⟩
  rw [hk] at key; simp at key; omega

/-! ## The code runs the automaton -/

def yMaj (f l : Pt) : Bool := decide ((l.x - f.x).natAbs < (l.y - f.y).natAbs)
def dirX (f l : Pt) : Int := if l.x < f.x then -1 else 1
def dirY (f l : Pt) : Int := if l.y < f.y then -1 else 1

/-- The point after `i` steps, `k` of them also along the minor axis. -/
def ptOf (f l : Pt) (k i : Nat) : Pt :=
  if yMaj f l then ⟨f.x + dirX f l * k, f.y + dirY f l * i⟩ else ⟨f.x + dirX f l * i, f.y + dirY f l * k⟩

def stOf (f l : Pt) (a : A) (i : Nat) : St :=
  ⟨f, l, ptOf f l a.k i, dirX f l, dirY f l, 2 * (l.x - f.x).natAbs, 2 * (l.y - f.y).natAbs, a.b, a.mn⟩

/-- The conversion to `T` leaves the values between the end points alone. -/
def Fits (cv : Int → Int) (f l : Pt) : Prop :=
  (∀ v, min f.x l.x ≤ v → v ≤ max f.x l.x → cv v = v) ∧ (∀ v, min f.y l.y ≤ v → v ≤ max f.y l.y → cv v = v)

theorem fit_ok {v : Int} (h1 : -32768 ≤ v) (h2 : v ≤ 32767) : fit v = .ok v := if_pos ⟨h1, h2⟩

theorem init_eq (f l : Pt) (hs : 3 * steps f l ≤ 32767) : initialise f l = .ok (stOf f l ⟨2 * (minorSteps f l : Int) - steps f l, false, 0⟩ 0) := by
  have ax : (if l.x < f.x then f.x - l.x else l.x - f.x) = ((l.x - f.x).natAbs : Int) := by split_ifs <;> omega
  have ay : (if l.y < f.y then f.y - l.y else l.y - f.y) = ((l.y - f.y).natAbs : Int) := by split_ifs <;> omega
  unfold initialise
  rw [ax, ay]
  unfold steps at hs ⊢
  unfold minorSteps
  unfold stOf ptOf yMaj yMajor
  generalize (l.x - f.x).natAbs = X at *
  generalize (l.y - f.y).natAbs = Y at *
  rw [fit_ok (by omega) (by omega), fit_ok (v := (Y : Int)) (by omega) (by omega)]
  simp only [bind, Except.bind]
  by_cases hxy : X < Y
  · have h1 : ((X : Int) < Y) := by exact_mod_cast hxy
    rw [fit_ok (v := (X : Int) * 2) (by omega) (by omega)]
    simp only [h1, decide_true, if_true, hxy]
    rw [fit_ok (v := (X : Int) * 2 - Y) (by omega) (by omega)]
    simp only []
    rw [fit_ok (v := (Y : Int) * 2) (by omega) (by omega)]
    simp only [dirX, dirY]
    congr 1
    simp
    omega
  · have h1 : ¬ ((X : Int) < Y) := by omega
    rw [fit_ok (v := (Y : Int) * 2) (by omega) (by omega)]
    simp only [h1, decide_false, hxy, Bool.false_eq_true, if_false]
    rw [fit_ok (v := (Y : Int) * 2 - X) (by omega) (by omega)]
    simp only []
    rw [fit_ok (v := (X : Int) * 2) (by omega) (by omega)]
    simp only [dirX, dirY]
    congr 1
    simp
    omega

theorem next_eq (cv : Int → Int) (f l : Pt) (hs : 3 * steps f l ≤ 32767) (hcv : Fits cv f l) (a : A) (i : Nat) (hi : i < steps f l) (hne : minorSteps f l < steps f l)
    (h : AInv (minorSteps f l) (steps f l) a i) (hk : (aStep (minorSteps f l) (steps f l) a).k ≤ minorSteps f l) :
    next cv (stOf f l a i) = .ok (stOf f l (aStep (minorSteps f l) (steps f l) a) (i + 1)) := by
  obtain ⟨_, lo, hh, fl⟩ := h
  have hb : a.mn = true → a.b ≥ 0 := by
    intro hmn
    rcases fl with fl | fl
    · rw [hmn] at fl; simpa using fl.symm
    · rw [hmn] at fl; cases fl.1
  have hx : ∀ n : Nat, n ≤ (l.x - f.x).natAbs → min f.x l.x ≤ f.x + dirX f l * n ∧ f.x + dirX f l * n ≤ max f.x l.x := by
    intro n hn; unfold dirX; split_ifs <;> omega
  have hy : ∀ n : Nat, n ≤ (l.y - f.y).natAbs → min f.y l.y ≤ f.y + dirY f l * n ∧ f.y + dirY f l * n ≤ max f.y l.y := by
    intro n hn; unfold dirY; split_ifs <;> omega
  have cx : ∀ n : Nat, n + 1 ≤ (l.x - f.x).natAbs → cv (f.x + dirX f l * n + dirX f l) = f.x + dirX f l * ((n + 1 : Nat) : Int) := by
    intro n hn
    rw [show f.x + dirX f l * n + dirX f l = f.x + dirX f l * ((n + 1 : Nat) : Int) by push_cast; ring]
    exact hcv.1 _ (hx _ hn).1 (hx _ hn).2
  have cy : ∀ n : Nat, n + 1 ≤ (l.y - f.y).natAbs → cv (f.y + dirY f l * n + dirY f l) = f.y + dirY f l * ((n + 1 : Nat) : Int) := by
    intro n hn
    rw [show f.y + dirY f l * n + dirY f l = f.y + dirY f l * ((n + 1 : Nat) : Int) by push_cast; ring]
    exact hcv.2 _ (hy _ hn).1 (hy _ hn).2
  have hm1 : minorSteps f l = min (l.x - f.x).natAbs (l.y - f.y).natAbs := rfl
  have hM1 : steps f l = max (l.x - f.x).natAbs (l.y - f.y).natAbs := rfl
  unfold next stOf ptOf yMaj yMajor
  by_cases hxy : (l.x - f.x).natAbs < (l.y - f.y).natAbs
  · have e1 : (2 * ((l.x - f.x).natAbs : Int) < 2 * ((l.y - f.y).natAbs : Int)) := by omega
    have em : minorSteps f l = (l.x - f.x).natAbs := by omega
    have eM : steps f l = (l.y - f.y).natAbs := by omega
    simp only [hxy, e1, decide_true, if_true]
    cases hmn : a.mn with
    | true =>
      have := hb hmn
      simp only [aStep, hmn, if_true] at hk ⊢
      rw [em] at hk lo hh ⊢; rw [eM] at lo hh hs ⊢
      rw [fit_ok (by omega) (by omega)]
      simp only [bind, Except.bind]
      rw [fit_ok (by omega) (by omega)]
      simp only []
      rw [cx a.k hk, cy i (by omega)]
    | false =>
      simp only [aStep, hmn, Bool.false_eq_true, if_false] at hk ⊢
      have hbn : a.b < 0 ∨ a.b = 2 * minorSteps f l - steps f l := by
        rcases fl with fl | fl
        · rw [hmn] at fl; left; have := fl.symm; simp at this; omega
        · exact .inr fl.2
      rw [em] at lo hh ⊢; rw [eM] at lo hh hs
      simp only [bind, Except.bind]
      rw [fit_ok (by omega) (by omega)]
      simp only []
      rw [cy i (by omega)]
  · have e1 : ¬ (2 * ((l.x - f.x).natAbs : Int) < 2 * ((l.y - f.y).natAbs : Int)) := by omega
    have em : minorSteps f l = (l.y - f.y).natAbs := by omega
    have eM : steps f l = (l.x - f.x).natAbs := by omega
    simp only [hxy, e1, decide_false, Bool.false_eq_true, if_false]
    cases hmn : a.mn with
    | true =>
      have := hb hmn
      simp only [aStep, hmn, if_true] at hk ⊢
      rw [em] at hk lo hh ⊢; rw [eM] at lo hh hs ⊢
      rw [fit_ok (by omega) (by omega)]
      simp only [bind, Except.bind]
      rw [fit_ok (by omega) (by omega)]
      simp only []
      rw [cy a.k hk, cx i (by omega)]
    | false =>
      simp only [aStep, hmn, Bool.false_eq_true, if_false] at hk ⊢
      have hbn : a.b < 0 ∨ a.b = 2 * minorSteps f l - steps f l := by
        rcases fl with fl | fl
        · rw [hmn] at fl; left; have := fl.symm; simp at this; omega
        · exact .inr fl.2
      rw [em] at lo hh ⊢; rw [eM] at lo hh hs
      simp only [bind, Except.bind]
      rw [fit_ok (by omega) (by omega)]
      simp only []
      rw [cx i (by omega)]

theorem pt_last_iff {f l : Pt} {k i : Nat} (hi : i ≤ steps f l) (hk : i = steps f l → k = minorSteps f l) : ptOf f l k i = l ↔ i = steps f l := by
  have hm1 : minorSteps f l = min (l.x - f.x).natAbs (l.y - f.y).natAbs := rfl
  have hM1 : steps f l = max (l.x - f.x).natAbs (l.y - f.y).natAbs := rfl
  unfold ptOf yMaj
  constructor
  · intro h
    by_cases hxy : (l.x - f.x).natAbs < (l.y - f.y).natAbs
    · simp only [hxy, decide_true, if_true] at h
      have h2 : f.y + dirY f l * i = l.y := congrArg Pt.y h
      unfold dirY at h2; split_ifs at h2 <;> omega
    · simp only [hxy, decide_false, Bool.false_eq_true, if_false] at h
      have h2 : f.x + dirX f l * i = l.x := congrArg Pt.x h
      unfold dirX at h2; split_ifs at h2 <;> omega
  · intro h
    have hk := hk h
    by_cases hxy : (l.x - f.x).natAbs < (l.y - f.y).natAbs
    · simp only [hxy, decide_true, if_true]
      have e1 : f.x + dirX f l * k = l.x := by unfold dirX; split_ifs <;> omega
      have e2 : f.y + dirY f l * i = l.y := by unfold dirY; split_ifs <;> omega
      rw [e1, e2]
    · simp only [hxy, decide_false, Bool.false_eq_true, if_false]
      have e1 : f.x + dirX f l * i = l.x := by unfold dirX; split_ifs <;> omega
      have e2 : f.y + dirY f l * k = l.y := by unfold dirY; split_ifs <;> omega
      rw [e1, e2]

/-- The points of a walk from the `i`-th step on. -/
theorem walk_eq (cv : Int → Int) (f l : Pt) (hs : 3 * steps f l ≤ 32767) (hcv : Fits cv f l) (hne : minorSteps f l < steps f l) (a0 : A) (h0 : AInv (minorSteps f l) (steps f l) a0 0)
    (hk0 : a0.k = 0) : ∀ (n i fuel : Nat), i + n = steps f l → n < fuel →
    walk cv fuel (stOf f l (aRun (minorSteps f l) (steps f l) a0 i) i) =
      .ok (stOf f l (aRun (minorSteps f l) (steps f l) a0 (steps f l)) (steps f l),
        (List.range' i (n + 1)).map (fun j => ptOf f l (aRun (minorSteps f l) (steps f l) a0 j).k j)) := by
  have hend := aRun_end hne h0
  intro n
  induction n with
  | zero =>
    intro i fuel hi hf
    cases fuel with
    | zero => omega
    | succ fuel =>
      have hi' : i = steps f l := by omega
      subst hi'
      have hp : ptOf f l (aRun (minorSteps f l) (steps f l) a0 (steps f l)).k (steps f l) = l := (pt_last_iff (Nat.le_refl _) (fun _ => hend.1)).2 rfl
      simp [walk, stOf, hp]
  | succ n ih =>
    intro i fuel hi hf
    cases fuel with
    | zero => omega
    | succ fuel =>
      have hp : ¬ ptOf f l (aRun (minorSteps f l) (steps f l) a0 i).k i = l := by
        rw [pt_last_iff (by omega) (fun h => by omega)]; omega
      have hnx := next_eq cv f l hs hcv (aRun (minorSteps f l) (steps f l) a0 i) i (by omega) hne (aInv_run hne h0 i)
        (by have := aRun_mono (m := minorSteps f l) (M := steps f l) a0 (i + 1) (steps f l) (by omega); rw [hend.1] at this; exact this)
      have hih := ih (i + 1) fuel (by omega) (by omega)
      unfold walk
      rw [if_neg (show ¬ (stOf f l (aRun (minorSteps f l) (steps f l) a0 i) i).coordinate = (stOf f l (aRun (minorSteps f l) (steps f l) a0 i) i).last from hp), hnx]
      simp only []
      rw [show aStep (minorSteps f l) (steps f l) (aRun (minorSteps f l) (steps f l) a0 i) = aRun (minorSteps f l) (steps f l) a0 (i + 1) from rfl, hih]
      simp only [List.range'_succ (n := n + 1), List.map_cons]
      rfl

theorem step_pts {f l : Pt} {k k' i : Nat} (hi : i < steps f l) (hk : k' = k ∨ (k' = k + 1 ∧ k < minorSteps f l)) : Step f l (ptOf f l k i) (ptOf f l k' (i + 1)) := by
  have hm1 : minorSteps f l = min (l.x - f.x).natAbs (l.y - f.y).natAbs := rfl
  have hM1 : steps f l = max (l.x - f.x).natAbs (l.y - f.y).natAbs := rfl
  have sx : (l.x - f.x).natAbs ≠ 0 → (l.x - f.x).sign = dirX f l := by
    intro h; unfold dirX; split_ifs with hc
    · exact Int.sign_eq_neg_one_of_neg (by omega)
    · exact Int.sign_eq_one_of_pos (by omega)
  have sy : (l.y - f.y).natAbs ≠ 0 → (l.y - f.y).sign = dirY f l := by
    intro h; unfold dirY; split_ifs with hc
    · exact Int.sign_eq_neg_one_of_neg (by omega)
    · exact Int.sign_eq_one_of_pos (by omega)
  unfold Step ptOf yMaj
  by_cases hxy : (l.x - f.x).natAbs < (l.y - f.y).natAbs
  · simp only [hxy, decide_true, if_true]
    refine ⟨?_, ?_⟩
    · rw [sy (by omega)]; push_cast; ring
    · rcases hk with rfl | ⟨rfl, hk⟩
      · exact .inl rfl
      · right; rw [sx (by omega)]; push_cast; ring
  · simp only [hxy, decide_false, Bool.false_eq_true, if_false]
    refine ⟨?_, ?_⟩
    · rw [sx (by omega)]; push_cast; ring
    · rcases hk with rfl | ⟨rfl, hk⟩
      · exact .inl rfl
      · right; rw [sy (by omega)]; push_cast; ring

theorem dir_mul (f l : Pt) : l.x - f.x = dirX f l * (l.x - f.x).natAbs ∧ l.y - f.y = dirY f l * (l.y - f.y).natAbs := by
  unfold dirX dirY; constructor <;> split_ifs <;> omega

theorem dir_cases (f l : Pt) : (dirX f l = 1 ∨ dirX f l = -1) ∧ (dirY f l = 1 ∨ dirY f l = -1) := by
  unfold dirX dirY; constructor <;> split_ifs <;> simp

theorem off_pts {f l : Pt} {k i : Nat} : off f l (ptOf f l k i) = (2 * ((minorSteps f l : Int) * i) - 2 * (steps f l * k)).natAbs := by
  have hm1 : minorSteps f l = min (l.x - f.x).natAbs (l.y - f.y).natAbs := rfl
  have hM1 : steps f l = max (l.x - f.x).natAbs (l.y - f.y).natAbs := rfl
  have hd := dir_mul f l
  have hc := dir_cases f l
  unfold off ptOf yMaj
  by_cases hxy : (l.x - f.x).natAbs < (l.y - f.y).natAbs
  · have em : minorSteps f l = (l.x - f.x).natAbs := by omega
    have eM : steps f l = (l.y - f.y).natAbs := by omega
    simp only [hxy, decide_true, if_true]
    rw [em, eM]
    generalize (l.x - f.x).natAbs = X at *
    generalize (l.y - f.y).natAbs = Y at *
    rw [hd.1, hd.2]
    have : 2 * ((f.x + dirX f l * k - f.x) * (dirY f l * (Y : Int)) - (f.y + dirY f l * i - f.y) * (dirX f l * (X : Int))) =
        (dirX f l * dirY f l) * (2 * (Y * k) - 2 * (X * i)) := by ring
    rw [this, Int.natAbs_mul]
    have h1 : (dirX f l * dirY f l).natAbs = 1 := by rcases hc.1 with h | h <;> rcases hc.2 with h' | h' <;> rw [h, h'] <;> rfl
    rw [h1]; generalize (X : Int) * i = p; generalize (Y : Int) * k = q; omega
  · have em : minorSteps f l = (l.y - f.y).natAbs := by omega
    have eM : steps f l = (l.x - f.x).natAbs := by omega
    simp only [hxy, decide_false, Bool.false_eq_true, if_false]
    rw [em, eM]
    generalize (l.x - f.x).natAbs = X at *
    generalize (l.y - f.y).natAbs = Y at *
    rw [hd.1, hd.2]
    have : 2 * ((f.x + dirX f l * i - f.x) * (dirY f l * (Y : Int)) - (f.y + dirY f l * k - f.y) * (dirX f l * (X : Int))) =
        (dirX f l * dirY f l) * (2 * (Y * i) - 2 * (X * k)) := by ring
    rw [this, Int.natAbs_mul]
    have h1 : (dirX f l * dirY f l).natAbs = 1 := by rcases hc.1 with h | h <;> rcases hc.2 with h' | h' <;> rw [h, h'] <;> rfl
    rw [h1]; generalize (X : Int) * k = p; generalize (Y : Int) * i = q; omega

theorem good_pts {f l : Pt} (hne : minorSteps f l < steps f l) (a0 : A) (h0 : AInv (minorSteps f l) (steps f l) a0 0) (hk0 : a0.k = 0) :
    Good f l ((List.range' 0 (steps f l + 1)).map (fun j => ptOf f l (aRun (minorSteps f l) (steps f l) a0 j).k j)) := by
  have hend := aRun_end hne h0
  have hget : ∀ i p, ((List.range' 0 (steps f l + 1)).map (fun j => ptOf f l (aRun (minorSteps f l) (steps f l) a0 j).k j))[i]? = some p →
      i ≤ steps f l ∧ p = ptOf f l (aRun (minorSteps f l) (steps f l) a0 i).k i := by
    intro i p hp
    have hi : i < steps f l + 1 := by
      by_contra hc
      rw [List.getElem?_eq_none (by simp; omega)] at hp; cases hp
    rw [List.getElem?_map, List.getElem?_range' hi] at hp
    simp at hp
    exact ⟨by omega, hp.symm⟩
  refine ⟨by simp, ?_, ?_, ?_, ?_⟩
  · rw [List.range'_succ]
    simp only [List.map_cons, List.head?_cons, aRun, hk0]
    unfold ptOf; simp
  · rw [List.getLast?_eq_getElem?]
    simp only [List.length_map, List.length_range', Nat.add_sub_cancel]
    rw [List.getElem?_map, List.getElem?_range' (by omega)]
    simp only [Option.map_some, Nat.zero_add, Nat.one_mul]
    rw [(pt_last_iff (Nat.le_refl _) (fun _ => hend.1)).2 rfl]
  · intro i p q hp hq
    obtain ⟨h1, rfl⟩ := hget i p hp
    obtain ⟨h2, rfl⟩ := hget (i + 1) q hq
    refine step_pts (by omega) ?_
    have hmono := aRun_mono (m := minorSteps f l) (M := steps f l) a0 (i + 1) (steps f l) (by omega)
    rw [hend.1] at hmono
    simp only [aRun, aStep] at hmono ⊢
    split_ifs at hmono ⊢
    · right; exact ⟨rfl, by omega⟩
    · left; rfl
  · intro p hp
    obtain ⟨j, hj, rfl⟩ := List.mem_map.1 hp
    rw [off_pts]
    obtain ⟨e, lo, hi, _⟩ := aInv_run hne h0 j
    have : 2 * ((minorSteps f l : Int) * j) - 2 * (steps f l * (aRun (minorSteps f l) (steps f l) a0 j).k) =
        (aRun (minorSteps f l) (steps f l) a0 j).b - 2 * minorSteps f l + steps f l := by rw [e]; ring
    rw [this]
    omega

/-! ## C70 -/

/-- The states of a line object after any number of complete iterations. -/
inductive Again (cv : Int → Int) (s0 : St) : St → Prop
  | fresh : Again cv s0 s0
  | again {s s' : St} {fuel : Nat} {ps : List Pt} : Again cv s0 s → iterate cv fuel s = .ok (s', ps) → Again cv s0 s'

theorem walk_mono (cv : Int → Int) : ∀ (fuel : Nat) (s : St) (r : St × List Pt), walk cv fuel s = .ok r → ∀ n, walk cv (fuel + n) s = .ok r
  | 0, s, r, h, n => by cases h
  | fuel + 1, s, r, h, n => by
    rw [show fuel + 1 + n = (fuel + n) + 1 from by omega]
    unfold walk at h ⊢
    split_ifs at h ⊢ with hc
    · exact h
    · cases hn : next cv s with
      | error u => rw [hn] at h; cases h
      | ok s' =>
        rw [hn] at h
        simp only at h ⊢
        cases hw : walk cv fuel s' with
        | error u => rw [hw] at h; cases h
        | ok q => rw [walk_mono cv fuel s' q hw n]; rw [hw] at h; exact h

theorem walk_unique (cv : Int → Int) {f1 f2 : Nat} {s : St} {r1 r2 : St × List Pt} (h1 : walk cv f1 s = .ok r1) (h2 : walk cv f2 s = .ok r2) : r1 = r2 := by
  have e1 := walk_mono cv f1 s r1 h1 f2
  have e2 := walk_mono cv f2 s r2 h2 f1
  rw [Nat.add_comm] at e2
  rw [e1] at e2; cases e2; rfl

theorem again_inv (cv : Int → Int) (f l : Pt) (hs : 3 * steps f l ≤ 32767) (hcv : Fits cv f l) (hne : minorSteps f l < steps f l) {s : St}
    (h : Again cv (stOf f l ⟨2 * (minorSteps f l : Int) - steps f l, false, 0⟩ 0) s) :
    ∃ mn, begin s = stOf f l ⟨2 * (minorSteps f l : Int) - steps f l, mn, 0⟩ 0 ∧ (AInv (minorSteps f l) (steps f l) ⟨2 * (minorSteps f l : Int) - steps f l, mn, 0⟩ 0) := by
  have hm' : (minorSteps f l : Int) < steps f l := by exact_mod_cast hne
  have hz : ptOf f l 0 0 = f := by unfold ptOf; simp
  induction h with
  | fresh =>
    refine ⟨false, ?_, ?_⟩
    · simp [begin, stOf, hz]
    · exact ⟨by simp, by simp only []; omega, by simp only []; omega, .inr ⟨rfl, rfl⟩⟩
  | @again s s' fuel ps _ hit ih =>
    obtain ⟨mn, hb, hi⟩ := ih
    have hw := walk_eq cv f l hs hcv hne _ hi rfl (steps f l) 0 (steps f l + 1) (by omega) (by omega)
    rw [show aRun (minorSteps f l) (steps f l) ⟨2 * (minorSteps f l : Int) - steps f l, mn, 0⟩ 0 = ⟨2 * (minorSteps f l : Int) - steps f l, mn, 0⟩ from rfl, ← hb] at hw
    have := walk_unique cv hit hw
    cases this
    have hend := aRun_end hne hi
    have hI := aInv_run hne hi (steps f l)
    refine ⟨(aRun (minorSteps f l) (steps f l) ⟨2 * (minorSteps f l : Int) - steps f l, mn, 0⟩ (steps f l)).mn, ?_, ?_⟩
    · simp [begin, stOf, hz, hend.2]
    · refine ⟨by simp, by simp only []; omega, by simp only []; omega, ?_⟩
      rcases hI.flag with h | h
      · left; rw [hend.2] at h; exact h
      · right; exact ⟨h.1, rfl⟩

/-- **C70** (partial: lines at exactly 45 degrees are excluded, because the claim is false of them (`diagonal_never_ends`), and so are iterations that start
after an earlier one was abandoned (`restart_runs_past_the_end`)): for all end points whose distances along the axes differ (or which are equal), in every
coordinate type that has the values between them, up to 10922 apart: every iteration over the line, the first or any later one, visits exactly `size()` points,
from the first to the last, each one step from the one before along the longer axis, and all less than one unit off the ideal line. -/
theorem C70_line_partial (cv : Int → Int) (f l : Pt) (hs : 3 * steps f l ≤ 32767) (hcv : Fits cv f l) (hd : (l.x - f.x).natAbs ≠ (l.y - f.y).natAbs ∨ f = l) :
    ∃ s0, initialise f l = .ok s0 ∧ ∀ s, Again cv s0 s → size s0 = steps f l + 1 ∧
      ∃ s' ps, (∀ fuel, steps f l < fuel → iterate cv fuel s = .ok (s', ps)) ∧ Good f l ps := by
  refine ⟨_, init_eq f l hs, ?_⟩
  intro s hs'
  have hm1 : minorSteps f l = min (l.x - f.x).natAbs (l.y - f.y).natAbs := rfl
  have hM1 : steps f l = max (l.x - f.x).natAbs (l.y - f.y).natAbs := rfl
  refine ⟨?_, ?_⟩
  · unfold size stOf yMajor
    simp only []
    split_ifs with hc <;> rw [decide_eq_true_eq] at hc <;> omega
  · rcases hd with hd | rfl
    · have hne : minorSteps f l < steps f l := by omega
      obtain ⟨mn, hb, hi⟩ := again_inv cv f l hs hcv hne hs'
      refine ⟨stOf f l (aRun (minorSteps f l) (steps f l) ⟨2 * (minorSteps f l : Int) - steps f l, mn, 0⟩ (steps f l)) (steps f l), _, ?_, good_pts hne _ hi rfl⟩
      · intro fuel hf
        unfold iterate
        rw [hb]
        exact walk_eq cv f l hs hcv hne _ hi rfl (steps f l) 0 fuel (by omega) hf
    · have h0 : steps f f = 0 := by simp [steps]
      have key : ∀ s, Again cv (stOf f f ⟨2 * (minorSteps f f : Int) - steps f f, false, 0⟩ 0) s → s.first = f ∧ s.last = f := by
        intro s hs
        induction hs with
        | fresh => exact ⟨rfl, rfl⟩
        | @again s s' fuel ps _ hit ih =>
          cases fuel with
          | zero => cases hit
          | succ fuel =>
            unfold iterate walk begin at hit
            simp only [ih.1, ih.2, if_true] at hit
            cases hit; exact ⟨rfl, rfl⟩
      obtain ⟨k1, k2⟩ := key s hs'
      refine ⟨begin s, [f], ?_, ?_⟩
      · intro fuel hf
        cases fuel with
        | zero => omega
        | succ fuel => unfold iterate walk begin; simp [k1, k2]
      · refine ⟨by simp [h0], rfl, rfl, ?_, ?_⟩
        · intro i p q hp hq; simp at hq
        · intro p hp; simp at hp; subst hp; simp [off]

/-! ## Examples -/

def pts (r : Res (St × List Pt)) : List (Int × Int) := match r with | .ok (_, ps) => ps.map (fun p => (p.x, p.y)) | .error _ => []

example : (match initialise ⟨-5, -3⟩ ⟨5, 3⟩ with | .ok s => pts (iterate id 20 s) | .error _ => []) =
    [(-5, -3), (-4, -3), (-3, -2), (-2, -1), (-1, -1), (0, 0), (1, 1), (2, 1), (3, 2), (4, 2), (5, 3)] := by decide +kernel
example : 3 * steps ⟨-5, -3⟩ ⟨5, 3⟩ ≤ 32767 ∧ Fits id ⟨-5, -3⟩ ⟨5, 3⟩ := ⟨by decide, by simp [Fits]⟩

/-! ## Findings -/

/-- Finding: the iteration over a line at 45 degrees never ends: the first step is always taken along one axis only, and the other axis never catches up.  For
every length and every coordinate type (`cv` keeps values modulo some `N ≥ 2`, as the identity and all wrapping conversions do). -/
theorem diagonal_never_ends (cv : Int → Int) (N : Int) (hN : 2 ≤ N) (hcv : ∀ v, N ∣ cv v - v) (n : Nat) (hn : 0 < n) (hs : 3 * n ≤ 32767) :
    ∃ s0, initialise ⟨0, 0⟩ ⟨n, n⟩ = .ok s0 ∧ size s0 = n + 1 ∧ ∀ fuel r, iterate cv fuel s0 ≠ .ok r := by
  have hst : steps ⟨0, 0⟩ ⟨n, n⟩ = n := by simp [steps]
  have hmi : minorSteps ⟨0, 0⟩ ⟨n, n⟩ = n := by simp [minorSteps]
  have hi := init_eq ⟨0, 0⟩ ⟨n, n⟩ (by rw [hst]; exact hs)
  rw [hst, hmi] at hi
  refine ⟨_, hi, ?_, ?_⟩
  · simp [size, stOf, yMajor]
  -- from the second point on
  have key : ∀ (fuel : Nat) (s : St) (r : St × List Pt), s.dx = 2 * n → s.dy = 2 * n → s.xi = 1 → s.yi = 1 → s.balance = 3 * n → s.minor = true → s.last = ⟨n, n⟩ →
      N ∣ s.coordinate.x - s.coordinate.y - 1 → walk cv fuel s ≠ .ok r := by
    intro fuel
    induction fuel with
    | zero => intro s r _ _ _ _ _ _ _ _ h; cases h
    | succ fuel ih =>
      intro s r h1 h2 h3 h4 h5 h6 h7 h8 h
      have hne : s.coordinate ≠ s.last := by
        intro hc
        rw [hc, h7] at h8
        have : N ∣ -1 := by simpa using h8
        have h9 : N ∣ 1 := by simpa using this
        have := Int.le_of_dvd (by omega) h9
        omega
      have hnx : next cv s = .ok { s with coordinate := ⟨cv (s.coordinate.x + 1), cv (s.coordinate.y + 1)⟩ } := by
        unfold next yMajor
        simp only [h1, h2, h3, h4, h5, h6, Int.lt_irrefl, decide_false, Bool.false_eq_true, if_false, if_true]
        rw [fit_ok (by omega) (by omega)]
        simp only [bind, Except.bind, h2, h3]
        rw [fit_ok (by omega) (by omega)]
        have e1 : 3 * (n : Int) - 2 * n + 2 * n = 3 * n := by omega
        have e2 : decide (3 * (n : Int) ≥ 0) = true := by simp
        simp only [e1, e2]
      unfold walk at h
      rw [if_neg hne, hnx] at h
      simp only at h
      cases hw : walk cv fuel { s with coordinate := ⟨cv (s.coordinate.x + 1), cv (s.coordinate.y + 1)⟩ } with
      | error u => rw [hw] at h; cases h
      | ok q =>
        refine ih ⟨s.first, s.last, ⟨cv (s.coordinate.x + 1), cv (s.coordinate.y + 1)⟩, s.xi, s.yi, s.dx, s.dy, s.balance, s.minor⟩ q h1 h2 h3 h4 h5 h6 h7 ?_ hw
        have a1 := hcv (s.coordinate.x + 1)
        have a2 := hcv (s.coordinate.y + 1)
        have := Int.dvd_add (Int.dvd_sub a1 a2) h8
        have e : cv (s.coordinate.x + 1) - (s.coordinate.x + 1) - (cv (s.coordinate.y + 1) - (s.coordinate.y + 1)) + (s.coordinate.x - s.coordinate.y - 1) =
            cv (s.coordinate.x + 1) - cv (s.coordinate.y + 1) - 1 := by ring
        rw [e] at this; exact this
  intro fuel r h
  cases fuel with
  | zero => cases h
  | succ fuel =>
    have hx : dirX ⟨0, 0⟩ ⟨n, n⟩ = 1 := by simp [dirX]
    have hy : dirY ⟨0, 0⟩ ⟨n, n⟩ = 1 := by simp [dirY]
    have hz : ptOf ⟨0, 0⟩ ⟨n, n⟩ 0 0 = ⟨0, 0⟩ := by simp [ptOf]
    have hne : ¬ ((⟨0, 0⟩ : Pt) = ⟨n, n⟩) := by simp; omega
    unfold iterate walk begin stOf at h
    simp only [hx, hy, hz] at h
    rw [if_neg hne] at h
    have hnx : next cv ⟨⟨0, 0⟩, ⟨n, n⟩, ⟨0, 0⟩, 1, 1, 2 * n, 2 * n, 2 * n - n, false⟩ = .ok ⟨⟨0, 0⟩, ⟨n, n⟩, ⟨cv 1, 0⟩, 1, 1, 2 * n, 2 * n, 3 * n, true⟩ := by
      unfold next yMajor
      simp only [Int.lt_irrefl, decide_false, Bool.false_eq_true, if_false, bind, Except.bind]
      rw [fit_ok (by omega) (by omega)]
      have e1 : 2 * (n : Int) - n + 2 * n = 3 * n := by omega
      simp [e1]
    have e0 : ((n : Int) - 0).natAbs = n := by simp
    simp only [e0] at h
    rw [hnx] at h
    simp only at h
    cases hw : walk cv fuel ⟨⟨0, 0⟩, ⟨n, n⟩, ⟨cv 1, 0⟩, 1, 1, 2 * n, 2 * n, 3 * n, true⟩ with
    | error u => rw [hw] at h; cases h
    | ok q =>
      refine key fuel _ q rfl rfl rfl rfl rfl rfl rfl ?_ hw
      have := hcv 1
      simpa using this

/-- A walk along the x axis that has passed the last point never ends. -/
theorem past_the_end (fuel : Nat) : ∀ (s : St) (r : St × List Pt), s.dy ≤ s.dx → s.xi = 1 → s.last.x < s.coordinate.x → walk id fuel s ≠ .ok r := by
  induction fuel with
  | zero => intro s r _ _ _ h; cases h
  | succ fuel ih =>
    intro s r h1 h2 h3 h
    have hne : s.coordinate ≠ s.last := by intro hc; rw [hc] at h3; omega
    unfold walk at h
    rw [if_neg hne] at h
    cases hn : next id s with
    | error u => rw [hn] at h; cases h
    | ok s' =>
      rw [hn] at h
      simp only at h
      cases hw : walk id fuel s' with
      | error u => rw [hw] at h; cases h
      | ok q =>
        have hp : s'.dy = s.dy ∧ s'.dx = s.dx ∧ s'.xi = s.xi ∧ s'.last = s.last ∧ s'.coordinate.x = s.coordinate.x + s.xi := by
          unfold next yMajor at hn
          have : ¬ s.dx < s.dy := by omega
          simp only [this, decide_false, Bool.false_eq_true, if_false, id] at hn
          cases hmn : s.minor with
          | false =>
            simp only [hmn, Bool.false_eq_true, if_false, bind, Except.bind] at hn
            cases hf : fit (s.balance + s.dy) with
            | error u => rw [hf] at hn; cases hn
            | ok b => rw [hf] at hn; cases hn; exact ⟨rfl, rfl, rfl, rfl, rfl⟩
          | true =>
            simp only [hmn, if_true, bind, Except.bind] at hn
            cases hf : fit (s.balance - s.dx) with
            | error u => rw [hf] at hn; cases hn
            | ok b =>
              rw [hf] at hn; simp only at hn
              cases hf2 : fit (b + s.dy) with
              | error u => rw [hf2] at hn; cases hn
              | ok b2 => rw [hf2] at hn; cases hn; exact ⟨rfl, rfl, rfl, rfl, rfl⟩
        exact ih s' q (by omega) (by omega) (by rw [hp.2.2.2.1, hp.2.2.2.2]; omega) hw

/-- Finding: `begin()` resets the coordinate but not the balance.  If an iteration from (0,0) to (4,3) is abandoned after one step, the next iteration misses
the last point and never ends. -/
theorem restart_runs_past_the_end : ∃ s0 s1, initialise ⟨0, 0⟩ ⟨4, 3⟩ = .ok s0 ∧ advance id 1 (begin s0) = .ok s1 ∧ ∀ fuel r, iterate id fuel s1 ≠ .ok r := by
  refine ⟨⟨⟨0, 0⟩, ⟨4, 3⟩, ⟨0, 0⟩, 1, 1, 8, 6, 2, false⟩, ⟨⟨0, 0⟩, ⟨4, 3⟩, ⟨1, 0⟩, 1, 1, 8, 6, 8, true⟩, by decide +kernel, by decide +kernel, ?_⟩
  intro fuel r h
  have h5 := walk_mono id fuel _ r h 5
  clear h
  rw [show fuel + 5 = fuel + 1 + 1 + 1 + 1 + 1 from rfl] at h5
  have step : ∀ (f : Nat) (s s' : St) (r : St × List Pt), ¬ s.coordinate = s.last → next id s = .ok s' → walk id (f + 1) s = .ok r → ∃ r', walk id f s' = .ok r' := by
    intro f s s' r h1 h2 h3
    unfold walk at h3
    rw [if_neg h1, h2] at h3
    simp only at h3
    cases hw : walk id f s' with
    | error u => rw [hw] at h3; cases h3
    | ok q => exact ⟨q, rfl⟩
  obtain ⟨r1, w1⟩ := step _ _ ⟨⟨0, 0⟩, ⟨4, 3⟩, ⟨1, 1⟩, 1, 1, 8, 6, 6, true⟩ _ (by decide) (by decide +kernel) h5
  obtain ⟨r2, w2⟩ := step _ _ ⟨⟨0, 0⟩, ⟨4, 3⟩, ⟨2, 2⟩, 1, 1, 8, 6, 4, true⟩ _ (by decide) (by decide +kernel) w1
  obtain ⟨r3, w3⟩ := step _ _ ⟨⟨0, 0⟩, ⟨4, 3⟩, ⟨3, 3⟩, 1, 1, 8, 6, 2, true⟩ _ (by decide) (by decide +kernel) w2
  obtain ⟨r4, w4⟩ := step _ _ ⟨⟨0, 0⟩, ⟨4, 3⟩, ⟨4, 4⟩, 1, 1, 8, 6, 0, true⟩ _ (by decide) (by decide +kernel) w3
  obtain ⟨r5, w5⟩ := step _ _ ⟨⟨0, 0⟩, ⟨4, 3⟩, ⟨5, 5⟩, 1, 1, 8, 6, -2, false⟩ _ (by decide) (by decide +kernel) w4
  exact past_the_end _ _ _ (by decide) rfl (by decide) w5

/-- Finding: for slopes of one half and more, the first iteration and the later ones visit different points. -/
theorem second_iteration_differs :
    (match initialise ⟨0, 0⟩ ⟨4, 3⟩ with
      | .ok s => (match iterate id 9 s with
        | .ok (s', ps) => (ps.map (fun p => (p.x, p.y)), pts (iterate id 9 s'))
        | .error _ => ([], []))
      | .error _ => ([], [])) =
    ([(0, 0), (1, 0), (2, 1), (3, 2), (4, 3)], [(0, 0), (1, 1), (2, 2), (3, 2), (4, 3)]) := by decide +kernel

end Etl.Line
