/-
C97: mean, variance, standard deviation, rms, covariance, correlation.  Specification, theorems, findings.
-/
import Verif.Stats.Model

namespace Etl.Stats

/-! ### Specification -/

/-- the values added since the last `clear` -/
def samples {α : Type} (ops : List (Op α)) : List α := ops.foldl (fun l o => match o with
  | .clear => []
  | .add x => l ++ [x]
  | .addRange xs => l ++ xs
  | .get => l) []

/-- the average of a quantity -/
noncomputable def average {α : Type} (xs : List α) (f : α → ℝ) : ℝ := (xs.map f).sum / xs.length
/-- the sum of products of deviations from the averages -/
noncomputable def codeviation {α : Type} (xs : List α) (f g : α → ℝ) : ℝ := (xs.map fun x => (f x - average xs f) * (g x - average xs g)).sum
/-- the divisor: the number of values, or one less for a sample -/
def divisor {α : Type} (sample : Bool) (xs : List α) : ℝ := if sample then (xs.length : ℝ) - 1 else xs.length
/-- the covariance of two quantities, the variance of one -/
noncomputable def cov {α : Type} (sample : Bool) (xs : List α) (f g : α → ℝ) : ℝ := codeviation xs f g / divisor sample xs

/-- `w` represents the quantity `g` of every value, and the sum of it over every beginning of the list -/
def Fits {α : Type} (w : ℝ → ℝ) (g : α → ℝ) (xs : List α) : Prop := (∀ x ∈ xs, w (g x) = g x) ∧ ∀ p, p <+: xs → w ((p.map g).sum) = (p.map g).sum
/-- the types hold the products of two quantities, their sum, and the product of their sums -/
def FitsProduct {α : Type} (c : Cfg) (f g : α → ℝ) (xs : List α) : Prop :=
  (∀ x ∈ xs, c.inp (f x * g x) = f x * g x) ∧ Fits c.conv (fun x => f x * g x) xs ∧ Fits c.conv f xs ∧ Fits c.conv g xs ∧ c.prod ((xs.map f).sum * (xs.map g).sum) = (xs.map f).sum * (xs.map g).sum

/-! ### Proofs -/

section caching
variable {α σ V : Type} (S : Stat α σ V)

structure Inv (xs : List α) (s : St σ V) : Prop where
  sums : s.sums = xs.foldl S.add S.zero
  counter : s.counter = xs.length % 2 ^ 32
  value : s.recalculate = false → s.value = if s.counter = 0 then S.none else S.compute s.sums (s.counter : ℝ)

theorem inv_add {xs : List α} {s : St σ V} (h : Inv S xs s) (x : α) : Inv S (xs ++ [x]) (add S s x) :=
  ⟨by simp [add, h.sums], by simp [add, h.counter], fun e => by cases e⟩
theorem inv_addRange (ys : List α) : ∀ {xs : List α} {s : St σ V}, Inv S xs s → Inv S (xs ++ ys) (addRange S s ys) := by
  induction ys with
  | nil => intro xs s h; simpa [addRange] using h
  | cons y ys ih =>
    intro xs s h
    have := ih (inv_add S h y)
    rw [List.append_assoc] at this
    exact this
theorem inv_clear : Inv S [] (clear S) := ⟨rfl, rfl, fun e => by cases e⟩

theorem inv_after (ops : List (Op α)) : Inv S (samples ops) (after S ops) := by
  have key : ∀ ops : List (Op α), ∀ xs s, Inv S xs s → Inv S (ops.foldl (fun l o => match o with
      | .clear => []
      | .add x => l ++ [x]
      | .addRange xs => l ++ xs
      | .get => l) xs) (ops.foldl (step S) s) := by
    intro ops
    induction ops with
    | nil => intro xs s h; exact h
    | cons o os ih =>
      intro xs s h
      rw [List.foldl_cons, List.foldl_cons]
      apply ih
      cases o with
      | clear => exact inv_clear S
      | add x => exact inv_add S h x
      | addRange ys => exact inv_addRange S ys h
      | get =>
        show Inv S xs (get S s).2
        unfold get
        split
        · exact ⟨h.sums, h.counter, fun _ => rfl⟩
        · exact h
  exact key ops [] _ (inv_clear S)

theorem get_eq (ops : List (Op α)) (hn : (samples ops).length < 2 ^ 32) :
    (get S (after S ops)).1 = if samples ops = [] then S.none else S.compute ((samples ops).foldl S.add S.zero) ((samples ops).length : ℝ) := by
  have h := inv_after S ops
  have hc := h.counter
  rw [Nat.mod_eq_of_lt hn] at hc
  have e : (get S (after S ops)).1 = if (after S ops).counter = 0 then S.none else S.compute (after S ops).sums ((after S ops).counter : ℝ) := by
    unfold get
    cases hr : (after S ops).recalculate with
    | true => rfl
    | false => simp only [Bool.false_eq_true, if_false]; exact h.value hr
  rw [e, hc, h.sums]
  by_cases h0 : samples ops = []
  · rw [if_pos h0, if_pos (by rw [h0]; rfl)]
  · rw [if_neg h0, if_neg (by simpa using h0)]
end caching

theorem fits_init {α : Type} {w : ℝ → ℝ} {g : α → ℝ} {xs : List α} {x : α} (h : Fits w g (xs ++ [x])) : Fits w g xs := ⟨fun y hy => h.1 y (by simp [hy]), fun p hp => h.2 p (hp.trans (List.prefix_append _ _))⟩

theorem fold_sum {α : Type} {w : ℝ → ℝ} {g : α → ℝ} (xs : List α) (h : Fits w g xs) : xs.foldl (fun s x => w (s + w (g x))) 0 = (xs.map g).sum := by
  induction xs using List.reverseRecOn with
  | nil => rfl
  | append_singleton xs x ih =>
    rw [List.foldl_append, List.foldl_cons, List.foldl_nil, ih (fits_init h), h.1 x (by simp)]
    have := h.2 _ (List.prefix_refl _)
    simpa using this

/-- replace the input product -/
theorem fold_congr {α : Type} {w v : ℝ → ℝ} {g : α → ℝ} (xs : List α) (h : ∀ x ∈ xs, v (g x) = g x) : ∀ s, xs.foldl (fun s x => w (s + w (v (g x)))) s = xs.foldl (fun s x => w (s + w (g x))) s := by
  induction xs with
  | nil => intro s; rfl
  | cons x xs ih =>
    intro s
    rw [List.foldl_cons, List.foldl_cons, h x (by simp), ih fun y hy => h y (by simp [hy])]

theorem fold_product {α : Type} {c : Cfg} {f g : α → ℝ} (xs : List α) (h : FitsProduct c f g xs) : xs.foldl (fun s x => c.conv (s + c.conv (c.inp (f x * g x)))) 0 = (xs.map fun x => f x * g x).sum := by
  rw [fold_congr (v := c.inp) (g := fun x => f x * g x) xs h.1 0]
  exact fold_sum xs h.2.1

theorem sums_fold (c : Cfg) (xs : List ℝ) : ∀ s : Sums, xs.foldl (Sums.add c) s = ⟨xs.foldl (fun s x => c.conv (s + c.conv (c.inp (x * x)))) s.squares, xs.foldl (fun s x => c.conv (s + c.conv x)) s.sum⟩ := by
  induction xs with
  | nil => intro s; rfl
  | cons x xs ih => intro s; rw [List.foldl_cons, ih]; rfl

theorem cross_fold (c : Cfg) (xs : List (ℝ × ℝ)) : ∀ s : Cross, xs.foldl (covariance c).add s = ⟨xs.foldl (fun s x => c.conv (s + c.conv (c.inp (x.1 * x.2)))) s.inner, xs.foldl (fun s x => c.conv (s + c.conv x.1)) s.sum1, xs.foldl (fun s x => c.conv (s + c.conv x.2)) s.sum2⟩ := by
  induction xs with
  | nil => intro s; rfl
  | cons x xs ih => intro s; rw [List.foldl_cons, ih]; rfl

theorem five_fold (c : Cfg) (xs : List (ℝ × ℝ)) : ∀ s : Sums5, xs.foldl (correlation c).add s = ⟨xs.foldl (fun s x => c.conv (s + c.conv (c.inp (x.1 * x.2)))) s.inner, xs.foldl (fun s x => c.conv (s + c.conv (c.inp (x.1 * x.1)))) s.squares1, xs.foldl (fun s x => c.conv (s + c.conv (c.inp (x.2 * x.2)))) s.squares2, xs.foldl (fun s x => c.conv (s + c.conv x.1)) s.sum1, xs.foldl (fun s x => c.conv (s + c.conv x.2)) s.sum2⟩ := by
  induction xs with
  | nil => intro s; rfl
  | cons x xs ih => intro s; rw [List.foldl_cons, ih]; rfl

theorem sum_shift {α : Type} (f g : α → ℝ) (a b : ℝ) (xs : List α) : (xs.map fun x => (f x - a) * (g x - b)).sum = (xs.map fun x => f x * g x).sum - a * (xs.map g).sum - b * (xs.map f).sum + xs.length * (a * b) := by
  induction xs with
  | nil => simp
  | cons x xs ih => simp only [List.map_cons, List.sum_cons, ih, List.length_cons, Nat.cast_add, Nat.cast_one]; ring

theorem codeviation_eq {α : Type} (f g : α → ℝ) {xs : List α} (h : xs ≠ []) : codeviation xs f g = (xs.length * (xs.map fun x => f x * g x).sum - (xs.map f).sum * (xs.map g).sum) / xs.length := by
  have hn : (xs.length : ℝ) ≠ 0 := by simpa using h
  unfold codeviation average
  rw [sum_shift]
  field_simp
  ring

theorem divisor_ne {α : Type} {sample : Bool} {xs : List α} (h : (if sample then 1 else 0) < xs.length) : divisor sample xs ≠ 0 ∧ 0 < divisor sample xs ∧ xs ≠ [] := by
  have h2 : xs ≠ [] := by rintro rfl; cases sample <;> simp at h
  have : 0 < divisor sample xs := by
    unfold divisor
    cases sample with
    | true =>
      simp only [if_true] at h ⊢
      have : (1 : ℝ) < xs.length := by exact_mod_cast h
      linarith
    | false =>
      simp only [Bool.false_eq_true, if_false] at h ⊢
      exact_mod_cast h
  exact ⟨this.ne', this, h2⟩

theorem adj_eq {α : Type} (c : Cfg) (xs : List α) : (xs.length : ℝ) - c.adjustment = divisor c.sample xs := by
  unfold Cfg.adjustment divisor
  cases c.sample <;> simp

theorem joint_eq {α : Type} (c : Cfg) (f g : α → ℝ) {xs : List α} (h : (if c.sample then 1 else 0) < xs.length) (hp : c.prod ((xs.map f).sum * (xs.map g).sum) = (xs.map f).sum * (xs.map g).sum) :
    joint c (xs.map fun x => f x * g x).sum (xs.map f).sum (xs.map g).sum xs.length = some (cov c.sample xs f g) := by
  obtain ⟨h1, _, h2⟩ := divisor_ne h
  have hn : (xs.length : ℝ) ≠ 0 := by simpa using h2
  unfold joint fdiv
  rw [adj_eq c xs, if_neg (mul_ne_zero hn h1), hp]
  simp only [Option.some.injEq]
  unfold cov
  rw [codeviation_eq f g h2]
  field_simp

theorem spread_eq {α : Type} (c : Cfg) (f : α → ℝ) {xs : List α} (h : (if c.sample then 1 else 0) < xs.length) (hp : c.prod ((xs.map f).sum * (xs.map f).sum) = (xs.map f).sum * (xs.map f).sum) :
    spread c (xs.map fun x => f x * f x).sum (xs.map f).sum xs.length = some (cov c.sample xs f f) := joint_eq c f f h hp

theorem codev_nonneg {α : Type} (f : α → ℝ) (xs : List α) : 0 ≤ codeviation xs f f := by
  unfold codeviation
  apply List.sum_nonneg
  intro y hy
  obtain ⟨x, _, rfl⟩ := List.mem_map.mp hy
  exact mul_self_nonneg _

theorem cauchy {α : Type} (f g : α → ℝ) (xs : List α) : (xs.map fun x => f x * g x).sum ^ 2 ≤ (xs.map fun x => f x * f x).sum * (xs.map fun x => g x * g x).sum ∧ 0 ≤ (xs.map fun x => f x * f x).sum ∧ 0 ≤ (xs.map fun x => g x * g x).sum := by
  induction xs with
  | nil => simp
  | cons x xs ih =>
    simp only [List.map_cons, List.sum_cons]
    obtain ⟨h, hA, hB⟩ := ih
    generalize (xs.map fun x => f x * g x).sum = S at h
    generalize (xs.map fun x => f x * f x).sum = A at h hA ⊢
    generalize (xs.map fun x => g x * g x).sum = B at h hB ⊢
    refine ⟨?_, add_nonneg (mul_self_nonneg _) hA, add_nonneg (mul_self_nonneg _) hB⟩
    have hb : (2 * (f x * g x) * S) ^ 2 ≤ (f x * f x * B + g x * g x * A) ^ 2 := by
      have h1 : (f x * g x) ^ 2 * S ^ 2 ≤ (f x * g x) ^ 2 * (A * B) := mul_le_mul_of_nonneg_left h (sq_nonneg _)
      nlinarith [sq_nonneg (f x * f x * B - g x * g x * A)]
    have hpos : 0 ≤ f x * f x * B + g x * g x * A := add_nonneg (mul_nonneg (mul_self_nonneg _) hB) (mul_nonneg (mul_self_nonneg _) hA)
    have := abs_le_of_sq_le_sq hb hpos
    have h2 := le_of_abs_le this
    nlinarith

theorem root_some {v : ℝ} (h : 0 ≤ v) : root (some v) = Real.sqrt v := by
  unfold root
  simp only
  split
  · rfl
  · next hn => rw [show v = 0 by linarith]; simp

theorem id_map (xs : List ℝ) : xs.map (fun x => x) = xs := by simp

/-! ### Theorems: after every history, of adding one by one and in ranges, asking and clearing -/

/-- C97: the mean of the values since the last clear, 0 if there are none; and their number. -/
theorem C97_mean (c : Cfg) (ops : List (Op ℝ)) (hn : (samples ops).length < 2 ^ 32) (hf : Fits c.conv (fun x => x) (samples ops)) :
    (get (mean c) (after (mean c) ops)).1 = some (average (samples ops) fun x => x) ∧ (after (mean c) ops).counter = (samples ops).length := by
  refine ⟨?_, by have := (inv_after (mean c) ops).counter; rwa [Nat.mod_eq_of_lt hn] at this⟩
  rw [get_eq (mean c) ops hn]
  by_cases h : samples ops = []
  · rw [if_pos h, h]; simp [average, mean]
  · rw [if_neg h]
    have e : (samples ops).foldl (mean c).add (mean c).zero = ((samples ops).map fun x => x).sum := fold_sum _ hf
    rw [e]
    show fdiv _ _ = _
    unfold fdiv
    rw [if_neg (by simpa using h)]
    rfl

/-- C97: the variance: the sum of the squared deviations from the mean, divided by the number of values, or by one less for a sample; never negative. -/
theorem C97_variance (c : Cfg) (ops : List (Op ℝ)) (hn : (samples ops).length < 2 ^ 32) (h1 : (if c.sample then 1 else 0) < (samples ops).length) (hf : FitsProduct c (fun x => x) (fun x => x) (samples ops)) :
    (get (variance c) (after (variance c) ops)).1 = some (cov c.sample (samples ops) (fun x => x) fun x => x) ∧ 0 ≤ cov c.sample (samples ops) (fun x => x) (fun x => x) := by
  obtain ⟨_, hd, h2⟩ := divisor_ne h1
  refine ⟨?_, div_nonneg (codev_nonneg _ _) hd.le⟩
  rw [get_eq (variance c) ops hn, if_neg h2]
  have e : (samples ops).foldl (variance c).add (variance c).zero = ⟨((samples ops).map fun x => x * x).sum, ((samples ops).map fun x => x).sum⟩ := by
    show (samples ops).foldl (Sums.add c) ⟨0, 0⟩ = _
    rw [sums_fold, fold_product (f := fun x => x) (g := fun x => x) _ hf, fold_sum (g := fun x => x) _ hf.2.2.1]
  rw [e]
  exact spread_eq c (fun x => x) h1 hf.2.2.2.2

/-- C97: the standard deviation is the square root of the variance, and the same class gives the variance. -/
theorem C97_standard_deviation (c : Cfg) (ops : List (Op ℝ)) (hn : (samples ops).length < 2 ^ 32) (h1 : (if c.sample then 1 else 0) < (samples ops).length) (hf : FitsProduct c (fun x => x) (fun x => x) (samples ops)) :
    (get (deviation c) (after (deviation c) ops)).1 = (some (cov c.sample (samples ops) (fun x => x) fun x => x), some (Real.sqrt (cov c.sample (samples ops) (fun x => x) fun x => x))) := by
  obtain ⟨_, hd, h2⟩ := divisor_ne h1
  rw [get_eq (deviation c) ops hn, if_neg h2]
  have e : (samples ops).foldl (deviation c).add (deviation c).zero = ⟨((samples ops).map fun x => x * x).sum, ((samples ops).map fun x => x).sum⟩ := by
    show (samples ops).foldl (Sums.add c) ⟨0, 0⟩ = _
    rw [sums_fold, fold_product (f := fun x => x) (g := fun x => x) _ hf, fold_sum (g := fun x => x) _ hf.2.2.1]
  rw [e]
  show (spread c _ _ _, some (root (spread c _ _ _))) = _
  rw [spread_eq c (fun x => x) h1 hf.2.2.2.2, root_some (show 0 ≤ cov c.sample (samples ops) (fun x => x) (fun x => x) from div_nonneg (codev_nonneg _ _) hd.le)]

/-- C97: the root mean square. -/
theorem C97_rms (c : Cfg) (ops : List (Op ℝ)) (hn : (samples ops).length < 2 ^ 32) (hi : ∀ x ∈ samples ops, c.inp (x * x) = x * x) (hf : Fits c.conv (fun x => x * x) (samples ops)) :
    (get (rms c) (after (rms c) ops)).1 = some (Real.sqrt (average (samples ops) fun x => x * x)) := by
  rw [get_eq (rms c) ops hn]
  by_cases h : samples ops = []
  · rw [if_pos h, h]; simp [average, rms]
  · rw [if_neg h]
    have e : (samples ops).foldl (rms c).add (rms c).zero = ((samples ops).map fun x => x * x).sum := by
      show (samples ops).foldl (fun s x => c.conv (s + c.conv (c.inp (x * x)))) 0 = _
      rw [fold_congr (v := c.inp) (g := fun x : ℝ => x * x) _ hi 0]
      exact fold_sum _ hf
    rw [e]
    show some (root (fdiv _ _)) = _
    unfold fdiv
    rw [if_neg (by simpa using h), root_some]
    · rfl
    · exact div_nonneg (cauchy (fun x => x) (fun x => x) _).2.1 (Nat.cast_nonneg _)

/-- C97: the covariance of pairs. -/
theorem C97_covariance (c : Cfg) (ops : List (Op (ℝ × ℝ))) (hn : (samples ops).length < 2 ^ 32) (h1 : (if c.sample then 1 else 0) < (samples ops).length) (hf : FitsProduct c Prod.fst Prod.snd (samples ops)) :
    (get (covariance c) (after (covariance c) ops)).1 = some (cov c.sample (samples ops) Prod.fst Prod.snd) := by
  obtain ⟨_, hd, h2⟩ := divisor_ne h1
  rw [get_eq (covariance c) ops hn, if_neg h2]
  have e : (samples ops).foldl (covariance c).add (covariance c).zero = ⟨((samples ops).map fun x => x.1 * x.2).sum, ((samples ops).map Prod.fst).sum, ((samples ops).map Prod.snd).sum⟩ := by
    rw [cross_fold]
    show Cross.mk _ _ _ = _
    rw [← fold_product (f := Prod.fst) (g := Prod.snd) _ hf, ← fold_sum (g := Prod.fst) _ hf.2.2.1, ← fold_sum (g := Prod.snd) _ hf.2.2.2.1]
    rfl
  rw [e]
  exact joint_eq c Prod.fst Prod.snd h1 hf.2.2.2.2

/-- C97: the correlation of pairs: their covariance divided by the product of the standard deviations, 0 if one of them is 0; always between -1 and 1. -/
theorem C97_correlation (c : Cfg) (ops : List (Op (ℝ × ℝ))) (hn : (samples ops).length < 2 ^ 32) (h1 : (if c.sample then 1 else 0) < (samples ops).length) (hf : FitsProduct c Prod.fst Prod.snd (samples ops)) (hf1 : FitsProduct c Prod.fst Prod.fst (samples ops)) (hf2 : FitsProduct c Prod.snd Prod.snd (samples ops)) :
    ∃ r, (get (correlation c) (after (correlation c) ops)).1 = (some (cov c.sample (samples ops) Prod.fst Prod.snd), some r) ∧
      r = cov c.sample (samples ops) Prod.fst Prod.snd / (Real.sqrt (cov c.sample (samples ops) Prod.fst Prod.fst) * Real.sqrt (cov c.sample (samples ops) Prod.snd Prod.snd)) ∧ |r| ≤ 1 := by
  obtain ⟨hd0, hd, h2⟩ := divisor_ne h1
  generalize hV1 : cov c.sample (samples ops) Prod.fst Prod.fst = V1
  generalize hV2 : cov c.sample (samples ops) Prod.snd Prod.snd = V2
  generalize hC : cov c.sample (samples ops) Prod.fst Prod.snd = C
  have n1 : 0 ≤ V1 := by rw [← hV1]; exact div_nonneg (codev_nonneg _ _) hd.le
  have n2 : 0 ≤ V2 := by rw [← hV2]; exact div_nonneg (codev_nonneg _ _) hd.le
  have hcs : C ^ 2 ≤ V1 * V2 := by
    have := (cauchy (fun x : ℝ × ℝ => x.1 - average (samples ops) Prod.fst) (fun x => x.2 - average (samples ops) Prod.snd) (samples ops)).1
    rw [← hV1, ← hV2, ← hC]
    unfold cov
    rw [div_pow, div_mul_div_comm, ← pow_two (divisor _ _)]
    exact div_le_div_of_nonneg_right this (sq_nonneg _)
  refine ⟨C / (Real.sqrt V1 * Real.sqrt V2), ?_, rfl, ?_⟩
  · rw [get_eq (correlation c) ops hn, if_neg h2]
    have e : (samples ops).foldl (correlation c).add (correlation c).zero = ⟨((samples ops).map fun x => x.1 * x.2).sum, ((samples ops).map fun x => x.1 * x.1).sum, ((samples ops).map fun x => x.2 * x.2).sum, ((samples ops).map Prod.fst).sum, ((samples ops).map Prod.snd).sum⟩ := by
      rw [five_fold, ← fold_product (f := Prod.fst) (g := Prod.snd) _ hf, ← fold_product (f := Prod.fst) (g := Prod.fst) _ hf1, ← fold_product (f := Prod.snd) (g := Prod.snd) _ hf2, ← fold_sum (g := Prod.fst) _ hf.2.2.1, ← fold_sum (g := Prod.snd) _ hf.2.2.2.1]
      rfl
    rw [e]
    show (joint c _ _ _ _, _) = _
    have s1 := spread_eq c Prod.fst h1 hf1.2.2.2.2
    have s2 := spread_eq c Prod.snd h1 hf2.2.2.2.2
    have sj := joint_eq c Prod.fst Prod.snd h1 hf.2.2.2.2
    rw [hV1] at s1
    rw [hV2] at s2
    rw [hC] at sj
    simp only [correlation] at *
    rw [sj, s1, s2, root_some n1, root_some n2]
    congr 1
    split
    · next h => simp only [fdiv]; rw [if_neg (mul_pos h.1 h.2).ne']
    · next h =>
      have : Real.sqrt V1 * Real.sqrt V2 = 0 := by
        by_contra hne
        exact h ⟨lt_of_le_of_ne (Real.sqrt_nonneg _) fun e => hne (by rw [← e, zero_mul]), lt_of_le_of_ne (Real.sqrt_nonneg _) fun e => hne (by rw [← e, mul_zero])⟩
      rw [this, div_zero]
  · rw [abs_div, abs_of_nonneg (mul_nonneg (Real.sqrt_nonneg _) (Real.sqrt_nonneg _)), ← Real.sqrt_mul n1]
    refine div_le_one_of_le₀ ?_ (Real.sqrt_nonneg _)
    exact Real.abs_le_sqrt hcs

/-! ### Concrete cases -/

/-- double in, double sums -/
def exact (sample : Bool) : Cfg := ⟨fun x => x, fun x => x, fun x => x, sample⟩
/-- the hypotheses on the types hold for exact types -/
example (s : Bool) (xs : List ℝ) : FitsProduct (exact s) (fun x => x) (fun x => x) xs := ⟨fun _ _ => rfl, ⟨fun _ _ => rfl, fun _ _ => rfl⟩, ⟨fun _ _ => rfl, fun _ _ => rfl⟩, ⟨fun _ _ => rfl, fun _ _ => rfl⟩, rfl⟩
/-- the sample variance of 1, 2, 3, 6 after a false start is 14/3 -/
example : (get (variance (exact true)) (after (variance (exact true)) [.add 9, .get, .clear, .add 1, .get, .addRange [2, 3], .get, .add 6])).1 = some (14 / 3) := by
  rw [(C97_variance (exact true) _ (by simp [samples]) (by simp [samples, exact]) ⟨fun _ _ => rfl, ⟨fun _ _ => rfl, fun _ _ => rfl⟩, ⟨fun _ _ => rfl, fun _ _ => rfl⟩, ⟨fun _ _ => rfl, fun _ _ => rfl⟩, rfl⟩).1]
  simp only [samples, List.foldl_cons, List.foldl_nil, cov, codeviation, average, divisor, exact]
  norm_num

/-! ### Findings -/

/-- the sample variance of one value is not a number (0 times infinity), although its standard deviation is reported as 0 -/
theorem C97_one_sample (x : ℝ) : (get (variance (exact true)) (after (variance (exact true)) [.add x])).1 = none ∧ (get (deviation (exact true)) (after (deviation (exact true)) [.add x])).1 = (none, some 0) := by
  constructor
  · rw [get_eq _ _ (by simp [samples]), if_neg (by simp [samples])]
    simp [samples, variance, spread, fdiv, exact, Cfg.adjustment]
  · rw [get_eq _ _ (by simp [samples]), if_neg (by simp [samples])]
    simp [samples, deviation, spread, fdiv, exact, Cfg.adjustment, root]

/-- a 32 bit unsigned type -/
noncomputable def wrap32 (x : ℝ) : ℝ := x - 2 ^ 32 * ⌊x / 2 ^ 32⌋
/-- the square of the sum is calculated in TCalc: with 32 bit unsigned sums the variance of two equal values of 40000 is not 0, although every sum fits -/
theorem C97_square_wraps : (get (variance ⟨wrap32, wrap32, wrap32, false⟩) (after (variance ⟨wrap32, wrap32, wrap32, false⟩) [.add 40000, .add 40000])).1 = some 1073741824 := by
  rw [get_eq _ _ (by simp [samples]), if_neg (by simp [samples])]
  have f1 : ⌊(40000 * 40000 : ℝ) / 2 ^ 32⌋ = 0 := by norm_num
  have f2 : ⌊(3200000000 : ℝ) / 2 ^ 32⌋ = 0 := by norm_num
  have f3 : ⌊(6400000000 : ℝ) / 2 ^ 32⌋ = 1 := by norm_num
  have f4 : ⌊(40000 : ℝ) / 2 ^ 32⌋ = 0 := by norm_num
  have f5 : ⌊(80000 : ℝ) / 2 ^ 32⌋ = 0 := by norm_num
  have w1 : wrap32 (40000 * 40000) = 1600000000 := by unfold wrap32; rw [f1]; norm_num
  have w1' : wrap32 1600000000 = 1600000000 := by rw [show (1600000000 : ℝ) = 40000 * 40000 by norm_num, w1]; norm_num
  have w2 : wrap32 (1600000000 + 1600000000) = 3200000000 := by unfold wrap32; rw [show (1600000000 + 1600000000 : ℝ) = 3200000000 by norm_num, f2]; norm_num
  have w3 : wrap32 (80000 * 80000) = 2105032704 := by unfold wrap32; rw [show (80000 * 80000 : ℝ) = 6400000000 by norm_num, f3]; norm_num
  have w4 : wrap32 40000 = 40000 := by unfold wrap32; rw [f4]; norm_num
  have w5 : wrap32 (40000 + 40000) = 80000 := by unfold wrap32; rw [show (40000 + 40000 : ℝ) = 80000 by norm_num, f5]; norm_num
  simp only [samples, List.foldl_cons, List.foldl_nil, variance, Sums.add, spread, fdiv, Cfg.adjustment, List.nil_append, List.cons_append, List.length_cons, List.length_nil, zero_add, w1, w1', w2, w3, w4, w5]
  norm_num

end Etl.Stats
