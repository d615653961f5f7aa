/-
Model of etl::mean (/repo/include/etl/mean.h l.76-201), etl::variance (variance.h l.99-233), etl::standard_deviation (standard_deviation.h l.99-259),
etl::rms (rms.h l.74-208), etl::covariance (covariance.h l.99-237) and etl::correlation (correlation.h l.99-289).

Numbers are real numbers.  `double` is taken to be exact: rounding, overflow to infinity and signed zeros are not modelled; division by zero gives
`none`, which stands for a result that is not a finite number.  The types TInput and TCalc are not taken to be exact: `inp` is the conversion of a
product to the type in which inputs are multiplied, `conv` the conversion to TCalc, `prod` the conversion of a product of two sums to the type in which
they are multiplied; each is an arbitrary function, so that wrapping, truncation and undefined overflow are all covered.  The counter has 32 bits.

All six classes keep sums, a counter, the last results and a flag that says whether they must be calculated again; `Stat` is what differs.
-/
import Mathlib.Analysis.SpecialFunctions.Pow.Real
import Mathlib.Tactic.Linarith

namespace Etl.Stats

/-- the types and the template argument: `sample` is `Adjustment == 1` (variance.h l.106, standard_deviation.h l.106, covariance.h l.105, correlation.h l.106) -/
structure Cfg where
  inp : ℝ → ℝ
  conv : ℝ → ℝ
  prod : ℝ → ℝ
  sample : Bool

/-- `Adjustment` -/
def Cfg.adjustment (c : Cfg) : ℝ := if c.sample then 1 else 0

/-- division in double -/
noncomputable def fdiv (a b : ℝ) : Option ℝ := if b = 0 then none else some (a / b)
/-- `if (v > 0) s = sqrt(v)`, standard_deviation.h l.243-246, correlation.h l.252-263 -/
noncomputable def root (v : Option ℝ) : ℝ := match v with
  | none => 0
  | some x => open Classical in if 0 < x then Real.sqrt x else 0

/-- what differs between the classes: the sums, what `add` does to them, the result without values, and the result for sums and a count that is not zero -/
structure Stat (α σ V : Type) where
  zero : σ
  add : σ → α → σ
  none : V
  compute : σ → ℝ → V

/-- mean.h l.108-113, l.152-162 -/
noncomputable def mean (c : Cfg) : Stat ℝ ℝ (Option ℝ) where
  zero := 0
  add s x := c.conv (s + c.conv x)
  none := some 0
  compute s n := fdiv s n

/-- the sums of variance.h and standard_deviation.h -/
structure Sums where
  squares : ℝ
  sum : ℝ
/-- variance.h l.133-139, standard_deviation.h l.133-139 -/
noncomputable def Sums.add (c : Cfg) (s : Sums) (x : ℝ) : Sums := ⟨c.conv (s.squares + c.conv (c.inp (x * x))), c.conv (s.sum + c.conv x)⟩
/-- variance.h l.184-189, standard_deviation.h l.236-241; also correlation.h l.243-250 -/
noncomputable def spread (c : Cfg) (squares sum n : ℝ) : Option ℝ := match fdiv 1 (n * (n - c.adjustment)) with
  | none => none
  | some a => some ((n * squares - c.prod (sum * sum)) * a)
/-- variance.h l.99-233 -/
noncomputable def variance (c : Cfg) : Stat ℝ Sums (Option ℝ) where
  zero := ⟨0, 0⟩
  add := Sums.add c
  none := some 0
  compute s n := spread c s.squares s.sum n
/-- standard_deviation.h l.99-259: the variance and the standard deviation -/
noncomputable def deviation (c : Cfg) : Stat ℝ Sums (Option ℝ × Option ℝ) where
  zero := ⟨0, 0⟩
  add := Sums.add c
  none := (some 0, some 0)
  compute s n := (spread c s.squares s.sum n, some (root (spread c s.squares s.sum n)))

/-- rms.h l.110-115, l.154-167 -/
noncomputable def rms (c : Cfg) : Stat ℝ ℝ (Option ℝ) where
  zero := 0
  add s x := c.conv (s + c.conv (c.inp (x * x)))
  none := some 0
  compute s n := some (root (fdiv s n))

/-- the sums of covariance.h -/
structure Cross where
  inner : ℝ
  sum1 : ℝ
  sum2 : ℝ
/-- covariance.h l.185-188, correlation.h l.265 -/
noncomputable def joint (c : Cfg) (inner sum1 sum2 n : ℝ) : Option ℝ := match fdiv 1 (n * (n - c.adjustment)) with
  | none => none
  | some a => some ((n * inner - c.prod (sum1 * sum2)) * a)
/-- covariance.h l.99-237; `add` l.132-139 -/
noncomputable def covariance (c : Cfg) : Stat (ℝ × ℝ) Cross (Option ℝ) where
  zero := ⟨0, 0, 0⟩
  add s x := ⟨c.conv (s.inner + c.conv (c.inp (x.1 * x.2))), c.conv (s.sum1 + c.conv x.1), c.conv (s.sum2 + c.conv x.2)⟩
  none := some 0
  compute s n := joint c s.inner s.sum1 s.sum2 n

/-- the sums of correlation.h -/
structure Sums5 where
  inner : ℝ
  squares1 : ℝ
  squares2 : ℝ
  sum1 : ℝ
  sum2 : ℝ
/-- correlation.h l.99-289: the covariance and the correlation; `add` l.133-142, `calculate` l.234-275 -/
noncomputable def correlation (c : Cfg) : Stat (ℝ × ℝ) Sums5 (Option ℝ × Option ℝ) where
  zero := ⟨0, 0, 0, 0, 0⟩
  add s x := ⟨c.conv (s.inner + c.conv (c.inp (x.1 * x.2))), c.conv (s.squares1 + c.conv (c.inp (x.1 * x.1))), c.conv (s.squares2 + c.conv (c.inp (x.2 * x.2))), c.conv (s.sum1 + c.conv x.1), c.conv (s.sum2 + c.conv x.2)⟩
  none := (some 0, some 0)
  compute s n :=
    let stddev1 := root (spread c s.squares1 s.sum1 n)
    let stddev2 := root (spread c s.squares2 s.sum2 n)
    let cov := joint c s.inner s.sum1 s.sum2 n
    (cov, open Classical in if 0 < stddev1 ∧ 0 < stddev2 then (match cov with | none => none | some v => fdiv v (stddev1 * stddev2)) else some 0)

/-- the members -/
structure St (σ V : Type) where
  sums : σ
  counter : Nat
  value : V
  recalculate : Bool

variable {α σ V : Type}
/-- `clear`, mean.h l.187-193, and the same in the others -/
def clear (S : Stat α σ V) : St σ V := ⟨S.zero, 0, S.none, true⟩
/-- `add`, mean.h l.108-113, and the same in the others -/
def add (S : Stat α σ V) (s : St σ V) (x : α) : St σ V := ⟨S.add s.sums x, (s.counter + 1) % 2 ^ 32, s.value, true⟩
/-- `add` of a range, mean.h l.119-126, and the same in the others -/
def addRange (S : Stat α σ V) (s : St σ V) : List α → St σ V
  | [] => s
  | x :: xs => addRange S (add S s x) xs
/-- `get_mean`, mean.h l.150-166, and the same in the others; covariance.h l.190 resets the flag only if there are values -/
def get (S : Stat α σ V) (s : St σ V) : V × St σ V :=
  if s.recalculate then
    (let v := if s.counter = 0 then S.none else S.compute s.sums (s.counter : ℝ)
     (v, { s with value := v, recalculate := false }))
  else (s.value, s)

inductive Op (α : Type)
  | clear
  | add (x : α)
  | addRange (xs : List α)
  | get
/-- one operation of a history -/
def step (S : Stat α σ V) (s : St σ V) : Op α → St σ V
  | .clear => clear S
  | .add x => add S s x
  | .addRange xs => addRange S s xs
  | .get => (get S s).2
/-- the object after its construction and a history -/
def after (S : Stat α σ V) (ops : List (Op α)) : St σ V := ops.foldl (step S) (clear S)

end Etl.Stats
