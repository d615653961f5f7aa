import Verif.Maths.Model

/-!
# Model of the ratios and of the compile time combinatorics

Sources: `/repo/include/etl/ratio.h`, `permutations.h`, `combinations.h`, `limits.h` (`digits10`).

Everything here is evaluated by the compiler in `intmax_t` (64 bits, two's complement) or `size_t` (64 bits).  `none` is a program that does not compile: signed overflow and division by zero are not constant expressions.
-/
namespace Etl.Ratio

/-- A result of type `intmax_t`. -/
def chk (x : Int) : Option Int := if -2 ^ 63 ≤ x ∧ x < 2 ^ 63 then some x else none
/-- `a / b` (truncated). -/
def divC (a b : Int) : Option Int := if b = 0 then none else chk (a.tdiv b)

/-- `ratio<NUM, DEN>`, l.47-52. -/
structure R where
  num : Int
  den : Int
  deriving DecidableEq, Repr

/-- `ratio_gcd`, l.107-122. -/
def gcd (A B : Int) : Option Int :=
  if h : B = 0 then (if A < 0 then chk (-A) else some A)
  else if A = -2 ^ 63 ∧ B = -1 then none
  else gcd B (A.tmod B)
termination_by B.natAbs
decreasing_by
  rw [Int.natAbs_tmod]; exact Nat.mod_lt _ (Int.natAbs_pos.mpr h)

/-- `ratio_lcm`, l.124-135. -/
def lcm (A B : Int) : Option Int := do
  let p ← chk (A * B)
  let product ← (if p < 0 then chk (-p) else some p)
  divC product (← gcd A B)

/-- `ratio_reduce`, l.137-147. -/
def reduce (r : R) : Option R := do
  let g ← gcd r.num r.den
  let n ← divC r.num g
  let d ← divC r.den g
  return ⟨n, d⟩

/-- `ratio_add`, l.149-159. -/
def add (a b : R) : Option R := do
  let l ← lcm a.den b.den
  let x ← divC (← chk (a.num * l)) a.den
  let y ← divC (← chk (b.num * l)) b.den
  reduce ⟨← chk (x + y), l⟩

/-- `ratio_subtract`, l.161-166. -/
def subtract (a b : R) : Option R := do add a ⟨← chk (-b.num), b.den⟩

/-- `ratio_multiply`, l.168-177. -/
def multiply (a b : R) : Option R := do
  let g1 ← gcd a.num b.den
  let g2 ← gcd b.num a.den
  let n ← chk ((← divC a.num g1) * (← divC b.num g2))
  let d ← chk ((← divC a.den g2) * (← divC b.den g1))
  return ⟨n, d⟩

/-- `ratio_divide`, l.179-184. -/
def divide (a b : R) : Option R := multiply a ⟨b.den, b.num⟩

/-- `ratio_equal`, l.199-202, `ratio_not_equal`, l.204-207. -/
def equal (a b : R) : Bool := decide (a.num = b.num) && decide (a.den = b.den)
def notEqual (a b : R) : Bool := decide (a.num ≠ b.num) || decide (a.den ≠ b.den)
/-- `ratio_less`, `ratio_less_equal`, `ratio_greater`, `ratio_greater_equal`, l.209-227. -/
def less (a b : R) : Option Bool := do return decide ((← chk (a.num * b.den)) < (← chk (b.num * a.den)))
def lessEqual (a b : R) : Option Bool := do return decide ((← chk (a.num * b.den)) ≤ (← chk (b.num * a.den)))
def greater (a b : R) : Option Bool := do return decide ((← chk (a.num * b.den)) > (← chk (b.num * a.den)))
def greaterEqual (a b : R) : Option Bool := do return decide ((← chk (a.num * b.den)) ≥ (← chk (b.num * a.den)))

/-- `permutations`, permutations.h l.46-66; `NV - 1` wraps. -/
def permutations (NV : Nat) : Nat → Nat
  | 0 => 1
  | KV + 1 => (NV * permutations ((NV + (2 ^ 64 - 1)) % 2 ^ 64) KV) % 2 ^ 64

/-- `combinations`, combinations.h l.47-51; `factorial` is that of `factorial.h`. -/
def combinations (NV KV : Nat) : Option Nat := if Maths.factorial KV = 0 then none else some (permutations NV KV / Maths.factorial KV)

/-- `ETL_LOG10_OF_2`, limits.h l.57: `digits10` of every integral type from its `digits`. -/
def digits10 (digits : Nat) : Nat := digits * 301 / 1000

end Etl.Ratio
