import Verif.Rounding.Model

/-!
# Model of pseudo_moving_average.h for integral types

Source: `/repo/include/etl/pseudo_moving_average.h` l.98-270.  Types, arithmetic and conversions as in `Rounding.Model`: `sample_t` and `scale_t` have 32 bits and the signedness of `T`.  The classes for floating point types are not modelled.
-/
namespace Etl.MovAvg
open Etl.Rounding

structure Avg where
  average : Int
  /-- a constant (`SAMPLES`) in the class with a fixed sample size -/
  samples : Int

/-- The constructors, l.132-135, l.213-217, and `clear`, l.141-144, l.223-226: `initial_value * SCALE`. -/
def start (t : Ty) (S : Nat) (i : Int) : Res Int := do .ok (conv t (← arith t (i * scale t S)))
def new (t : Ty) (S : Nat) (i : Int) (n : Nat) : Res Avg := do .ok ⟨← start t S i, scale t n⟩
def clear (t : Ty) (S : Nat) (s : Avg) (i : Int) : Res Avg := do .ok { s with average := ← start t S i }

/-- `set_sample_size`, l.232-235. -/
def setSize (t : Ty) (s : Avg) (n : Nat) : Avg := { s with samples := scale t n }

/-- `add`, l.150-155, l.241-246.  `samples + 1` is an operation of `sample_t`. -/
def add (t : Ty) (S : Nat) (s : Avg) (x : Int) : Res Avg := do
  let a := conv t (← arith t (s.average * s.samples))
  let a := conv t (← arith t (a + (← arith t (scale t S * x))))
  let a := conv t (← quo a (← arith { t with w := 32 } (s.samples + 1)))
  .ok { s with average := a }

/-- `value`, l.161-164, l.252-255. -/
def value (s : Avg) : Int := s.average

end Etl.MovAvg
