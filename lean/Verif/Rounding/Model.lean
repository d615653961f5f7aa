import Verif.Common.Res

/-!
# Model of scaled_rounding.h

Source: `/repo/include/etl/scaled_rounding.h`, and `absolute` from `/repo/include/etl/absolute.h`.

`T` is an integral type of any width, signed or not.  `scale_t` has 32 bits and the signedness of `T` (l.40-44); an operation of both is done in a type of at least 32 bits: signed overflow is an error, unsigned arithmetic wraps.  Conversion to a narrower type wraps (in two's complement for signed types).
-/
namespace Etl.Rounding

structure Ty where
  sgn : Bool
  w : Nat

/-- The width of the arithmetic. -/
def Ty.a (t : Ty) : Nat := max t.w 32

/-- The result of an operation. -/
def arith (t : Ty) (x : Int) : Res Int :=
  if t.sgn then (if -2 ^ (t.a - 1) ≤ x ∧ x < 2 ^ (t.a - 1) then .ok x else .error .overflow) else .ok (x % 2 ^ t.a)
/-- `T(x)`. -/
def conv (t : Ty) (x : Int) : Int := if t.sgn then x.bmod (2 ^ t.w) else x % 2 ^ t.w
/-- `scale_t(x)`. -/
def scale (t : Ty) (x : Nat) : Int := if t.sgn then (x : Int).bmod (2 ^ 32) else x % 2 ^ 32
/-- `/` and `%` of C++. -/
def quo (x y : Int) : Res Int := if y = 0 then .error .divByZero else .ok (x.tdiv y)
def rem (x y : Int) : Res Int := if y = 0 then .error .divByZero else .ok (x.tmod y)

/-- `(value ± addend) / scale_t(SCALING)`, as a `T`. -/
def up (t : Ty) (S : Nat) (v c : Int) : Res Int := do .ok (conv t (← quo (← arith t (v + c)) (scale t S)))
def down (t : Ty) (S : Nat) (v c : Int) : Res Int := do .ok (conv t (← quo (← arith t (v - c)) (scale t S)))

/-- `round_ceiling_unscaled`, l.66-80. -/
def ceiling (t : Ty) (S : Nat) (v : Int) : Res Int := if 0 ≤ v then up t S v (scale t S) else do .ok (conv t (← quo v (scale t S)))
/-- `round_floor_unscaled`, l.100-114. -/
def floor (t : Ty) (S : Nat) (v : Int) : Res Int := if 0 ≤ v then do .ok (conv t (← quo v (scale t S))) else down t S v (scale t S)
/-- `round_half_up_unscaled`, l.135-150. -/
def halfUp (t : Ty) (S : Nat) (v : Int) : Res Int := if 0 ≤ v then up t S v (scale t (S / 2)) else down t S v (scale t (S / 2))
/-- `round_half_down_unscaled`, l.172-187. -/
def halfDown (t : Ty) (S : Nat) (v : Int) : Res Int := if 0 ≤ v then up t S v (scale t (S / 2 - 1)) else down t S v (scale t (S / 2 - 1))
/-- `round_zero_unscaled`, l.208-215. -/
def zero (t : Ty) (S : Nat) (v : Int) : Res Int := do .ok (conv t (← quo v (scale t S)))
/-- `round_infinity_unscaled`, l.235-249. -/
def infinity (t : Ty) (S : Nat) (v : Int) : Res Int := if 0 ≤ v then up t S v (scale t S) else down t S v (scale t S)

/-- `absolute`, absolute.h l.42-62. -/
def absolute (t : Ty) (v : Int) : Res Int := if v < 0 then do .ok (conv t (← arith t (-v))) else .ok v

/-- `round_half_even_unscaled`, l.270-293. -/
def halfEven (t : Ty) (S : Nat) (v : Int) : Res Int := do
  if (← rem (← absolute t v) (scale t S)) = scale t (S / 2) then
    if (← quo v (scale t S)) % 2 ≠ 0 then halfUp t S v else halfDown t S v
  else halfUp t S v
/-- `round_half_odd_unscaled`, l.315-338. -/
def halfOdd (t : Ty) (S : Nat) (v : Int) : Res Int := do
  if (← rem (← absolute t v) (scale t S)) = scale t (S / 2) then
    if (← quo v (scale t S)) % 2 ≠ 0 then halfDown t S v else halfUp t S v
  else halfUp t S v

/-- The `..._scaled` functions, l.87-93, l.121-127, l.158-164, l.195-201, l.222-228, l.256-262, l.301-307, l.346-352. -/
def scaled (f : Ty → Nat → Int → Res Int) (t : Ty) (S : Nat) (v : Int) : Res Int := do .ok (conv t (← arith t ((← f t S v) * scale t S)))

end Etl.Rounding
