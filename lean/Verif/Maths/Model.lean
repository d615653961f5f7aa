import Verif.Common.Res

/-!
# Model of the integer mathematics functions

Sources: `/repo/include/etl/{gcd,lcm,absolute,sqrt,log,power,factorial,fibonacci}.h`.  An unsigned `w` bit type is `Nat` below `2^w`, a signed one is `Int` in
`[-2^(w-1), 2^(w-1))`; arithmetic wraps where the code's does.  Integer promotion of types narrower than `int` is not modelled (it cannot change a result that fits).
`size_t` and the type of `power::value` have 64 bits.
-/
namespace Etl.Maths

/-- The loop of `gcd`, gcd.h l.57-62; every turn decreases `b`. -/
def gcdLoop (a b : Nat) : Nat := if h : b = 0 then a else gcdLoop b (a % b)
termination_by b
decreasing_by exact Nat.mod_lt _ (by omega)

/-- unsigned `gcd`, gcd.h l.48-65 -/
def gcdU (w a b : Nat) : Nat := if a = 0 ∨ b = 0 then (a + b) % 2 ^ w else gcdLoop a b

/-- `absolute_unsigned`, absolute.h l.75-79: the smallest value is treated apart because `-value` would overflow. -/
def absU (w : Nat) (v : Int) : Nat := if v = -2 ^ (w - 1) then (2 ^ w - 1) / 2 + 1 else if v < 0 then (-v).toNat else v.toNat

/-- `static_cast` of an unsigned `w` bit value to the signed type. -/
def toSigned (w n : Nat) : Int := if n < 2 ^ (w - 1) then n else (n : Int) - 2 ^ w

/-- signed `gcd`, gcd.h l.75-85 -/
def gcdS (w : Nat) (a b : Int) : Int := toSigned w (gcdU w (absU w a) (absU w b))

/-- variadic `gcd` over an initializer list, gcd.h l.97-114, for either overload `g` -/
def gcdMany {T : Type} [DecidableEq T] [OfNat T 1] (g : T → T → T) (result : T) : List T → T
  | [] => result
  | v :: vs => let result := g result v; if result = 1 then 1 else gcdMany g result vs

/-- recursive variadic `gcd`, gcd.h l.124-138 -/
def gcdRec {T : Type} [DecidableEq T] [OfNat T 1] (g : T → T → T) (a b : T) : List T → T
  | [] => g a b
  | v :: vs => let ab := g a b; if ab = 1 then 1 else gcdRec g ab v vs

/-- unsigned `lcm`, lcm.h l.49-62 -/
def lcmU (w a b : Nat) : Nat := if a = 0 ∨ b = 0 then 0 else (a * (b / gcdU w a b)) % 2 ^ w

/-- signed `lcm`, lcm.h l.72-82 -/
def lcmS (w : Nat) (a b : Int) : Int := toSigned w (lcmU w (absU w a) (absU w b))

/-- variadic `lcm` over an initializer list, lcm.h l.94-111 -/
def lcmMany {T : Type} [DecidableEq T] [OfNat T 0] (g : T → T → T) (result : T) : List T → T
  | [] => result
  | v :: vs => let result := g result v; if result = 0 then 0 else lcmMany g result vs

/-- `sqrt<VALUE, I>`, sqrt.h l.45-62.  The template recursion has no bound of its own: `fuel` instantiations are made, then the result is the error `diverge`. -/
def sqrtFrom (VALUE : Nat) : Nat → Nat → Res Nat
  | 0, _ => .error .diverge
  | fuel + 1, I => if (I * I) % 2 ^ 64 > VALUE then .ok (I - 1) else sqrtFrom VALUE fuel (I + 1)

/-- `log<NV, BASE>`, log.h l.54-87 -/
def log (NV BASE : Nat) : Nat → Res Nat
  | 0 => .error .diverge
  | fuel + 1 =>
    if NV = 1 then .ok 0 else if NV = 0 then .ok 0
    else if BASE = 0 then .error .divByZero
    else do
      let r ← log (NV / BASE) BASE fuel   -- instantiated in both branches
      .ok (if NV ≥ BASE then 1 + r else 0)

/-- `power<NV, POWER>`, power.h l.60-79 -/
def power (NV : Nat) : Nat → Nat
  | 0 => 1
  | p + 1 => (NV * power NV p) % 2 ^ 64

/-- `1 << k` on `int` -/
def shl1 (k : Nat) : Res Nat := if k < 31 then .ok (1 <<< k) else .error .overflow

/-- `power_of_2_round_up<NV>`, power.h l.92-113 -/
def roundUp (NV fuel : Nat) : Res Nat := if NV = 0 then .ok 2 else do shl1 ((← log (NV - 1) 2 fuel) + 1)

/-- `power_of_2_round_down<NV>`, power.h l.124-173 -/
def roundDown (NV fuel : Nat) : Res Nat := if NV = 0 then .ok 2 else if NV = 1 then .ok 2 else if NV = 2 then .ok 2 else do shl1 (← log (NV - 1) 2 fuel)

/-- `is_power_of_2<NV>`, power.h l.184-213 -/
def isPower2 (NV : Nat) : Bool := if NV = 0 then false else if NV = 1 then false else NV &&& (NV - 1) == 0

/-- `factorial<N>`, factorial.h l.49-65 -/
def factorial : Nat → Nat
  | 0 => 1
  | n + 1 => ((n + 1) * factorial n) % 2 ^ 64

/-- `fibonacci<N>`, fibonacci.h l.49-74 -/
def fibonacci : Nat → Nat
  | 0 => 0
  | 1 => 1
  | n + 2 => (fibonacci (n + 1) + fibonacci n) % 2 ^ 64

end Etl.Maths
