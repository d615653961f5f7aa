/-
Model of the function objects etl::limiter (/repo/include/etl/limiter.h l.42-84), etl::threshold (threshold.h l.46-76), etl::quantize (quantize.h
l.46-84), etl::rescale (rescale.h l.48-80) and etl::invert (invert.h l.46-80); `etl::clamp` of algorithm.h l.2158-2164.

The order of `clamp`, `threshold` and `quantize` is an arbitrary function.  In `rescale` both types are integers, without limits, and `double` is taken to be
exact.  `invert` works on an unsigned or two's complement type of `w` bits.
-/
import Mathlib.Algebra.Order.Floor.Ring
import Mathlib.Data.Rat.Floor
import Mathlib.Tactic.Linarith

namespace Etl.Functor

inductive Err
  | outside
  | divByZero
  deriving DecidableEq

variable {α : Type}

/-- `clamp`, algorithm.h l.2158-2164; `limiter::operator ()`, limiter.h l.48-51, l.75-78 -/
def limiter (lt : α → α → Bool) (lowest highest value : α) : α := if lt value lowest then lowest else if lt highest value then highest else value

/-- `threshold::operator ()`, threshold.h l.65-68 -/
def threshold (compare : α → α → Bool) (thresholdValue trueValue falseValue value : α) : α := if compare value thresholdValue then trueValue else falseValue

/-- the loop of `quantize::operator ()`, quantize.h l.67-75: `i` counts up to `n_levels`; `fuel` is what is left -/
def quantizeLoop (compare : α → α → Bool) (thresholds quantizations : List α) (value : α) : Nat → Nat → Except Err α
  | i, 0 => match quantizations[i]? with
    | none => .error .outside
    | some q => .ok q
  | i, fuel + 1 => match thresholds[i]? with
    | none => .error .outside
    | some t => if compare value t then (match quantizations[i]? with
        | none => .error .outside
        | some q => .ok q)
      else quantizeLoop compare thresholds quantizations value (i + 1) fuel
/-- `quantize`, quantize.h l.54-76: `n_levels` is `n_quantizations - 1` in an unsigned type of `W` bits -/
def quantize (W : Nat) (compare : α → α → Bool) (thresholds quantizations : List α) (n : Nat) (value : α) : Except Err α :=
  quantizeLoop compare thresholds quantizations value 0 ((n + (2 ^ W - 1)) % 2 ^ W)

/-- conversion of a double to an integer -/
def trunc (q : ℚ) : ℤ := if 0 ≤ q then ⌊q⌋ else ⌈q⌉
/-- `rescale`, rescale.h l.55-72 -/
def rescale (imin imax omin omax value : ℤ) : Except Err ℤ :=
  if imax - imin = 0 then .error .divByZero
  else .ok (trunc (((value - imin : ℤ) : ℚ) * (((omax - omin : ℤ) : ℚ) / ((imax - imin : ℤ) : ℚ))) + omin)

/-- `invert::operator ()`, invert.h l.71-74 -/
def invert {w : Nat} (offset minuend value : BitVec w) : BitVec w := minuend - (value - offset)
/-- the default constructor, invert.h l.53-57: for a signed type 0, for an unsigned one the largest value -/
def invertDefault {w : Nat} (signed : Bool) (value : BitVec w) : BitVec w := invert 0#w (if signed then 0#w else BitVec.allOnes w) value

end Etl.Functor
