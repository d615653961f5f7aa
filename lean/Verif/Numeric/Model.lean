import Verif.Common.Res
import Mathlib.Data.Rat.Defs
import Mathlib.Algebra.Order.Ring.Unbundled.Rat
/-!
# `etl::iota`, `etl::midpoint`, `etl::lerp` (include/etl/numeric.h)

Integers are words of `w` bits; `int` has 32 bits.  A type narrower than `int` is promoted: its arithmetic is that of `int`, which cannot
overflow on the values used here, and the result is converted back.
-/
namespace Etl.Numeric

/-- `iota`, numeric.h:56-63: the range of elements is a list, `value++` is arithmetic modulo `2 ^ w`. -/
def iota {w : Nat} : List (BitVec w) → BitVec w → List (BitVec w)
  | [], _ => []
  | _ :: rest, value => value :: iota rest (value + 1#w)

/-- Is the type promoted to `int` in arithmetic? -/
def promoted (w : Nat) : Bool := decide (w < 32)

/-- `midpoint` of unsigned integers, numeric.h:92-108.  Promoted: arithmetic in `int`, here in `Int`. -/
def midUnsigned (w : Nat) (a b : BitVec w) : BitVec w :=
  if promoted w then
    if a.toNat > b.toNat then BitVec.ofInt w ((a.toNat : Int) - (((a.toNat : Int) - b.toNat) >>> 1))
    else BitVec.ofInt w ((a.toNat : Int) + (((b.toNat : Int) - a.toNat) >>> 1))
  else
    if a.toNat > b.toNat then a - ((a - b) >>> 1)
    else a + ((b - a) >>> 1)

/-- Signed arithmetic of a type as wide as `int` or wider: undefined if the result is not representable. -/
def signedResult (w : Nat) (x : Int) : Except UB (BitVec w) := if -(2 ^ (w - 1)) ≤ x ∧ x < 2 ^ (w - 1) then .ok (BitVec.ofInt w x) else .error .overflow

/-- `midpoint` of signed integers, numeric.h:114-132.  `T(...)` of an unsigned or an `int` value is the conversion modulo `2 ^ w`.
* first branch, line 125: `utype(utype(a) - utype(b)) >> 1`: the difference is converted back to `utype` before the shift;
* second branch, line 129: `(utype(b) - utype(a)) >> 1`: for a promoted type this is a difference of `int`s, possibly negative, and an
  arithmetic shift. -/
def midSigned (w : Nat) (a b : BitVec w) : Except UB (BitVec w) :=
  if promoted w then
    if a.toInt > b.toInt then
      let d : BitVec w := BitVec.ofInt w ((a.toNat : Int) - b.toNat)
      let t : BitVec w := BitVec.ofInt w ((d.toNat : Int) >>> 1)
      .ok (BitVec.ofInt w (a.toInt - t.toInt))
    else
      let t : BitVec w := BitVec.ofInt w (((b.toNat : Int) - a.toNat) >>> 1)
      .ok (BitVec.ofInt w (a.toInt + t.toInt))
  else
    if a.toInt > b.toInt then signedResult w (a.toInt - ((a - b) >>> 1).toInt)
    else signedResult w (a.toInt + ((b - a) >>> 1).toInt)

/-- `midpoint` of pointers and of random access iterators, numeric.h:138-173; an iterator is its position. -/
def midIterator (a b : Nat) : Nat := if a > b then b + (a - b) / 2 else a + (b - a) / 2

/-- `midpoint` of forward and bidirectional iterators, numeric.h:180-190. -/
def midForward (a b : Nat) : Nat := a + (b - a) / 2

/-! ## Floating point

Rounding is not modelled; overflow is: a result larger in magnitude than the largest finite number is infinite. -/

/-- a floating point value that is not a NaN -/
inductive F where
  | fin (q : Rat)
  | inf (neg : Bool)
  deriving DecidableEq, Repr

/-- the result of an operation, with overflow above `big` -/
def F.of (big : Rat) (q : Rat) : F := if q > big then .inf false else if q < -big then .inf true else .fin q

/-- `x <= y` of a finite `x` -/
def F.geq (y : F) (x : Rat) : Bool := match y with
  | .fin q => decide (x ≤ q)
  | .inf neg => !neg

/-- `y / 2` -/
def F.half : F → F
  | .fin q => .fin (q / 2)
  | .inf n => .inf n

/-- `midpoint` of finite floating point numbers, numeric.h:70-86.  `big`, `small`: `numeric_limits<T>::max()`, `min()`. -/
def midFloat (big small a b : Rat) : F :=
  let lo := F.of big (small * 2)
  let hi := F.of big (big * 2)
  if hi.geq |a| && hi.geq |b| then (F.of big (a + b)).half
  else if lo.geq |a| && !decide (lo = .fin |a|) then F.of big (a + b / 2)
  else if lo.geq |b| && !decide (lo = .fin |b|) then F.of big (a / 2 + b)
  else F.of big (a / 2 + b / 2)

/-- `lerp`, numeric.h:196-224, exact arithmetic. -/
def lerp (a b t : Rat) : Rat := a + t * (b - a)

end Etl.Numeric
