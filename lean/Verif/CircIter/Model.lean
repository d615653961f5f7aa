import Verif.Common.Res
import Mathlib.Algebra.Order.Group.Int

/-!
# Model of circular_iterator.h

Source: `/repo/include/etl/circular_iterator.h`.

Iterators of the range are positions; an iterator may not leave `[begin, end]`.  `W`: the width of `difference_type`.
-/
namespace Etl.CircIter

/-- `itr_begin`, `itr_end`, `itr`, l.183-185. -/
structure C where
  b : Int
  e : Int
  i : Int
  deriving DecidableEq

/-- `++itr` and `--itr` of an iterator of the range. -/
def inc (c : C) (x : Int) : Res Int := if x < c.e then .ok (x + 1) else .error .outOfBounds
def dec (c : C) (x : Int) : Res Int := if c.b < x then .ok (x - 1) else .error .outOfBounds

/-- `operator ++`, l.268-276 (forward), l.359-367 (bidirectional), l.481-489 (random). -/
def preInc (c : C) : Res C := do
  let x ← inc c c.i
  if x = c.e then .ok { c with i := c.b } else .ok { c with i := x }

/-- `operator --`, l.384-398 (bidirectional), l.506-520 (random): at the beginning a reverse iterator from the end is advanced by one. -/
def preDec (c : C) : Res C := do
  if c.i = c.b then
    let x ← dec c c.e
    .ok { c with i := x }
  else
    let x ← dec c c.i
    .ok { c with i := x }

/-- `operator +=`, l.537-577.  `%` rounds to zero. -/
def addAssign (c : C) (offset : Int) : Res C :=
  let length := c.e - c.b
  if length = 0 then .error .divByZero
  else
    let offset := offset.tmod length
    if offset ≠ 0 then
      let distance_from_begin := c.i - c.b
      let distance_to_end := c.e - c.i
      let offset :=
        if offset > 0 then
          if distance_to_end > offset then distance_from_begin + offset
          else offset - distance_to_end
        else
          let offset := -offset
          if distance_from_begin ≥ offset then distance_from_begin - offset
          else
            let offset := offset - distance_from_begin
            length - offset
      let x := c.b + offset
      if c.b ≤ x ∧ x ≤ c.e then .ok { c with i := x } else .error .outOfBounds
    else .ok c

/-- `operator -=`, l.582-585: the negation of the least number overflows. -/
def subAssign (W : Nat) (c : C) (offset : Int) : Res C :=
  if offset = -(2 ^ (W - 1)) then .error .overflow else addAssign c (-offset)

/-- `operator *`, l.136-147: an iterator at the end has no element. -/
def deref {α : Type} (l : List α) (c : C) : Res α := match l[(c.i - c.b).toNat]? with
  | some v => if c.b ≤ c.i ∧ c.i < c.e then .ok v else .error .outOfBounds
  | none => .error .outOfBounds

end Etl.CircIter
