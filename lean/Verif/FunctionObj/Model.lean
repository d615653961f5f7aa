import Mathlib.Data.Int.Bitwise

/-!
# The function objects of `functional.h`

Source: `/repo/include/etl/functional.h`.  The operators `<` and `==` of the element types are parameters.  The arithmetic objects are modelled for `T` an integral type of `w` bits, two's complement if it is
signed, on a platform whose `int` has 32 bits: the operands are promoted to `int` if `T` is narrower.
-/
namespace Etl.FunctionObj

section Compare
variable {α β : Type}

/-- `less<T>`, l.133-142; `lt` is the operator of `T`. -/
def less (lt : α → α → Bool) (lhs rhs : α) : Bool := lt lhs rhs
/-- `less_equal<T>`, l.159-168. -/
def lessEqual (lt : α → α → Bool) (lhs rhs : α) : Bool := !lt rhs lhs
/-- `greater<T>`, l.185-194. -/
def greater (lt : α → α → Bool) (lhs rhs : α) : Bool := lt rhs lhs
/-- `greater_equal<T>`, l.211-220. -/
def greaterEqual (lt : α → α → Bool) (lhs rhs : α) : Bool := !lt lhs rhs
/-- `equal_to<T>`, l.237-246. -/
def equalTo (eq : α → α → Bool) (lhs rhs : α) : Bool := eq lhs rhs
/-- `not_equal_to<T>`, l.264-273. -/
def notEqualTo (eq : α → α → Bool) (lhs rhs : α) : Bool := !eq lhs rhs

/-- The operators between two types that the forms for `void` use: `T1 < T2`, `T2 < T1`, `T1 == T2`. -/
structure Ops (α β : Type) where
  lt : α → β → Bool
  tl : β → α → Bool
  eq : α → β → Bool

/-- `less<void>`, l.145-155. -/
def lessV (o : Ops α β) (lhs : α) (rhs : β) : Bool := o.lt lhs rhs
/-- `less_equal<void>`, l.171-181. -/
def lessEqualV (o : Ops α β) (lhs : α) (rhs : β) : Bool := !o.tl rhs lhs
/-- `greater<void>`, l.197-207. -/
def greaterV (o : Ops α β) (lhs : α) (rhs : β) : Bool := o.tl rhs lhs
/-- `greater_equal<void>`, l.223-233: the same expression as in `greater<void>`. -/
def greaterEqualV (o : Ops α β) (lhs : α) (rhs : β) : Bool := o.tl rhs lhs
/-- `equal_to<void>`, l.249-261. -/
def equalToV (o : Ops α β) (lhs : α) (rhs : β) : Bool := o.eq lhs rhs
/-- `not_equal_to<void>`, l.276-286. -/
def notEqualToV (o : Ops α β) (lhs : α) (rhs : β) : Bool := !o.eq lhs rhs
end Compare

/-- `bind1st(f, x)`, l.290-320: the function and the value are stored, the call passes the value first. -/
def bind1st {α β γ : Type} (f : α → β → γ) (v : α) : β → γ := fun x => f v x
/-- `bind2nd(f, x)`, l.323-350: the value is passed second. -/
def bind2nd {α β γ : Type} (f : α → β → γ) (v : β) : α → γ := fun x => f x v

inductive Err
  | overflow
  | divByZero
  deriving DecidableEq

abbrev Res (α : Type) := Except Err α

/-- Conversion to a type of `w` bits. -/
def conv (w : Nat) (sg : Bool) (v : Int) : Int :=
  let u := v % 2 ^ w
  if sg = true ∧ 2 ^ (w - 1) ≤ u then u - 2 ^ w else u
/-- The value is one of the type of `w` bits. -/
def inRange (w : Nat) (sg : Bool) (v : Int) : Bool := if sg then decide (-2 ^ (w - 1) ≤ v ∧ v < 2 ^ (w - 1)) else decide (0 ≤ v ∧ v < 2 ^ w)

/-- The integral promotions: width and signedness of the type computed in. -/
def pw (w : Nat) : Nat := max w 32
def psg (w : Nat) (sg : Bool) : Bool := sg || decide (w < 32)
/-- The result of an operation whose exact value is `z`: undefined out of the range of a signed type, wrapping in an unsigned one; then converted to `T`. -/
def fit (w : Nat) (sg : Bool) (z : Int) : Res Int :=
  if psg w sg then if inRange (pw w) true z then .ok (conv w sg z) else .error .overflow else .ok (conv w sg (conv (pw w) false z))

section Arith
variable (w : Nat) (sg : Bool)
/-- `plus`, l.353-364. -/
def plus (x y : Int) : Res Int := fit w sg (x + y)
/-- `minus`, l.367-378. -/
def minus (x y : Int) : Res Int := fit w sg (x - y)
/-- `negate`, l.381-391. -/
def negate (x : Int) : Res Int := fit w sg (-x)
/-- `multiplies`, l.394-405. -/
def multiplies (x y : Int) : Res Int := fit w sg (x * y)
/-- `divides`, l.408-419: truncation towards 0. -/
def divides (x y : Int) : Res Int := if y = 0 then .error .divByZero else fit w sg (x.tdiv y)
/-- `modulus`, l.422-433: undefined if the quotient is. -/
def modulus (x y : Int) : Res Int := if y = 0 then .error .divByZero else match fit w sg (x.tdiv y) with
  | .error e => .error e
  | .ok _ => fit w sg (x.tmod y)
/-- `logical_and`, `logical_or`, `logical_not`, l.436-475: the `bool` is converted to `T`. -/
def logicalAnd (x y : Int) : Int := conv w sg (if x ≠ 0 ∧ y ≠ 0 then 1 else 0)
def logicalOr (x y : Int) : Int := conv w sg (if x ≠ 0 ∨ y ≠ 0 then 1 else 0)
def logicalNot (x : Int) : Int := conv w sg (if x = 0 then 1 else 0)
/-- `bit_and`, `bit_or`, `bit_xor`, `bit_not`, l.478-530. -/
def bitAnd (x y : Int) : Int := conv w sg (conv (pw w) (psg w sg) (Int.land x y))
def bitOr (x y : Int) : Int := conv w sg (conv (pw w) (psg w sg) (Int.lor x y))
def bitXor (x y : Int) : Int := conv w sg (conv (pw w) (psg w sg) (Int.xor x y))
def bitNot (x : Int) : Int := conv w sg (conv (pw w) (psg w sg) (Int.lnot x))
end Arith

end Etl.FunctionObj
