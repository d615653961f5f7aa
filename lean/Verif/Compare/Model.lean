/-!
# Model of compare and enum_type

Sources: `/repo/include/etl/compare.h`, `/repo/include/etl/enum_type.h`.
-/
namespace Etl.Compare

/-! ## `compare<T, TLess>`, compare.h l.52-106: `less` is `TLess()` -/
variable {α : Type}

/-- l.66-69 -/
def lt (less : α → α → Bool) (l r : α) : Bool := less l r
/-- l.71-74 -/
def gt (less : α → α → Bool) (l r : α) : Bool := less r l
/-- l.76-79 -/
def lte (less : α → α → Bool) (l r : α) : Bool := !gt less l r
/-- l.81-84 -/
def gte (less : α → α → Bool) (l r : α) : Bool := !lt less l r
/-- l.86-89 -/
def eq (less : α → α → Bool) (l r : α) : Bool := gte less l r && lte less l r
/-- l.91-94 -/
def ne (less : α → α → Bool) (l r : α) : Bool := !eq less l r
/-- `cmp_result`, l.55-60; `cmp`, l.96-99. -/
def cmp (less : α → α → Bool) (l r : α) : Int := if lt less l r then -1 else if gt less l r then 1 else 0
/-- `three_way_compare<T, TLess>`, l.105-113: it is given `TLess` but calls `etl::compare<T>::cmp`, which uses `etl::less<T>`, here `dflt`. -/
def threeWay (dflt _less : α → α → Bool) (l r : α) : Int := cmp dflt l r

/-! ## `ETL_DECLARE_ENUM_TYPE` … `ETL_END_ENUM_TYPE`, enum_type.h l.90-130 -/

/-- A declaration: the enumerators, and the ones named by `ETL_ENUM_TYPE`; two equal `case` labels do not compile. -/
structure Decl where
  consts : List Int
  names : List (Int × String)
  inj : (names.map Prod.fst).Nodup
/-- The number of bits of an enumeration without a fixed type: it holds `-2^n … 2^n - 1` if an enumerator is negative and `0 … 2^n - 1` otherwise. -/
def fits (n : Nat) (neg : Bool) (v : Int) : Bool := decide ((if neg then -2 ^ n else 0) ≤ v) && decide (v < 2 ^ n)
/-- Whether all enumerators fit into `n` bits -/
def allFit (neg : Bool) (n : Nat) : List Int → Bool
  | [] => true
  | x :: l => fits n neg x && allFit neg n l
/-- The smallest width, up to `fuel` -/
def width (d : Decl) (neg : Bool) : Nat → Nat → Nat
  | 0, n => n
  | fuel + 1, n => if allFit neg n d.consts then n else width d neg fuel (n + 1)
def Decl.neg (d : Decl) : Bool := d.consts.any (· < 0)
/-- `static_cast<enum_type>(value_)`, l.95: undefined (`none`) if the value is outside the range of the enumeration (C++17).  An enumeration of which all enumerators are 0 still holds one bit. -/
def toEnum (d : Decl) (v : Int) : Option Int := if fits (max 1 (width d d.neg 64 0)) d.neg v then some v else none
/-- The default constructor, l.93. -/
def dfltEnum (d : Decl) : Option Int := toEnum d 0
/-- `operator value_type()`, `get_value()`, `get_enum()`, l.96-98. -/
def getValue (e : Int) : Int := e
/-- `c_str()`, l.99-130: the `switch`. -/
def cStr : List (Int × String) → Int → String
  | [], _ => "?"
  | (k, s) :: l, e => if e = k then s else cStr l e

end Etl.Compare
