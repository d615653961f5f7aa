import Verif.Common.Res

/-!
# Model of etl::to_arithmetic and etl::to_string for integers

Source: `/repo/include/etl/to_arithmetic.h` (integers, l.232-783), `/repo/include/etl/private/to_string_helper.h` (integers, l.66-217, l.250-289, l.364-436, l.528-577), `/repo/include/etl/absolute.h`.

A character is its code.  The types are given by their width and sign (8, 16, 32, 64 bits; `bool` is not one of them).  A value of an unsigned type is a natural number, arithmetic of unsigned types is modulo a power of two.
The string that `to_string` writes is the list of its characters and its capacity: `push_back` and `insert` are what C37 says about them.
Not modelled: floating point.
-/
namespace Etl.Arith

/-- an integer type -/
structure Ty where
  bits : Nat
  signed : Bool
deriving DecidableEq

/-- `to_arithmetic_status`, l.57-76 -/
inductive Status where
  | valid | invalidRadix | invalidFormat | signedToUnsigned | overflow
deriving DecidableEq

/-! ## to_arithmetic -/

/-- `is_valid`, l.232-268 -/
def isValid (c radix : Nat) : Bool :=
  if radix = 2 then decide (48 ≤ c ∧ c ≤ 49)
  else if radix = 8 then decide (48 ≤ c ∧ c ≤ 55)
  else if radix = 10 then decide (48 ≤ c ∧ c ≤ 57)
  else if radix = 16 then decide ((48 ≤ c ∧ c ≤ 57) ∨ (97 ≤ c ∧ c ≤ 102))
  else false
/-- `digit_value`, l.272-305 -/
def digitValue (c radix : Nat) : Nat :=
  if radix = 2 ∨ radix = 8 ∨ radix = 10 then c - 48
  else if radix = 16 then (if 48 ≤ c ∧ c ≤ 57 then c - 48 else c - 97 + 10)
  else 0
/-- `to_lower`, l.309-317 -/
def toLower (c : Nat) : Nat := if 65 ≤ c ∧ c ≤ 90 then c + 32 else c
/-- `convert`, l.323-326: the cast to `char`.  (A `char` of 128 and more, or below 0, is no digit, no letter and no sign.) -/
def convert (c : Nat) : Nat := toLower (c % 256)
/-- `check_and_remove_sign_prefix`, l.335-354: is it negative, and what is left -/
def removeSign : List Nat → Bool × List Nat
  | [] => (false, [])
  | c :: cs => if convert c = 43 ∨ convert c = 45 then (decide (convert c = 45), cs) else (false, c :: cs)
/-- `is_valid_radix`, l.361-367 -/
def validRadix (radix : Nat) : Bool := radix == 2 || radix == 8 || radix == 10 || radix == 16

/-- `integral_accumulator`, l.373-456 -/
structure Acc where
  value : Nat
  status : Status
/-- `add`, l.388-430; `A` is the width of the accumulator -/
def Acc.add (A radix maximum : Nat) (a : Acc) (c : Nat) : Acc × Bool :=
  if isValid c radix then
    if a.value * radix % 2 ^ A / radix = a.value then
      (if (maximum + 2 ^ A - digitValue c radix) % 2 ^ A ≥ a.value * radix % 2 ^ A then ({ a with value := (a.value * radix % 2 ^ A + digitValue c radix) % 2 ^ A }, true)
       else ({ value := a.value * radix % 2 ^ A, status := .overflow }, false))
    else ({ value := a.value * radix % 2 ^ A, status := .overflow }, false)
  else ({ a with status := .invalidFormat }, false)
/-- the loop of `to_arithmetic_integral`, l.697-701 -/
def accLoop (A radix maximum : Nat) : List Nat → Acc → Acc
  | [], a => a
  | c :: cs, a => if (a.add A radix maximum (convert c)).2 then accLoop A radix maximum cs (a.add A radix maximum (convert c)).1 else (a.add A radix maximum (convert c)).1

/-- `accumulator_type_select`, l.651-677 -/
def Ty.acc (t : Ty) : Nat := if t.bits ≤ 32 then 32 else 64
/-- `integral_limits<T>::max` -/
def Ty.max (t : Ty) : Nat := if t.signed then 2 ^ (t.bits - 1) - 1 else 2 ^ t.bits - 1
/-- `integral_limits<make_unsigned<T>>::max` -/
def Ty.umax (t : Ty) : Nat := 2 ^ t.bits - 1
/-- `absolute_unsigned(min)`, absolute.h l.70-90 -/
def Ty.absMin (t : Ty) : Nat := if t.signed then t.umax / 2 + 1 else 0
/-- conversion to the type (two's complement) -/
def Ty.wrap (t : Ty) (x : Int) : Int := if t.signed then (x + 2 ^ (t.bits - 1)) % 2 ^ t.bits - 2 ^ (t.bits - 1) else x % 2 ^ t.bits
/-- `to_arithmetic`, l.721-783: the status and the value (0 without a value) -/
def toArithmetic (t : Ty) (radix : Nat) (view : List Nat) : Status × Int :=
  if validRadix radix then
    if (removeSign view).2.isEmpty then (.invalidFormat, 0)
    else if (removeSign view).1 && !t.signed then (.signedToUnsigned, 0)
    else
      (let maximum := if (removeSign view).1 then t.absMin else if radix = 10 then t.max else t.umax
       let a := accLoop t.acc radix maximum (removeSign view).2 ⟨0, .valid⟩
       if a.status = .valid then (.valid, t.wrap (if (removeSign view).1 then 0 - ((a.value % 2 ^ t.bits : Nat) : Int) else ((a.value % 2 ^ t.bits : Nat) : Int)))
       else (a.status, 0))
  else (.invalidRadix, 0)

/-! ## to_string -/

/-- `basic_format_spec`, basic_format_spec.h l.204-500 -/
structure Fmt where
  base : Nat := 10
  width : Nat := 0
  precision : Nat := 0
  upper : Bool := false
  left : Bool := false
  showBase : Bool := false
  fill : Nat := 32

/-- `push_back` (C37) -/
def push (cap : Nat) (str : List Nat) (c : Nat) : List Nat := (str ++ [c]).take cap
/-- `insert(position, n, c)` (C37) -/
def insertN (cap : Nat) (str : List Nat) (p n c : Nat) : List Nat := (str.take p ++ List.replicate n c ++ str.drop p).take cap

/-- `add_alignment`, l.69-90 -/
def addAlignment (cap : Nat) (str : List Nat) (position : Nat) (f : Fmt) : List Nat :=
  if str.length - position < f.width then
    (if f.left then insertN cap str str.length (f.width - (str.length - position)) f.fill else insertN cap str position (f.width - (str.length - position)) f.fill)
  else str
/-- the character of a digit, in `add_integral`, l.143-217 -/
def digitChar (upper : Bool) (r : Nat) : Nat := if r > 9 then (if upper then 65 + (r - 10) else 97 + (r - 10)) else 48 + r
/-- the loop of `add_integral`, l.143-217: the remainder has the sign of the value -/
def digitLoop (cap : Nat) (f : Fmt) : Nat → Int → List Nat → Res (List Nat)
  | 0, _, _ => .error .diverge
  | fuel + 1, v, str => if v = 0 then .ok str
    else if f.base = 0 then .error .divByZero
    else digitLoop cap f fuel (v.tdiv f.base) (push cap str (digitChar f.upper (v.tmod f.base).natAbs))
/-- what `show_base` adds, in `add_integral`, l.143-217 -/
def addBase (cap : Nat) (f : Fmt) (str : List Nat) : List Nat :=
  if f.showBase then
    (if f.base = 2 then push cap (push cap str (if f.upper then 66 else 98)) 48
     else if f.base = 8 then push cap str 48
     else if f.base = 16 then push cap (push cap str (if f.upper then 88 else 120)) 48
     else str)
  else str
/-- `add_integral`, l.143-217 -/
def addIntegral (cap : Nat) (v : Int) (str0 : List Nat) (f : Fmt) (append negative : Bool) : Res (List Nat) :=
  let str := if append then str0 else []
  let start := str.length
  if v = 0 then .ok (addAlignment cap (push cap (if f.base = 10 ∧ negative then push cap str 45 else str) 48) start f)
  else match digitLoop cap f (v.natAbs + 1) v str with
    | .error u => .error u
    | .ok s =>
      (let s := addBase cap f (if f.base = 10 ∧ negative then push cap s 45 else s)
       .ok (addAlignment cap (s.take start ++ (s.drop start).reverse) start f))
/-- `to_string` of an integer of type `t`, l.528-554.  `long long`, where `int64_t` is `long`, goes the way of the narrow types: see `toStringOther`. -/
def toString (cap : Nat) (v : Int) (str : List Nat) (f : Fmt) (append : Bool) : Res (List Nat) := addIntegral cap v str f append (decide (v < 0))
/-- `to_string` of a 64 bit type that is neither `int64_t` nor `uint64_t`, l.528-538: the value is converted to 32 bits -/
def toStringOther (signed : Bool) (cap : Nat) (v : Int) (str : List Nat) (f : Fmt) (append : Bool) : Res (List Nat) := addIntegral cap (Ty.wrap ⟨32, signed⟩ v) str f append (decide (v < 0))

/-- `x *= 10U`, `n` times, in an unsigned type of `W` bits, l.380-386, l.412-418 -/
def mul10 (W : Nat) : Nat → Nat → Nat
  | 0, x => x
  | n + 1, x => mul10 W n (x * 10 % 2 ^ W)
/-- `x /= 10U`, `n` times, l.427-432 -/
def div10 : Nat → Nat → Nat
  | 0, x => x
  | n + 1, x => div10 n (x / 10)
/-- `add_integral_denominated`, l.364-436; `W` is the width of the type (32 or 64); the `count` of l.408 is at least 1, so the loop runs `count - 1` times -/
def addDenominated (W cap : Nat) (v : Int) (exponent : Nat) (str0 : List Nat) (f : Fmt) (append : Bool) : Res (List Nat) :=
  let str := if append then str0 else []
  let start := str.length
  let denominator := mul10 W exponent 1
  let displayed := if f.precision > exponent then exponent else f.precision
  let integralF : Fmt := { f with base := 10, width := 0 }
  let fractionalF : Fmt := { integralF with precision := displayed, width := displayed, fill := 48, left := false }
  let absValue := if exponent > displayed then (v.natAbs + mul10 32 (exponent - displayed - 1) 5) % 2 ^ W else v.natAbs
  if denominator = 0 then .error .divByZero
  else match addIntegral cap ((absValue / denominator : Nat) : Int) str integralF true (decide (v < 0)) with
    | .error u => .error u
    | .ok s => if fractionalF.precision > 0 then (match addIntegral cap ((div10 (exponent - displayed) (absValue % denominator) : Nat) : Int) (push cap s 46) fractionalF true false with
        | .error u => .error u
        | .ok s => .ok (addAlignment cap s start f))
      else .ok (addAlignment cap s start f)

end Etl.Arith
