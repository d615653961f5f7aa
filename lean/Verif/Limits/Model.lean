import Verif.Ratio.Model

/-!
# Model of limits.h and integral_limits.h

Sources: `/repo/include/etl/limits.h` l.57, l.208-585 (the members `digits`, `digits10`, `is_signed`, `is_modulo`), l.770-1090 (`min`, `max`, `lowest`), `/repo/include/etl/integral_limits.h` l.70-380 (the constants), l.510-605 (which types have them),
`/repo/include/etl/type_traits.h` l.301-339 (`is_signed`, `is_unsigned` without the STL).

The platform is a parameter: `CHAR_BIT`, the sizes of the types, the signedness of `char` and `wchar_t`.  The macros of `<limits.h>`, `<stdint.h>` and `<wchar.h>` have the values the C standard gives them for such a platform (two's complement).

Not modelled: the limits of floating point types; the members that are the same constant for all integral types, l.127-150; the 20 bit types.
-/
namespace Etl.Limits

inductive T where
  | bool | char | uchar | schar | char8 | char16 | char32 | wchar | short | ushort | int | uint | long | ulong | llong | ullong
  deriving DecidableEq, Repr

structure Plat where
  charBit : Nat
  size : T → Nat
  charSigned : Bool
  wcharSigned : Bool

/-- The width of a type. -/
def width (p : Plat) (t : T) : Nat := p.charBit * p.size t

/-- The conversion of a number to a type: modulo a power of two, into the range of the type. -/
def conv (n : Nat) (signed : Bool) (v : Int) : Int :=
  if signed && decide ((2 : Int) ^ (n - 1) ≤ v % 2 ^ n) then v % 2 ^ n - 2 ^ n else v % 2 ^ n

/-- `SCHAR_MIN`, `SHRT_MIN`, `INT_MIN`, `LONG_MIN`, `LLONG_MIN`. -/
def sMin (p : Plat) (t : T) : Int := -2 ^ (width p t - 1)
/-- `SCHAR_MAX`, `SHRT_MAX`, `INT_MAX`, `LONG_MAX`, `LLONG_MAX`. -/
def sMax (p : Plat) (t : T) : Int := 2 ^ (width p t - 1) - 1
/-- `UCHAR_MAX`, `USHRT_MAX`, `UINT_MAX`, `ULONG_MAX`, `ULLONG_MAX`; `UINT_LEAST16_MAX` and `UINT_LEAST32_MAX` with the types `char16_t` and `char32_t`, which have the size of the types meant. -/
def uMax (p : Plat) (t : T) : Int := 2 ^ width p t - 1
/-- `CHAR_MIN` -/
def charMin (p : Plat) : Int := if p.charSigned then sMin p .schar else 0
/-- `CHAR_MAX` -/
def charMax (p : Plat) : Int := if p.charSigned then sMax p .schar else uMax p .uchar
/-- `WCHAR_MIN` -/
def wcharMin (p : Plat) : Int := if p.wcharSigned then sMin p .wchar else 0
/-- `WCHAR_MAX` -/
def wcharMax (p : Plat) : Int := if p.wcharSigned then sMax p .wchar else uMax p .wchar

/-- `etl::is_signed<T>::value`, type_traits.h l.302-309. -/
def isSigned (p : Plat) : T → Bool
  | .char => decide (conv (width p .char) p.charSigned 255 < 0)
  | .wchar => decide (conv (width p .wchar) p.wcharSigned (-1) < 0)
  | .schar => true
  | .short => true
  | .int => true
  | .long => true
  | .llong => true
  | _ => false

/-- `etl::is_unsigned<T>::value`, type_traits.h l.324-332. -/
def isUnsigned (p : Plat) : T → Bool
  | .bool => true
  | .char => decide (conv (width p .char) p.charSigned 255 > 0)
  | .wchar => decide (conv (width p .wchar) p.wcharSigned (-1) > 0)
  | .uchar => true
  | .ushort => true
  | .uint => true
  | .ulong => true
  | .ullong => true
  | _ => false

/-- The members of `etl::numeric_limits<T>`. -/
structure Row where
  min : Int
  max : Int
  lowest : Int
  digits : Nat
  digits10 : Nat
  isSigned : Bool
  isModulo : Bool
  deriving DecidableEq, Repr

/-- `ETL_LOG10_OF_2`, limits.h l.57; `digits10` of all types but `bool`. -/
def d10 (digits : Nat) : Nat := Ratio.digits10 digits

def one (b : Bool) : Nat := if b then 1 else 0

/-- `etl::numeric_limits<T>`: limits.h l.212-218 and l.782-789 (bool), 235-241 and 801-808 (char), 258-264 and 820-827, 281-287 and 839-846, 305-311 and 859-866 (char8_t), 330-336 and 880-887, 355-361 and 901-908, 379-385 and 921-928 (wchar_t), then the integer types in order. -/
def numericLimits (p : Plat) : T → Row
  | .bool => ⟨0, 1, 0, 1, 0, false, false⟩
  | .char => let d := p.charBit * p.size .char - one (isSigned p .char); ⟨conv (width p .char) p.charSigned (charMin p), conv (width p .char) p.charSigned (charMax p), conv (width p .char) p.charSigned (charMin p), d, d10 d, isSigned p .char, isUnsigned p .char⟩
  | .uchar => let d := p.charBit * p.size .uchar; ⟨0, uMax p .uchar, 0, d, d10 d, false, true⟩
  | .schar => let d := p.charBit * p.size .char - 1; ⟨sMin p .schar, sMax p .schar, sMin p .schar, d, d10 d, true, false⟩
  | .char8 => let d := p.charBit * p.size .char8 - one (isSigned p .char8); ⟨conv (width p .char8) false (charMin p), conv (width p .char8) false (charMax p), conv (width p .char8) false (charMin p), d, d10 d, isSigned p .char8, false⟩
  | .char16 => let d := p.charBit * p.size .char16; ⟨0, uMax p .char16, 0, d, d10 d, false, true⟩
  | .char32 => let d := p.charBit * p.size .char32; ⟨0, uMax p .char32, 0, d, d10 d, false, true⟩
  | .wchar => let d := p.charBit * p.size .wchar - one (isSigned p .wchar); ⟨wcharMin p, wcharMax p, wcharMin p, d, d10 d, isSigned p .wchar, isUnsigned p .wchar⟩
  | .short => let d := p.charBit * p.size .short - 1; ⟨sMin p .short, sMax p .short, sMin p .short, d, d10 d, true, false⟩
  | .ushort => let d := p.charBit * p.size .ushort; ⟨0, uMax p .ushort, 0, d, d10 d, false, true⟩
  | .int => let d := p.charBit * p.size .int - 1; ⟨sMin p .int, sMax p .int, sMin p .int, d, d10 d, true, false⟩
  | .uint => let d := p.charBit * p.size .uint; ⟨0, uMax p .uint, 0, d, d10 d, false, true⟩
  | .long => let d := p.charBit * p.size .long - 1; ⟨sMin p .long, sMax p .long, sMin p .long, d, d10 d, true, false⟩
  | .ulong => let d := p.charBit * p.size .ulong; ⟨0, uMax p .ulong, 0, d, d10 d, false, true⟩
  | .llong => let d := p.charBit * p.size .llong - 1; ⟨sMin p .llong, sMax p .llong, sMin p .llong, d, d10 d, true, false⟩
  | .ullong => let d := p.charBit * p.size .ullong; ⟨0, uMax p .ullong, 0, d, d10 d, false, true⟩

/-- The members of `etl::integral_limits<T>`. -/
structure IRow where
  valueType : T
  min : Int
  max : Int
  bits : Nat
  isSigned : Bool
  deriving DecidableEq, Repr

/-- `etl::integral_limits<T>`, integral_limits.h l.76-366 and l.522-604.  `none`: only declared, l.516; there is a `statics_wchar_t`, l.151, but no `integral_limits<wchar_t>`. -/
def integralLimits (p : Plat) : T → Option IRow
  | .schar => some ⟨.schar, sMin p .schar, sMax p .schar, p.charBit, isSigned p .schar⟩
  | .uchar => some ⟨.uchar, 0, uMax p .uchar, p.charBit, isSigned p .uchar⟩
  | .char => some ⟨.char, if isSigned p .char then sMin p .schar else 0, if isSigned p .char then sMax p .schar else conv (width p .char) p.charSigned (uMax p .uchar), p.charBit, isSigned p .char⟩
  | .short => some ⟨.short, sMin p .short, sMax p .short, p.charBit * (p.size .short / p.size .char), isSigned p .short⟩
  | .ushort => some ⟨.ushort, 0, uMax p .ushort, p.charBit * (p.size .ushort / p.size .char), isSigned p .ushort⟩
  | .int => some ⟨.int, sMin p .int, sMax p .int, p.charBit * (p.size .int / p.size .char), isSigned p .int⟩
  | .uint => some ⟨.uint, 0, uMax p .uint, p.charBit * (p.size .uint / p.size .char), isSigned p .uint⟩
  | .long => some ⟨.long, sMin p .long, sMax p .long, p.charBit * (p.size .long / p.size .char), isSigned p .long⟩
  | .ulong => some ⟨.ulong, 0, uMax p .ulong, p.charBit * (p.size .ulong / p.size .char), isSigned p .ulong⟩
  | .llong => some ⟨.llong, sMin p .llong, sMax p .llong, p.charBit * (p.size .llong / p.size .char), isSigned p .llong⟩
  | .ullong => some ⟨.ulong, 0, uMax p .ullong, p.charBit * (p.size .ullong / p.size .char), isSigned p .ullong⟩
  | _ => none

end Etl.Limits
