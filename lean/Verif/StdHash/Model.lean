import Verif.Hash.Model
/-!
# `etl::hash<T>` (include/etl/hash.h, include/etl/math.h; `hash<string>`, `hash<string_view>` in string.h, string_view.h)

The key of every unordered container.  The platform is a parameter: the width of `size_t` and the byte order.
-/
namespace Etl.StdHash
open Fcs

/-- The widths of `size_t` for which hash.h has a `generic_hash` (58-90). -/
inductive SizeT where
  | s16
  | s32
  | s64
  deriving DecidableEq, Repr

/-- bits of `size_t` -/
def SizeT.bits : SizeT → Nat
  | .s16 => 16
  | .s32 => 32
  | .s64 => 64

/-- The object representation of an integral value of `n` bits in memory: `reinterpret_cast<uint8_t*>(&v)`, hash.h:213 and the like. -/
def objectBytes (big : Bool) (n : Nat) (v : BitVec n) : List Byte :=
  let le := (List.range (n / 8)).map fun i => v.extractLsb' (8 * i) 8
  if big then le.reverse else le

/-- `fnv_1a_32(begin, end)` / `fnv_1a_64(begin, end)` converted to its value: construction from the range and `operator value_type`.
The policy never faults, so the error branch (value zero) is never taken (see `fnv1a_eq`). -/
def fnv1a (w : Nat) (basis prime : BitVec w) (bs : List Byte) : BitVec w :=
  match constructRange (Hash.fnv1aPolicy w basis prime) () 0#w bs with
  | .ok s => (value (Hash.fnv1aPolicy w basis prime) s).2
  | .error _ => 0#w

/-- `private_hash::generic_hash<size_t>`: 16 bits, hash.h:58-65; 32 bits, 71-76; 64 bits, 83-88. -/
def genericHash : (z : SizeT) → List Byte → BitVec z.bits
  | .s16, bs =>
    let h := fnv1a 32 Hash.basis32 Hash.prime32 bs
    (h ^^^ (h >>> 16)).setWidth 16
  | .s32, bs => fnv1a 32 Hash.basis32 Hash.prime32 bs
  | .s64, bs => fnv1a 64 Hash.basis64 Hash.prime64 bs

/-- `static_cast<size_t>(v)` of a signed or unsigned value of `n` bits. -/
def castSize (z : SizeT) (signed : Bool) (n : Nat) (v : BitVec n) : BitVec z.bits := if signed then v.signExtend z.bits else v.setWidth z.bits

/-- `hash<T>::operator()` for an integral type of `n` bits: bool, char, (un)signed char, wchar_t, short, unsigned short, int, unsigned
int, long, long long, unsigned long, unsigned long long, hash.h:132-372 (for the 8 bit types the comparison always holds). -/
def hashInt (z : SizeT) (big signed : Bool) (n : Nat) (v : BitVec n) : BitVec z.bits :=
  if n ≤ z.bits then castSize z signed n v
  else genericHash z (objectBytes big n v)

/-- `hash_base<T, true>::operator()`, for an enumeration with an underlying type of `n` bits, hash.h:526-541: `static_cast<unsigned long
long>` has 64 bits. -/
def hashEnum (z : SizeT) (big signed : Bool) (n : Nat) (v : BitVec n) : BitVec z.bits :=
  if n ≤ z.bits then castSize z signed n v
  else hashInt z big false 64 (if signed then v.signExtend 64 else v.setWidth 64)

/-- `hash<T*>::operator()`, hash.h:494-518, for a pointer of `n` bits. -/
def hashPtr (z : SizeT) (big : Bool) (n : Nat) (v : BitVec n) : BitVec z.bits :=
  if n = z.bits then v.setWidth z.bits
  else genericHash z (objectBytes big n v)

/-- `etl::is_zero` of a floating point value, math.h:113-122 (`fpclassify(value) == FP_ZERO`): all bits but the sign are zero.  The value
is given by its IEEE 754 bit pattern of `n` bits, the sign on top. -/
def isZero (n : Nat) (v : BitVec n) : Bool := v.setWidth (n - 1) == 0#(n - 1)

/-- `hash<float>`, hash.h:378-407, and `hash<double>`, 413-442, given by their bit patterns (32 and 64 bits). -/
def hashFloat (z : SizeT) (big : Bool) (n : Nat) (v : BitVec n) : BitVec z.bits :=
  if z.bits = n then
    let v := if isZero n v then 0#n else v
    v.setWidth z.bits
  else genericHash z (objectBytes big n v)

/-- `hash<istring>`, `hash<string<SIZE>>`, `hash<string_ext>` string.h:478-507, `hash<string_view>` string_view.h:918-956 and the same in
wstring.h, u8string.h, u16string.h, u32string.h: the bytes from `data()` to `data() + size()`, characters of `n` bits. -/
def hashText (z : SizeT) (big : Bool) (n : Nat) (text : List (BitVec n)) : BitVec z.bits := genericHash z (text.flatMap (objectBytes big n))

end Etl.StdHash
