import Verif.Algo.Rotate
import Verif.Binary.Model

/-!
# Model of unaligned_type.h and of hton, ntoh in endianness.h

Sources: `/repo/include/etl/unaligned_type.h`, `/repo/include/etl/endianness.h`.

The memory is a list of bytes; a storage pointer is a position in it (`unaligned_type` has its storage in itself: its position is where the object is).  `true` stands for big endian, for the host (`h`) and for the template parameter (`e`).
A value of the type `T` is the number its bits represent (for signed and floating point types: the bit pattern), `n` is `sizeof(T)`.
The macro `ETL_HAS_CONSTEXPR_ENDIANESS` that l.348, l.364, l.405 and l.421 test is never defined (the other files write `ENDIANNESS`): the `#else` branches are modelled.
-/
namespace Etl.Unaligned
open Etl.Algo

abbrev Mem := List Nat

/-- The bytes of a number, the least significant one first. -/
def le : Nat → Nat → List Nat
  | 0, _ => []
  | n + 1, v => v % 256 :: le n (v / 256)
/-- The number of these bytes. -/
def val : List Nat → Nat
  | [] => 0
  | b :: bs => b + 256 * val bs

/-- How the host has a value in its memory, and the value it sees in these bytes. -/
def hostBytes (h : Bool) (n v : Nat) : List Nat := if h then (le n v).reverse else le n v
def hostValue (h : Bool) (bs : List Nat) : Nat := if h then val bs.reverse else val bs

def readN (m : Mem) (p n : Nat) : Res (List Nat) := if p + n ≤ m.length then .ok ((m.drop p).take n) else .error .outOfBounds
def writeN (m : Mem) (p : Nat) (bs : List Nat) : Res Mem := if p + bs.length ≤ m.length then .ok (m.take p ++ bs ++ m.drop (p + bs.length)) else .error .outOfBounds
/-- `memcpy(dst, src, n)`; a partial overlap is undefined.  (That of the same address is too, by the letter of the C standard; it is what self assignment does and is taken to work.) -/
def memcpy (m : Mem) (dst src n : Nat) : Res Mem := do
  if src ≠ dst ∧ src < dst + n ∧ dst < src + n then .error .dataRace else
  writeN m dst (← readN m src n)

/-- `copy_value_to_store`, l.344-356 (integral), l.401-413 (floating point): the same. -/
def store (h e : Bool) (n : Nat) (m : Mem) (v p : Nat) : Res Mem := do
  let m ← writeN m p (hostBytes h n v)
  if e ≠ h then reverse .pointer m p (p + n) else .ok m

/-- `etl::reverse_bytes` for the sizes 1, 2, 4, 8 of integral types, binary.h l.720-801. -/
def reverseBytes (n v : Nat) : Nat :=
  if n = 1 then v else if n = 2 then Binary.reverseBytes16 v else if n = 4 then Binary.reverseBytes32 v else Binary.reverseBytes64 v

/-- `copy_store_to_value`, l.360-372: integral types. -/
def loadInt (h e : Bool) (n : Nat) (m : Mem) (p : Nat) : Res Nat := do
  let v := hostValue h (← readN m p n)
  if e ≠ h then .ok (reverseBytes n v) else .ok v

/-- `copy_store_to_value`, l.417-429: floating point; the bytes of the value are reversed. -/
def loadFloat (h e : Bool) (n : Nat) (m : Mem) (p : Nat) : Res Nat := do
  let bs ← readN m p n
  let bs ← if e ≠ h then reverse .pointer bs 0 n else .ok bs
  .ok (hostValue h bs)

/-- `value()`, `operator T`, l.555-574, l.734-753. -/
def load (isFloat h e : Bool) (n : Nat) (m : Mem) (p : Nat) : Res Nat := if isFloat then loadFloat h e n m p else loadInt h e n m p

/-- `copy_store_to_store`, l.375-383, l.432-440; the copy constructors and assignments, l.507-519, l.534-550, l.635-639, l.681-697. -/
def copy (e eSrc : Bool) (n : Nat) (m : Mem) (src dst : Nat) : Res Mem := do
  let m ← memcpy m dst src n
  if e ≠ eSrc then reverse .pointer m dst (dst + n) else .ok m

/-- `unaligned_type(address)`, `unaligned_type(address, buffer_size)`, l.489-502: the bytes as they are, with an assertion on the size (`none`: it fails). -/
def fromAddress (n : Nat) (m : Mem) (address dst : Nat) : Res Mem := do writeN m dst (← readN m address n)
def fromBuffer (n : Nat) (m : Mem) (address size dst : Nat) : Res (Option Mem) := do
  if n ≤ size then .ok (some (← fromAddress n m address dst)) else .ok none

/-- A `unaligned_type_ext`: its pointer; null after a move. -/
abbrev Ext := Option Nat

/-- The move constructors and move assignments of `unaligned_type_ext`, l.645-665, l.703-728: the pointer is taken, and the bytes are reversed if the endianness differs.  Returns the memory, this object and the other one. -/
def moveExt (e eSrc : Bool) (n : Nat) (m : Mem) (other : Ext) : Res (Mem × Ext × Ext) :=
  match other with
  | none => if e ≠ eSrc then .error .nullDeref else .ok (m, none, none)
  | some p => do
    let m ← if e ≠ eSrc then reverse .pointer m p (p + n) else .ok m
    .ok (m, some p, none)

/-- `hton`, endianness.h l.176-190, and `ntoh`, l.160-174. -/
def hton (h : Bool) (n v : Nat) : Nat := if h then v else reverseBytes n v
def ntoh (h : Bool) (n v : Nat) : Nat := if h then v else reverseBytes n v

end Etl.Unaligned
