import Verif.Fcs.Model
import Verif.Binary.Model
/-!
# Hashes and checksums (include/etl/fnv_1.h, jenkins.h, checksum.h, murmur3.h, pearson.h)
-/
namespace Etl.Hash
open Fcs

/-! ## checksum.h (widths: any unsigned type `T`) -/

/-- `checksum_policy_sum`, checksum.h:45-63. -/
def sumPolicy (w : Nat) : Policy Unit (BitVec w) where
  initial _ := ((), 0#w)
  add _ sum b := .ok (sum + b.setWidth w)
  final _ sum := ((), sum)

/-- `checksum_policy_bsd`, checksum.h:69-87; `etl::rotate_right` is Verif/Binary/Model.lean `rotr1`. -/
def bsdPolicy (w : Nat) : Policy Unit (BitVec w) where
  initial _ := ((), 0#w)
  add _ sum b := .ok (BitVec.ofNat w (Binary.rotr1 w sum.toNat) + b.setWidth w)
  final _ sum := ((), sum)

/-- `checksum_policy_xor`, checksum.h:93-111. -/
def xorPolicy (w : Nat) : Policy Unit (BitVec w) where
  initial _ := ((), 0#w)
  add _ sum b := .ok (sum ^^^ b.setWidth w)
  final _ sum := ((), sum)

/-- `checksum_policy_xor_rotate`, checksum.h:117-135. -/
def xorRotatePolicy (w : Nat) : Policy Unit (BitVec w) where
  initial _ := ((), 0#w)
  add _ sum b := .ok (BitVec.ofNat w (Binary.rotl1 w sum.toNat) ^^^ b.setWidth w)
  final _ sum := ((), sum)

/-- `checksum_policy_parity`, checksum.h:141-159. -/
def parityPolicy (w : Nat) : Policy Unit (BitVec w) where
  initial _ := ((), 0#w)
  add _ sum b := .ok (sum ^^^ BitVec.ofNat w (Binary.parity8 b.toNat))
  final _ sum := ((), sum)

/-! ## fnv_1.h -/

/-- `fnv_1_policy_64` / `_32`, fnv_1.h:56-79, 173-196. -/
def fnv1Policy (w : Nat) (basis prime : BitVec w) : Policy Unit (BitVec w) where
  initial _ := ((), basis)
  add _ hash b := .ok ((hash * prime) ^^^ b.setWidth w)
  final _ hash := ((), hash)

/-- `fnv_1a_policy_64` / `_32`, fnv_1.h:114-137, 231-254. -/
def fnv1aPolicy (w : Nat) (basis prime : BitVec w) : Policy Unit (BitVec w) where
  initial _ := ((), basis)
  add _ hash b := .ok ((hash ^^^ b.setWidth w) * prime)
  final _ hash := ((), hash)

/-- fnv_1.h:77-78 -/
def basis64 : BitVec 64 := 0xCBF29CE484222325#64
def prime64 : BitVec 64 := 0x00000100000001b3#64
/-- fnv_1.h:194-195 -/
def basis32 : BitVec 32 := 0x811C9DC5#32
def prime32 : BitVec 32 := 0x01000193#32

/-! ## jenkins.h -/

/-- `jenkins_policy`, jenkins.h:57-93.  The policy's only member is the mutable flag `is_finalised`. -/
def jenkinsPolicy : Policy Bool (BitVec 32) where
  initial _ := (false, 0#32)
  add fin hash b :=
    if fin then .error .asserted
    else
      let hash := hash + b.setWidth 32
      let hash := hash + (hash <<< 10)
      .ok (hash ^^^ (hash >>> 6))
  final _ hash :=
    let hash := hash + (hash <<< 3)
    let hash := hash ^^^ (hash >>> 11)
    (true, hash + (hash <<< 15))

/-! ## murmur3.h -/

/-- Data members, murmur3.h:230-235.  `char_count` (a `size_t`) is unbounded here: it only enters the hash modulo `2^w`. -/
structure Murmur (w : Nat) where
  finalised : Bool
  fill : Nat
  count : Nat
  block : BitVec w
  hash : BitVec w
  seed : BitVec w
  deriving DecidableEq, Repr

variable {w : Nat}

/-- `reset`, murmur3.h:110-117. -/
def mReset (s : Murmur w) : Murmur w := { s with hash := s.seed, count := 0, block := 0#w, fill := 0, finalised := false }

/-- `murmur3(seed)`, murmur3.h:74-78. -/
def mConstruct (seed : BitVec w) : Murmur w := mReset ⟨false, 0, 0, 0#w, 0#w, seed⟩

/-- What is or-ed into the block for one element: `value << (block_fill_count * 8U)` is computed in (32 bit) `int` and then converted to
the hash type.  `signed`: the iterator's value type is a signed character type. -/
def contrib (w : Nat) (signed : Bool) (b : Byte) (fill : Nat) : BitVec w :=
  (((if signed then b.signExtend 32 else b.setWidth 32) <<< (fill * 8) : BitVec 32)).signExtend w

/-- the block scrambling shared by murmur3.h:192-194 and 208-210, `CONSTANT1`, `SHIFT1`, `CONSTANT2` from 238-240 -/
def scramble (block : BitVec w) : BitVec w :=
  let block := block * BitVec.ofNat w 0xCC9E2D51
  let block := BitVec.ofNat w (Binary.rotl w block.toNat 15)
  block * BitVec.ofNat w 0x1B873593

/-- `add_block`, murmur3.h:190-199. -/
def addBlock (s : Murmur w) : Murmur w :=
  let block := scramble s.block
  let hash := s.hash ^^^ block
  let hash := BitVec.ofNat w (Binary.rotl w hash.toNat 13)
  { s with block := block, hash := (hash * BitVec.ofNat w 5) + BitVec.ofNat w 0xE6546B64 }

/-- Body of the loops of both `add`s and of the range constructor, murmur3.h:92-104, 132-144, 156-165. -/
def mStep (signed : Bool) (s : Murmur w) (b : Byte) : Murmur w :=
  let s := { s with block := s.block ||| contrib w signed b s.fill, fill := s.fill + 1 }
  let s := if s.fill = 4 then { addBlock s with fill := 0, block := 0#w } else s
  { s with count := s.count + 1 }

/-- `add(uint8_t)`, murmur3.h:151-166. -/
def mAdd (s : Murmur w) (b : Byte) : Except Fault (Murmur w) := if s.finalised then .error .asserted else .ok (mStep false s b)

/-- `add(begin, end)`, murmur3.h:125-145. -/
def mAddRange (signed : Bool) (s : Murmur w) (bs : List Byte) : Except Fault (Murmur w) := if s.finalised then .error .asserted else .ok (bs.foldl (mStep signed) s)

/-- `finalise`, murmur3.h:204-224. -/
def finalise (s : Murmur w) : Murmur w :=
  if s.finalised then s
  else
    let block := scramble s.block
    let hash := s.hash ^^^ block
    let hash := hash ^^^ BitVec.ofNat w s.count
    let hash := hash ^^^ (hash >>> 16)
    let hash := hash * BitVec.ofNat w 0x85EBCA6B
    let hash := hash ^^^ (hash >>> 13)
    let hash := hash * BitVec.ofNat w 0xC2B2AE35
    let hash := hash ^^^ (hash >>> 16)
    { s with block := block, hash := hash, finalised := true }

/-- `value`, murmur3.h:171-175. -/
def mValue (s : Murmur w) : Murmur w × BitVec w := (finalise s, (finalise s).hash)

/-- A history of calls on a murmur3 object; ranges are ranges of `uint8_t` (`signed = false`) or of signed characters. -/
def mRun (signed : Bool) (s : Murmur w) : List Op → Except Fault (Murmur w × List (BitVec w))
  | [] => .ok (s, [])
  | .reset :: os => mRun signed (mReset s) os
  | .add b :: os => match mAdd s b with
    | .ok s' => mRun signed s' os
    | .error e => .error e
  | .addRange bs :: os => match mAddRange signed s bs with
    | .ok s' => mRun signed s' os
    | .error e => .error e
  | .value :: os => match mRun signed (mValue s).1 os with
    | .ok (s', vs) => .ok (s', (mValue s).2 :: vs)
    | .error e => .error e

/-! ## pearson.h -/

/-- `PEARSON_LOOKUP`, pearson.h:120-138. -/
def lookupTable : List Nat := [
  228, 39, 61, 95, 227, 187, 0, 197, 31, 189, 161, 222, 34, 15, 221, 246,
  19, 234, 6, 50, 113, 3, 91, 63, 77, 245, 144, 2, 183, 196, 25, 226,
  97, 126, 48, 59, 217, 4, 100, 145, 12, 88, 203, 149, 80, 154, 38, 27,
  224, 218, 158, 115, 202, 79, 53, 83, 242, 36, 139, 131, 136, 191, 42, 170,
  23, 99, 156, 51, 143, 60, 233, 206, 62, 108, 17, 67, 81, 71, 93, 195,
  26, 231, 247, 96, 24, 200, 176, 209, 152, 212, 138, 165, 75, 185, 130, 248,
  125, 110, 10, 116, 201, 90, 69, 204, 85, 251, 78, 157, 47, 184, 169, 141,
  134, 230, 89, 21, 146, 46, 55, 128, 148, 207, 216, 11, 114, 199, 103, 102,
  166, 244, 5, 104, 225, 160, 132, 28, 172, 65, 121, 140, 153, 119, 198, 210,
  58, 87, 117, 177, 33, 22, 13, 37, 49, 174, 109, 40, 73, 211, 18, 167,
  164, 252, 168, 74, 30, 173, 35, 98, 66, 193, 94, 175, 86, 54, 179, 122,
  220, 151, 192, 29, 133, 254, 155, 127, 240, 232, 190, 180, 8, 68, 236, 20,
  137, 92, 219, 208, 52, 250, 147, 142, 111, 112, 120, 45, 135, 255, 123, 229,
  57, 182, 243, 124, 186, 253, 7, 237, 9, 16, 70, 171, 235, 107, 223, 118,
  215, 178, 194, 181, 43, 188, 106, 105, 64, 241, 84, 238, 159, 44, 32, 76,
  213, 163, 150, 101, 129, 14, 249, 205, 214, 1, 41, 56, 162, 72, 239, 82]

/-- Data members, pearson.h:176-177; `hash` has `HASH_LENGTH` elements. -/
structure Pearson where
  first : Bool
  hash : List Byte
  deriving DecidableEq, Repr

/-- `PEARSON_LOOKUP[i]` -/
def look (i : Nat) : Except Fault Byte := match lookupTable[i]? with
  | some v => .ok (BitVec.ofNat 8 v)
  | none => .error (.ub .outOfBounds)

/-- `reset`, pearson.h:93-96: only fills the hash with zeros. -/
def pReset (s : Pearson) : Pearson := { s with hash := s.hash.map fun _ => 0#8 }

/-- `pearson()`, pearson.h:69-73. -/
def pConstruct (n : Nat) : Pearson := pReset ⟨true, List.replicate n 0#8⟩

/-- The loop `for (i = 0; i < HASH_LENGTH; ++i) hash[i] = ...` over the remaining elements, starting at index `i`, pearson.h:142-145, 151-154. -/
def pLoop (first : Bool) (b : Byte) : Nat → List Byte → Except Fault (List Byte)
  | _, [] => .ok []
  | i, h :: hs => match look (if first then (b.toNat + i) % 256 else (h ^^^ b).toNat) with
    | .error e => .error e
    | .ok v => match pLoop first b (i + 1) hs with
      | .error e => .error e
      | .ok vs => .ok (v :: vs)

/-- `add(uint8_t)`, pearson.h:118-156. -/
def pAdd (s : Pearson) (b : Byte) : Except Fault Pearson := match pLoop s.first b 0 s.hash with
  | .ok h => .ok ⟨false, h⟩
  | .error e => .error e

/-- `add(begin, end)`, pearson.h:104-113. -/
def pAddRange (s : Pearson) : List Byte → Except Fault Pearson
  | [] => .ok s
  | b :: bs => match pAdd s b with
    | .ok s' => pAddRange s' bs
    | .error e => .error e

/-- A history of calls; `value()` returns the hash array, pearson.h:161-164. -/
def pRun (s : Pearson) : List Op → Except Fault (Pearson × List (List Byte))
  | [] => .ok (s, [])
  | .reset :: os => pRun (pReset s) os
  | .add b :: os => match pAdd s b with
    | .ok s' => pRun s' os
    | .error e => .error e
  | .addRange bs :: os => match pAddRange s bs with
    | .ok s' => pRun s' os
    | .error e => .error e
  | .value :: os => match pRun s os with
    | .ok (s', vs) => .ok (s', s.hash :: vs)
    | .error e => .error e

end Etl.Hash
