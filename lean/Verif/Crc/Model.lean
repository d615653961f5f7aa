import Verif.Fcs.Model
import Verif.Binary.Model
/-!
# CRC (include/etl/private/crc_implementation.h, private/crc_parameters.h, crc1.h)
-/
namespace Etl.Crc
open Fcs

/-- `crc_parameters`, crc_parameters.h:46-55.  `w` is `Accumulator_Bits` (the width of the unsigned accumulator type). -/
structure Params (w : Nat) where
  poly : BitVec w
  init : BitVec w
  xorOut : BitVec w
  reflect : Bool
  deriving DecidableEq, Repr

/-- `etl::reverse_bits_const<T, Value>::value`, binary.h:501-512, 553-565, 607-620, 664-680: the same masks and shifts as `reverse_bits`
(modelled in Verif/Binary/Model.lean) evaluated at compile time. -/
def revConst (w : Nat) (v : BitVec w) : BitVec w :=
  BitVec.ofNat w (if w = 8 then Binary.reverseBits8 v.toNat else if w = 16 then Binary.reverseBits16 v.toNat
    else if w = 32 then Binary.reverseBits32 v.toNat else Binary.reverseBits64 v.toNat)

variable {w : Nat}

/-- `crc_partial_table_entry::value`, crc_implementation.h:55-68. -/
def partialEntry (p : Params w) (e : BitVec w) : BitVec w :=
  if p.reflect then
    if (e &&& 1#w) ≠ 0#w then (e >>> 1) ^^^ revConst w p.poly else e >>> 1
  else
    if (e &&& (1#w <<< (w - 1))) ≠ 0#w then (e <<< 1) ^^^ p.poly else e <<< 1

/-- `n` nested applications. -/
def rep {α : Type} : Nat → (α → α) → α → α
  | 0, _, x => x
  | n + 1, f, x => rep n f (f x)

/-- `crc_table_entry<.., Index, Chunk_Bits>::value`, crc_implementation.h:82-165 (`Chunk_Bits` nested partial entries). -/
def tableEntry (p : Params w) (c index : Nat) : BitVec w :=
  rep c (partialEntry p) (if p.reflect then BitVec.ofNat w index else BitVec.ofNat w index <<< (w - c))

/-- `crc_table::table`: entries 0 .. 2^Chunk_Bits - 1 in order, crc_implementation.h:248-254, 293-310, 344-602. -/
def table (p : Params w) (c : Nat) : List (BitVec w) := (List.range (2 ^ c)).map (tableEntry p c)

/-- `crc_update_chunk`, the four overloads at crc_implementation.h:159-230.  `Chunk_Mask` is `2^c - 1` (0x03, 0x0F, 0xFF, lines 623, 655,
687).  `index` is a `uint8_t`. -/
def updateChunk (p : Params w) (c : Nat) (crc : BitVec w) (value : Nat) : Except Fault (BitVec w) :=
  let value := value &&& (2 ^ c - 1)
  let index := ((if p.reflect then crc.toNat &&& (2 ^ c - 1) else crc.toNat >>> (w - c)) ^^^ value) % 256
  match (table p c)[index]? with
  | none => .error (.ub .outOfBounds)
  | some t => .ok (if w > c then (if p.reflect then crc >>> c else crc <<< c) ^^^ t else t)

/-- `crc_table::add` for 4, 16 and 256 entries, crc_implementation.h:256-276, 312-327, 604-612; `c` is `Chunk_Bits`. -/
def add (p : Params w) (c : Nat) (crc : BitVec w) (b : Byte) : Except Fault (BitVec w) :=
  let v := b.toNat
  if c = 2 then
    if p.reflect then do
      let crc ← updateChunk p c crc v
      let crc ← updateChunk p c crc (v >>> (c * 1))
      let crc ← updateChunk p c crc (v >>> (c * 2))
      updateChunk p c crc (v >>> (c * 3))
    else do
      let crc ← updateChunk p c crc (v >>> (c * 3))
      let crc ← updateChunk p c crc (v >>> (c * 2))
      let crc ← updateChunk p c crc (v >>> (c * 1))
      updateChunk p c crc v
  else if c = 4 then
    if p.reflect then do
      let crc ← updateChunk p c crc v
      updateChunk p c crc (v >>> c)
    else do
      let crc ← updateChunk p c crc (v >>> c)
      updateChunk p c crc v
  else updateChunk p c crc v

/-- `crc_policy<.., Table_Size>`, crc_implementation.h:625-708: `initial`, `add`, `final`.  No mutable members. -/
def policy (p : Params w) (c : Nat) : Policy Unit (BitVec w) where
  initial _ := ((), if p.reflect then revConst w p.init else p.init)
  add _ crc b := add p c crc b
  final _ crc := ((), crc ^^^ p.xorOut)

/-- `crc1_policy`, crc1.h:46-75. -/
def crc1Policy : Policy Unit (BitVec 8) where
  initial _ := ((), 0#8)
  add _ parity b := .ok (BitVec.ofNat 8 (parity.toNat ^^^ Binary.parity8 b.toNat))
  final _ parity := ((), parity)

/-! ## The published parameter sets, crc_parameters.h:72-125 -/

private def P (w poly init xorOut : Nat) (reflect : Bool) : Params w := ⟨.ofNat w poly, .ofNat w init, .ofNat w xorOut, reflect⟩

/-- crc_parameters.h:72-83 -/
def params8 : List (String × Params 8) := [
  ("crc8_ccitt", P 8 0x07 0x00 0x00 false), ("crc8_rohc", P 8 0x07 0xFF 0x00 true), ("crc8_cdma2000", P 8 0x9B 0xFF 0x00 false),
  ("crc8_darc", P 8 0x39 0x00 0x00 true), ("crc8_dvbs2", P 8 0xD5 0x00 0x00 false), ("crc8_ebu", P 8 0x1D 0xFF 0x00 true),
  ("crc8_icode", P 8 0x1D 0xFD 0x00 false), ("crc8_itu", P 8 0x07 0x00 0x55 false), ("crc8_maxim", P 8 0x31 0x00 0x00 true),
  ("crc8_wcdma", P 8 0x9B 0x00 0x00 true), ("crc8_j1850", P 8 0x1D 0xFF 0xFF false), ("crc8_j1850_zero", P 8 0x1D 0x00 0x00 false)]

/-- crc_parameters.h:86-111 -/
def params16 : List (String × Params 16) := [
  ("crc16", P 16 0x8005 0x0000 0x0000 true), ("crc16_ccitt", P 16 0x1021 0xFFFF 0x0000 false), ("crc16_aug_ccitt", P 16 0x1021 0x1D0F 0x0000 false),
  ("crc16_buypass", P 16 0x8005 0x0000 0x0000 false), ("crc16_genibus", P 16 0x1021 0xFFFF 0xFFFF false), ("crc16_profibus", P 16 0x1DCF 0xFFFF 0xFFFF false),
  ("crc16_kermit", P 16 0x1021 0x0000 0x0000 true), ("crc16_modbus", P 16 0x8005 0xFFFF 0x0000 true), ("crc16_usb", P 16 0x8005 0xFFFF 0xFFFF true),
  ("crc16_x25", P 16 0x1021 0xFFFF 0xFFFF true), ("crc16_xmodem", P 16 0x1021 0x0000 0x0000 false), ("crc16_cdma2000", P 16 0xc867 0xFFFF 0x0000 false),
  ("crc16_dds110", P 16 0x8005 0x800D 0x0000 false), ("crc16_dect_r", P 16 0x0589 0x0000 0x0001 false), ("crc16_dect_x", P 16 0x0589 0x0000 0x0000 false),
  ("crc16_dnp", P 16 0x3D65 0x0000 0xFFFF true), ("crc16_en13757", P 16 0x3D65 0x0000 0xFFFF false), ("crc16_maxim", P 16 0x8005 0x0000 0xFFFF true),
  ("crc16_mcrf4xx", P 16 0x1021 0xFFFF 0x0000 true), ("crc16_riello", P 16 0x1021 0xB2AA 0x0000 true), ("crc16_t10dif", P 16 0x8BB7 0x0000 0x0000 false),
  ("crc16_teledisk", P 16 0xA097 0x0000 0x0000 false), ("crc16_tms37157", P 16 0x1021 0x89EC 0x0000 true), ("crc16_a", P 16 0x1021 0xC6C6 0x0000 true),
  ("crc16_arc", P 16 0x8005 0x0000 0x0000 true), ("crc16_m17", P 16 0x5935 0xFFFF 0x0000 false)]

/-- crc_parameters.h:114-122 -/
def params32 : List (String × Params 32) := [
  ("crc32", P 32 0x04C11DB7 0xFFFFFFFF 0xFFFFFFFF true), ("crc32_c", P 32 0x1EDC6F41 0xFFFFFFFF 0xFFFFFFFF true),
  ("crc32_bzip2", P 32 0x04C11DB7 0xFFFFFFFF 0xFFFFFFFF false), ("crc32_mpeg2", P 32 0x04C11DB7 0xFFFFFFFF 0x00000000 false),
  ("crc32_posix", P 32 0x04C11DB7 0x00000000 0xFFFFFFFF false), ("crc32_d", P 32 0xA833982B 0xFFFFFFFF 0xFFFFFFFF true),
  ("crc32_q", P 32 0x814141AB 0x00000000 0x00000000 false), ("crc32_jamcrc", P 32 0x04C11DB7 0xFFFFFFFF 0x00000000 true),
  ("crc32_xfer", P 32 0x000000AF 0x00000000 0x00000000 false)]

/-- crc_parameters.h:125 -/
def params64 : List (String × Params 64) := [("crc64_ecma", P 64 0x42F0E1EBA9EA3693 0 0 false)]

end Etl.Crc
