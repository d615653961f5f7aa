import Verif.Common.Res
import Verif.Binary.Model

/-!
# Model of bit_stream_writer and bit_stream_reader

Source: `/repo/include/etl/bit_stream.h` (l.524-983 the writer, l.1022-1356 the reader) and `reverse_bits`, `sign_extend` of `/repo/include/etl/binary.h`.

The buffer is a function from indexes to bytes with `len` valid indexes (`length_chars`); `bac`, `idx`, `avail` are `bits_available_in_char`, `char_index`, `bits_available`.  A byte is a number below 256 (the sign of `char` plays no role: the
accesses go through `|=` with a `char` and through an `unsigned char`).  Values of an integral type of `W` bits are numbers below `2^W` (a signed value is converted to and from its two's complement).
`cb` tells if a callback is set, `out` are the bytes that it has been given.
Simplification: `size_t` does not overflow, except where a subtraction can wrap (`skip`).
-/
namespace Etl.BitStream
open Etl.Binary

inductive Endian where
  | big | little
  deriving DecidableEq, Repr

/-- The state of a writer or a reader, l.974-980, l.1350-1355 -/
structure St where
  buf : Nat → Nat
  len : Nat
  bac : Nat
  idx : Nat
  avail : Nat
  cb : Bool := false
  out : List Nat := []

/-- the constructors and `restart`, l.536-594, l.1032-1112 -/
def start (buf : Nat → Nat) (len : Nat) (cb : Bool := false) : St := { buf, len, bac := 8, idx := 0, avail := 8 * len, cb, out := [] }
/-- `restart`, l.589-594 -/
def restart (s : St) : St := { s with bac := 8, idx := 0, avail := 8 * s.len }

/-- `step`, l.960-971, l.1337-1348; the widths are never larger than `bac` -/
def step (s : St) (n : Nat) : St :=
  if s.bac - n = 0 then { s with bac := 8, idx := s.idx + 1, avail := s.avail - n } else { s with bac := s.bac - n, avail := s.avail - n }

/-- the byte that `write_chunk` ORs into: cleared if new, l.923-926 -/
def base (s : St) : Nat := if s.bac = 8 then 0 else s.buf s.idx
/-- `write_chunk`, l.920-930 -/
def writeChunk (s : St) (chunk n : Nat) : Res St :=
  if s.idx < s.len then .ok (step { s with buf := upd s.buf s.idx (base s ||| chunk) } n) else .error .outOfBounds

/-- the chunk of l.902-908: `mw` bits of `v` from bit `n` on, moved to the place in the current byte -/
def chunkOf (W v bac mw n : Nat) : Nat := ((((v &&& ((((1 <<< mw) - 1) <<< n) % 2 ^ W)) >>> n) <<< (bac - mw)) % 2 ^ W) % 256
/-- the loop of `write_data`, l.898-911; the fuel bounds the number of rounds -/
def putLoop (W v : Nat) : Nat → Nat → St → Res St
  | fuel, n, s => if n = 0 then .ok s else match fuel with
    | 0 => .error .diverge
    | fuel + 1 => match writeChunk s (chunkOf W v s.bac (min n s.bac) (n - min n s.bac)) (min n s.bac) with
      | .error u => .error u
      | .ok s' => putLoop W v fuel (n - min n s.bac) s'

/-- `etl::reverse_bits<T>`, binary.h l.490-661, by the width of the type -/
def reverseBits (W v : Nat) : Nat := if W = 8 then reverseBits8 v else if W = 16 then reverseBits16 v else if W = 32 then reverseBits32 v else reverseBits64 v

/-- l.891-895: the bits in the order of the stream; a shift by the whole width of an unpromoted type is undefined -/
def arrange (e : Endian) (W v n : Nat) : Res Nat := match e with
  | .big => .ok v
  | .little => if n = 0 ∧ 32 ≤ W then .error .overflow else .ok (reverseBits W v >>> (W - n))

/-- `flush_full_bytes`, l.936-954 -/
def flushFull (s : St) : Res St :=
  if s.idx = 0 then .ok s
  else if s.len < s.idx then .error .outOfBounds
  else if s.bac = 0 then .ok { s with out := s.out ++ (List.range s.idx).map s.buf, avail := 8 * s.len, idx := 0 }
  else if s.idx < s.len then .ok { s with out := s.out ++ (List.range s.idx).map s.buf, buf := upd s.buf 0 (s.buf s.idx), avail := 8 * s.len - (8 - s.bac), idx := 0 }
  else .error .outOfBounds

/-- `write_data`, l.886-917 -/
def writeData (e : Endian) (s : St) (W v nbits : Nat) : Res St :=
  match arrange e W v (min nbits W) with
  | .error u => .error u
  | .ok w => match putLoop W w (min nbits W) (min nbits W) s with
    | .error u => .error u
    | .ok s => if s.cb then flushFull s else .ok s

/-- `write(T value, nbits)`, l.667-677: `available(nbits)` divides, l.753-756 -/
def write (e : Endian) (s : St) (W v nbits : Nat) : Res (St × Bool) :=
  if nbits = 0 then .error .divByZero
  else if s.avail / nbits > 0 then (match writeData e s W v nbits with
    | .error u => .error u
    | .ok s => .ok (s, true))
  else .ok (s, false)
/-- `write(bool)`, l.638-648 -/
def writeBool (e : Endian) (s : St) (b : Bool) : Res (St × Bool) :=
  if s.avail / 1 > 0 then (match writeData e s 8 (if b then 1 else 0) 1 with
    | .error u => .error u
    | .ok s => .ok (s, true))
  else .ok (s, false)

/-- `flush`, l.849-861 -/
def flush (s : St) : Res St :=
  if s.cb then (if s.bac ≠ 0 then (match flushFull { s with idx := 1 } with
      | .error u => .error u
      | .ok s => .ok (restart s)) else .ok (restart s))
  else .ok s

/-- `size_bytes`, l.708-719 -/
def sizeBytes (s : St) : Nat := if s.bac ≠ 8 then s.idx + 1 else s.idx
/-- `size_bits`, l.724-727 -/
def sizeBits (s : St) : Nat := 8 * s.len - s.avail
/-- `empty`, l.613-616 -/
def empty (s : St) : Bool := s.avail == s.len
/-- `full`, l.621-624 -/
def full (s : St) : Bool := s.avail == 0

/-- the loop of the writer's `skip`, l.690-694: the subtraction comes after the step, so it subtracts the new `bits_available_in_char`; when that is more than `n` the `size_t` wraps (modelled as an error) -/
def skipLoopW : Nat → Nat → St → Res (Nat × St)
  | 0, _, _ => .error .diverge
  | fuel + 1, n, s => if n > s.bac then (if n < (step s s.bac).bac then .error .overflow else skipLoopW fuel (n - (step s s.bac).bac) (step s s.bac)) else .ok (n, s)
/-- `bit_stream_writer::skip`, l.684-702 -/
def skipW (s : St) (n : Nat) : Res (St × Bool) :=
  if n ≤ s.avail then (match skipLoopW (n + 1) n s with
    | .error u => .error u
    | .ok (n, s) => .ok (if n ≠ 0 then step s n else s, true))
  else .ok (s, false)
/-- the loop of the reader's `skip`, l.1240-1244 -/
def skipLoopR : Nat → Nat → St → Res (Nat × St)
  | 0, _, _ => .error .diverge
  | fuel + 1, n, s => if n > s.bac then skipLoopR fuel (n - s.bac) (step s s.bac) else .ok (n, s)
/-- `bit_stream_reader::skip`, l.1234-1252 -/
def skipR (s : St) (n : Nat) : Res (St × Bool) :=
  if n ≤ s.avail then (match skipLoopR (n + 1) n s with
    | .error u => .error u
    | .ok (n, s) => .ok (if n ≠ 0 then step s n else s, true))
  else .ok (s, false)

/-- the mask of `get_chunk`, l.1303-1312 -/
def chunkMask (n : Nat) : Nat := if n = 8 then 255 else (1 <<< n) - 1
/-- `get_chunk`, l.1298-1319 -/
def getChunk (s : St) (n : Nat) : Res (St × Nat) :=
  if s.idx < s.len then .ok (step s n, (s.buf s.idx >>> (s.bac - n)) &&& chunkMask n) else .error .outOfBounds
/-- `get_bit`, l.1324-1331 -/
def getBit (s : St) : Res (St × Bool) :=
  if s.idx < s.len then .ok (step s 1, (s.buf s.idx &&& (1 <<< (s.bac - 1))) != 0) else .error .outOfBounds
/-- the loop of `read_value`, l.1271-1279 -/
def getLoop (W : Nat) : Nat → Nat → St → Nat → Res (St × Nat)
  | fuel, n, s, v => if n = 0 then .ok (s, v) else match fuel with
    | 0 => .error .diverge
    | fuel + 1 => match getChunk s (min n s.bac) with
      | .error u => .error u
      | .ok (s', c) => getLoop W fuel (n - min n s.bac) s' (v ||| ((c <<< (n - min n s.bac)) % 2 ^ W))
/-- l.1281-1285 -/
def rearrange (e : Endian) (W v n : Nat) : Res Nat := match e with
  | .big => .ok v
  | .little => if n = 0 ∧ 32 ≤ W then .error .overflow else .ok (reverseBits W ((v <<< (W - n)) % 2 ^ W))
/-- `etl::sign_extend<T, T>(value, bits)` for an unsigned `T` of `W` bits, binary.h l.312-324; l.1287-1290: not for the full width -/
def extend (signed : Bool) (W v n : Nat) : Res Nat :=
  if signed ∧ n ≠ W then (if n = 0 then .error .overflow
    else .ok ((((v &&& ((2 ^ n - 1) % 2 ^ W)) ^^^ (2 ^ (n - 1) % 2 ^ W)) + (2 ^ W - 2 ^ (n - 1) % 2 ^ W)) % 2 ^ W))
  else .ok v
/-- `read_value`, l.1262-1293 -/
def readValue (e : Endian) (signed : Bool) (s : St) (W nbits : Nat) : Res (St × Nat) := match getLoop W (min nbits W) (min nbits W) s 0 with
  | .error u => .error u
  | .ok (s, v) => match rearrange e W v (min nbits W) with
    | .error u => .error u
    | .ok v => match extend signed W v (min nbits W) with
      | .error u => .error u
      | .ok v => .ok (s, v)
/-- `read<T>(nbits)`, l.1144-1171 -/
def read (e : Endian) (signed : Bool) (s : St) (W nbits : Nat) : Res (St × Option Nat) :=
  if nbits ≤ s.avail then (match readValue e signed s W nbits with
    | .error u => .error u
    | .ok (s, v) => .ok (s, some v))
  else .ok (s, none)
/-- `read<bool>()`, l.1117-1139 -/
def readBool (s : St) : Res (St × Option Bool) :=
  if s.avail > 0 then (match getBit s with
    | .error u => .error u
    | .ok (s, b) => .ok (s, some b))
  else .ok (s, none)

end Etl.BitStream
