import Verif.Common.Res
import Verif.Stream.BitModel

/-!
# Model of byte_stream_writer and byte_stream_reader

Source: `/repo/include/etl/byte_stream.h` (l.56-488 the writer, l.494-862 the reader).

The buffer is a function from indexes to bytes with `len` valid indexes; `cur` is `pcurrent - pdata`.  A value of a type of `k` bytes (integral or floating point) is its bit pattern, a number below `256^k`.
`host` is the endianness of the platform (`etl::endianness::value()`), `se` that of the stream.  `calls` are the spans (their bytes) that the callback has been given, one entry per call.
Simplification: `size_t` does not overflow (the constructors from an array, l.119-125, l.538-556, assign a pointer to `stream_length` and do not compile: not modelled).
-/
namespace Etl.ByteStream
open Etl.BitStream (Endian)

structure St where
  buf : Nat → Nat
  len : Nat
  cur : Nat
  calls : List (List Nat) := []

/-- the constructors, l.69-113, l.505-533 -/
def start (buf : Nat → Nat) (len : Nat) : St := { buf, len, cur := 0 }

/-- the bytes of a number, the least significant first -/
def lsb : Nat → Nat → List Nat
  | 0, _ => []
  | k + 1, v => v % 256 :: lsb k (v / 256)
/-- the bytes of a value in the memory of the platform -/
def memory (host : Endian) (k v : Nat) : List Nat := match host with
  | .little => lsb k v
  | .big => (lsb k v).reverse
/-- the number of bytes, the least significant first -/
def number : List Nat → Nat
  | [] => 0
  | b :: bs => b + 256 * number bs
/-- the value that has these bytes in the memory of the platform -/
def valueOf (host : Endian) (bs : List Nat) : Nat := match host with
  | .little => number bs
  | .big => number bs.reverse
/-- `copy_value`, l.468-480, l.842-854: `etl::copy` or `etl::reverse_copy` -/
def copyValue (se host : Endian) (bs : List Nat) : List Nat := if se = host then bs else bs.reverse

/-- store bytes from `p` on -/
def store (len : Nat) : (Nat → Nat) → Nat → List Nat → Res (Nat → Nat)
  | buf, _, [] => .ok buf
  | buf, p, b :: bs => if p < len then store len (upd buf p b) (p + 1) bs else .error .outOfBounds
/-- load `n` bytes from `p` on -/
def load (len : Nat) (buf : Nat → Nat) (p : Nat) : Nat → Res (List Nat)
  | 0 => .ok []
  | n + 1 => if p < len then (match load len buf (p + 1) n with
    | .error u => .error u
    | .ok l => .ok (buf p :: l)) else .error .outOfBounds

/-- `step`, l.460-465: the callback gets the bytes -/
def step (s : St) (n : Nat) : Res St := match load s.len s.buf s.cur n with
  | .error u => .error u
  | .ok l => .ok { s with calls := s.calls ++ [l], cur := s.cur + n }
/-- `to_bytes`, l.441-457 (for a size of one the byte is stored directly: the same) -/
def toBytes (se host : Endian) (s : St) (k v : Nat) : Res St := match store s.len s.buf s.cur (copyValue se host (memory host k v)) with
  | .error u => .error u
  | .ok b => step { s with buf := b } k

/-- `available<T>()`, l.399-402, l.800-805 -/
def available (s : St) (k : Nat) : Res Nat := if k = 0 then .error .divByZero else .ok ((s.len - s.cur) / k)

/-- `write(T)`, l.163-175 -/
def write (se host : Endian) (s : St) (k v : Nat) : Res (St × Bool) := match available s k with
  | .error u => .error u
  | .ok a => if a > 0 then (match toBytes se host s k v with
    | .error u => .error u
    | .ok s => .ok (s, true)) else .ok (s, false)
/-- `write_unchecked(bool)` and `write(bool)`, l.130-148: one byte, without a call of the callback -/
def writeBool (s : St) (b : Bool) : Res (St × Bool) := match available s 1 with
  | .error u => .error u
  | .ok a => if a > 0 then (match store s.len s.buf s.cur [if b then 1 else 0] with
    | .error u => .error u
    | .ok bf => .ok ({ s with buf := bf, cur := s.cur + 1 }, true)) else .ok (s, false)
/-- the loops l.186-190, l.217-221 -/
def writeLoop (se host : Endian) (k : Nat) : List Nat → St → Res St
  | [], s => .ok s
  | v :: vs, s => match toBytes se host s k v with
    | .error u => .error u
    | .ok s => writeLoop se host k vs s
/-- `write(span)`, `write(pointer, length)`, l.196-240 -/
def writeRange (se host : Endian) (s : St) (k : Nat) (vs : List Nat) : Res (St × Bool) := match available s k with
  | .error u => .error u
  | .ok a => if a ≥ vs.length then (match writeLoop se host k vs s with
    | .error u => .error u
    | .ok s => .ok (s, true)) else .ok (s, false)
/-- `byte_stream_writer::skip<T>(n)`, l.246-257 -/
def skipW (s : St) (k n : Nat) : Res (St × Bool) := match available s k with
  | .error u => .error u
  | .ok a => if a ≥ n then (match step s (n * k) with
    | .error u => .error u
    | .ok s => .ok (s, true)) else .ok (s, false)

/-- `from_bytes<T>()`, l.820-839 -/
def fromBytes (se host : Endian) (s : St) (k : Nat) : Res (St × Nat) := match load s.len s.buf s.cur k with
  | .error u => .error u
  | .ok l => .ok ({ s with cur := s.cur + k }, valueOf host (copyValue se host l))
/-- `read<T>()`, l.581-594 -/
def read (se host : Endian) (s : St) (k : Nat) : Res (St × Option Nat) := match available s k with
  | .error u => .error u
  | .ok a => if a > 0 then (match fromBytes se host s k with
    | .error u => .error u
    | .ok (s, v) => .ok (s, some v)) else .ok (s, none)
/-- the loops l.640-643, l.673-676 -/
def readLoop (se host : Endian) (k : Nat) : Nat → St → Res (St × List Nat)
  | 0, s => .ok (s, [])
  | n + 1, s => match fromBytes se host s k with
    | .error u => .error u
    | .ok (s, v) => match readLoop se host k n s with
      | .error u => .error u
      | .ok (s, vs) => .ok (s, v :: vs)
/-- `read(span)`, `read(pointer, length)`, l.650-696 -/
def readRange (se host : Endian) (s : St) (k n : Nat) : Res (St × Option (List Nat)) := match available s k with
  | .error u => .error u
  | .ok a => if a ≥ n then (match readLoop se host k n s with
    | .error u => .error u
    | .ok (s, v) => .ok (s, some v)) else .ok (s, none)
/-- `byte_stream_reader::skip<T>(n)`, l.702-714 -/
def skipR (s : St) (k n : Nat) : Res (St × Bool) := match available s k with
  | .error u => .error u
  | .ok a => if n ≤ a then .ok ({ s with cur := s.cur + n * k }, true) else .ok (s, false)

end Etl.ByteStream
