import Verif.Stream.BitModel

/-!
# Model of the older class bit_stream

Source: `/repo/include/etl/bit_stream.h` l.50-520 (class `bit_stream`, reads and writes with one cursor) and `sign_extend` of `/repo/include/etl/binary.h`.

The private parts `step` (l.503-514), `put_chunk` (l.408-418), `get_chunk` (l.423-445), `get_bit` (l.450-457) and `restart` (l.112-117) are word for word those of the writer and the reader: their models `step`, `writeChunk`, `getChunk`, `getBit`, `restart`, and
those of the two loops `putLoop` (l.349-361, l.384-395) and `getLoop` (l.237-246), are taken from `BitModel`.  `cb` and `out` are not used.
-/
namespace Etl.BitStream.Legacy
open Etl.Binary Etl.BitStream

/-- A `bit_stream`: `null` for `pdata == nullptr`. -/
structure Bs where
  null : Bool
  st : St

/-- the constructors l.63-89 and `set_stream` l.94-107 -/
def make (null : Bool) (buf : Nat → Nat) (len : Nat) : Bs := { null, st := start buf len }
/-- `restart`, l.112-117 -/
def again (b : Bs) : Bs := { b with st := restart b.st }
/-- `at_end`, l.122-125 -/
def atEnd (b : Bs) : Bool := b.st.avail == 0
/-- `size`, l.297-308 -/
def size (b : Bs) : Nat := if b.st.bac ≠ 8 then b.st.idx + 1 else b.st.idx
/-- `bits`, l.313-316 -/
def bits (b : Bs) : Nat := b.st.len * 8 - b.st.avail

/-- `put_integral`, l.339-368 (`X = 32`) and l.374-402 (`X = 64`) -/
def putIntegral (b : Bs) (X v n : Nat) : Res (Bs × Bool) :=
  if b.null then .ok (b, false)
  else if n ≤ b.st.avail then (match putLoop X v n n b.st with
    | .error u => .error u
    | .ok s => .ok ({ b with st := s }, true))
  else .ok (b, false)

/-- `put(bool)`, l.130-146 -/
def putBool (b : Bs) (v : Bool) : Res (Bs × Bool) :=
  if b.null then .ok (b, false)
  else if b.st.avail > 0 then (match putIntegral b 32 (if v then 1 else 0) 1 with
    | .error u => .error u
    | .ok (b, _) => .ok (b, true))
  else .ok (b, false)

/-- `put(T, nbits)` for an unsigned `T` of `W` bits, l.150-171: up to 32 bits through `uint32_t`. -/
def putNat (b : Bs) (W n v : Nat) : Res (Bs × Bool) := putIntegral b (if W = 64 then 64 else 32) v n
/-- and for a signed `T`: the conversion to the unsigned type extends the sign. -/
def putInt (b : Bs) (W n : Nat) (v : Int) : Res (Bs × Bool) := putIntegral b (if W = 64 then 64 else 32) (toUnsigned (if W = 64 then 64 else 32) v) n

/-- the loop of `put` for a floating point value, l.187-193: it goes on after a failure -/
def putBytes : List Nat → Bs → Bool → Res (Bs × Bool)
  | [], b, ok => .ok (b, ok)
  | x :: xs, b, ok => match putIntegral b 32 x 8 with
    | .error u => .error u
    | .ok (b, r) => putBytes xs b (ok && r)
/-- `to_bytes`, `from_bytes`, l.462-497: the bytes of the value in memory, reversed on a little endian machine -/
def network (host : Endian) (bs : List Nat) : List Nat := if host = .little then bs.reverse else bs
/-- `put(T)` for a floating point value with the bytes `mem` in memory, l.178-196 -/
def putFloat (host : Endian) (b : Bs) (mem : List Nat) : Res (Bs × Bool) := putBytes (network host mem) b true

/-- `get(bool&)`, l.201-216; `old` is the value of the caller's variable -/
def getBool (b : Bs) (old : Bool) : Res (Bs × Bool × Bool) :=
  if b.null then .ok (b, false, old)
  else if b.st.avail > 0 then (match getBit b.st with
    | .error u => .error u
    | .ok (s, v) => .ok ({ b with st := s }, true, v))
  else .ok (b, false, old)

/-- `sign_extend<ST, ST>(value, bits)` for a signed type of `W` bits, binary.h l.312-324, on the two's complements.  `(ST(1) << bits) - 1` is below the least value for `bits = W - 1` when `ST` is not promoted. -/
def signExtend (W v n : Nat) : Res Nat :=
  if n = 0 then .error .overflow
  else if 32 ≤ W ∧ n = W - 1 then .error .overflow
  else .ok ((((v &&& ((2 ^ n - 1) % 2 ^ W)) ^^^ (2 ^ (n - 1) % 2 ^ W)) + (2 ^ W - 2 ^ (n - 1) % 2 ^ W)) % 2 ^ W)

/-- l.222-249: the bits of `get(T&, nbits)`, up to the sign -/
def getBits (b : Bs) (W n old : Nat) : Res (Bs × Bool × Nat) :=
  if b.null then .ok (b, false, old)
  else if n ≤ b.st.avail then (match getLoop W n n b.st 0 with
    | .error u => .error u
    | .ok (s, v) => .ok ({ b with st := s }, true, v))
  else .ok (b, false, old)
/-- `get(T&, nbits)`, l.222-260 -/
def getIntegral (signed : Bool) (b : Bs) (W n old : Nat) : Res (Bs × Bool × Nat) := match getBits b W n old with
  | .error u => .error u
  | .ok (b, ok, v) => if signed ∧ n ≠ W then (match signExtend W v n with
      | .error u => .error u
      | .ok v => .ok (b, ok, v)) else .ok (b, ok, v)

/-- the loop of `get` for a floating point value, l.278-281: `k` bytes -/
def getBytes : Nat → Bs → Res (Bs × List Nat)
  | 0, b => .ok (b, [])
  | k + 1, b => match getIntegral false b 8 8 0 with
    | .error u => .error u
    | .ok (b, _, x) => match getBytes k b with
      | .error u => .error u
      | .ok (b, xs) => .ok (b, x :: xs)
/-- `get(T&)` for a floating point type of `k` bytes, l.265-292; `uint_least8_t nbits` -/
def getFloat (host : Endian) (b : Bs) (k : Nat) (old : List Nat) : Res (Bs × Bool × List Nat) :=
  if b.null then .ok (b, false, old)
  else if 8 * k ≤ b.st.avail then (match getBytes k b with
    | .error u => .error u
    | .ok (b, xs) => .ok (b, true, network host xs))
  else .ok (b, false, old)

end Etl.BitStream.Legacy
