import Verif.Common.Res
/-!
# Base64 (include/etl/base64.h, base64_encoder.h, base64_decoder.h)

`ETL_ASSERT` is modelled in the configuration where the error handler returns (asserts only report): the functions then continue
and report failure through their result, as the code after each assert does.
-/
namespace Etl.Base64

/-- A byte. -/
abbrev Byte := BitVec 8

/-- base64.h:189-193, 199-203, 209-213 -/
def charset1 : List Char := "ABCDEFGHIJKLMNOPQRSTUVWXYZabcdefghijklmnopqrstuvwxyz0123456789+/".toList
def charset2 : List Char := "ABCDEFGHIJKLMNOPQRSTUVWXYZabcdefghijklmnopqrstuvwxyz0123456789-_".toList
def charset3 : List Char := "ABCDEFGHIJKLMNOPQRSTUVWXYZabcdefghijklmnopqrstuvwxyz0123456789+,".toList

/-! ## The output side (the same members and functions in the encoder and the decoder) -/

/-- `p_output_buffer`, `output_buffer_length`, `output_buffer_max_size`, `callback` (valid or not), `overflowed` /
`overflow_detected`; base64_encoder.h:491-500, base64_decoder.h:520-531.  `buf` is the used part of the buffer; `emitted` records the
spans passed to the callback. -/
structure Out (α : Type) where
  buf : List α
  max : Nat
  cb : Bool
  overflowed : Bool
  emitted : List (List α)
  deriving DecidableEq, Repr

variable {α : Type}

/-- `push_to_output_buffer`, base64_encoder.h:424-434, base64_decoder.h:438-448. -/
def push (o : Out α) (c : α) : Out α := if o.buf.length < o.max then { o with buf := o.buf ++ [c] } else { o with overflowed := true }

/-- `if (callback.is_valid()) if (output_buffer_is_full()) { callback(span()); reset_output_buffer(); }`, base64_encoder.h:83-91,
base64_decoder.h:84-91. -/
def sendIfFull (o : Out α) : Out α := if o.cb then (if o.buf.length = o.max then { o with emitted := o.emitted ++ [o.buf], buf := [] } else o) else o

/-- The callback part of `flush`: remaining data, then an empty span, base64_encoder.h:170-185, base64_decoder.h:172-187. -/
def sendFinal (o : Out α) : Out α :=
  if o.cb then
    let o := if o.buf.length ≠ 0 then { o with emitted := o.emitted ++ [o.buf] } else o
    { o with emitted := o.emitted ++ [[]], buf := [] }
  else o

/-! ## Encoder -/

/-- `ibase64_encoder` with its base class members `encoder_table`, `use_padding`. -/
structure Enc where
  table : List Char
  pad : Bool
  inp : List Byte
  out : Out Char
  deriving Repr

/-- Constructor, base64_encoder.h:296-311. -/
def encoder (table : List Char) (pad : Bool) (max : Nat) (cb : Bool) : Enc := ⟨table, pad, [], ⟨[], max, cb, false, []⟩⟩

/-- `encoder_table[i]` (a 64 character string; every index in the code is masked with 0x3F). -/
def Enc.at (e : Enc) (i : Nat) : Char := e.table.getD i '\x00'

/-- `push_to_output_buffer` on the encoder. -/
def Enc.push (e : Enc) (c : Char) : Enc := { e with out := Base64.push e.out c }

/-- `encode_block`, base64_encoder.h:317-381. -/
def encodeBlock (e : Enc) : Enc × Bool :=
  let e' := match e.inp with
    | [a] =>
      let octets := a.toNat <<< 4
      let e := (e.push (e.at ((octets >>> 6) &&& 0x3F))).push (e.at ((octets >>> 0) &&& 0x3F))
      if e.pad then (e.push '=').push '=' else e
    | [a, b] =>
      let octets := ((a.toNat <<< 8) ||| b.toNat) <<< 2
      let e := ((e.push (e.at ((octets >>> 12) &&& 0x3F))).push (e.at ((octets >>> 6) &&& 0x3F))).push (e.at ((octets >>> 0) &&& 0x3F))
      if e.pad then e.push '=' else e
    | [a, b, c] =>
      let octets := ((a.toNat <<< 16) ||| (b.toNat <<< 8)) ||| c.toNat
      (((e.push (e.at ((octets >>> 18) &&& 0x3F))).push (e.at ((octets >>> 12) &&& 0x3F))).push (e.at ((octets >>> 6) &&& 0x3F))).push (e.at ((octets >>> 0) &&& 0x3F))
    | _ => e
  (e', !e'.out.overflowed)

/-- `encode(value)`, base64_encoder.h:74-96; `push_to_input_buffer` (468-471) writes to `input_buffer[3]`. -/
def encode1 (e : Enc) (b : Byte) : Res (Enc × Bool) :=
  if e.inp.length ≥ 3 then .error .outOfBounds
  else
    let e := { e with inp := e.inp ++ [b] }
    let e := if e.inp.length = 3 then
        let e := (encodeBlock e).1
        { e with inp := [], out := sendIfFull e.out }
      else e
    .ok (e, !e.out.overflowed)

/-- `encode(begin, end)` and `encode(begin, length)`, base64_encoder.h:103-137. -/
def encodeRange (e : Enc) : List Byte → Res (Enc × Bool)
  | [] => .ok (e, true)
  | b :: bs => match encode1 e b with
    | .error u => .error u
    | .ok (e, false) => .ok (e, false)
    | .ok (e, true) => encodeRange e bs

/-- `flush`, base64_encoder.h:162-189. -/
def flushEnc (e : Enc) : Enc × Bool :=
  let (e, success) := encodeBlock e
  let e := { e with inp := [] }
  (if success then { e with out := sendFinal e.out } else e, success)

/-- `restart`, base64_encoder.h:193-197 (`overflowed` is left alone). -/
def restartEnc (e : Enc) : Enc := { e with inp := [], out := { e.out with buf := [] } }

/-- `while (n % 4 != 0) ++n` -/
def roundUp4 (n : Nat) : Nat := if n % 4 = 0 then n else if (n + 1) % 4 = 0 then n + 1 else if (n + 2) % 4 = 0 then n + 2 else n + 3

/-- `encoded_size`, base64_encoder.h:387-417 (no wrap-around of `size_t`). -/
def encodedSize (n : Nat) (pad : Bool) : Nat :=
  if n = 0 then 0
  else
    let r := if pad then roundUp4 ((n * 4) / 3) else n + ((n - 1) / 3 + 1)
    roundUp4 r

/-! ## Decoder -/

/-- `ibase64_decoder`. -/
structure Dec where
  table : List Char
  inp : List Char
  out : Out Byte
  invalid : Bool
  padded : Bool
  deriving Repr

/-- Constructor, base64_decoder.h:313-333. -/
def decoder (table : List Char) (max : Nat) (cb : Bool) : Dec := ⟨table, [], ⟨[], max, cb, false, []⟩, false, false⟩

/-- `error()`, base64_decoder.h:303-306 -/
def Dec.error (d : Dec) : Bool := d.out.overflowed || d.invalid

/-- `get_index_from_sextet`, base64_decoder.h:350-366: a linear search of the table. -/
def getIndex (d : Dec) (c : Char) : Dec × Nat :=
  let i := d.table.idxOf c
  if i < 64 then (d, i) else ({ d with invalid := true }, 0)

/-- `push_to_output_buffer(x & 0xFF)` on the decoder. -/
def Dec.push (d : Dec) (x : Nat) : Dec := { d with out := Base64.push d.out (BitVec.ofNat 8 (x &&& 0xFF)) }

/-- `decode_block`, base64_decoder.h:382-433. -/
def decodeBlock (d : Dec) : Dec × Bool :=
  let d' := match d.inp with
    | [a, b] =>
      let (d, x) := getIndex d a
      let (d, y) := getIndex d b
      let sextets := (x <<< 6) ||| y
      d.push (sextets >>> 4)
    | [a, b, c] =>
      let (d, x) := getIndex d a
      let (d, y) := getIndex d b
      let (d, z) := getIndex d c
      let sextets := ((x <<< 12) ||| (y <<< 6)) ||| z
      (d.push (sextets >>> 10)).push (sextets >>> 2)
    | [a, b, c, e] =>
      let (d, x) := getIndex d a
      let (d, y) := getIndex d b
      let (d, z) := getIndex d c
      let (d, u) := getIndex d e
      let sextets := (((x <<< 18) ||| (y <<< 12)) ||| (z <<< 6)) ||| u
      ((d.push (sextets >>> 16)).push (sextets >>> 8)).push (sextets >>> 0)
    | _ => d
  (d', !d'.invalid && !d'.out.overflowed)

/-- `push_to_input_buffer`, base64_decoder.h:482-501. -/
def pushIn (d : Dec) (c : Char) : Res Dec :=
  if c = '=' then .ok { d with padded := true }
  else if d.padded then .ok { d with invalid := true }
  else if d.inp.length ≥ 4 then .error .outOfBounds
  else .ok { d with inp := d.inp ++ [c] }

/-- `decode(value)`, base64_decoder.h:74-98. -/
def decode1 (d : Dec) (c : Char) : Res (Dec × Bool) :=
  match pushIn d c with
  | .error u => .error u
  | .ok d =>
    let d := if d.inp.length = 4 then
        let (d, ok) := decodeBlock d
        let d := if ok then { d with out := sendIfFull d.out } else d
        { d with inp := [] }
      else d
    .ok (d, !d.error)

/-- `decode(begin, end)` and `decode(begin, length)`, base64_decoder.h:105-139. -/
def decodeRange (d : Dec) : List Char → Res (Dec × Bool)
  | [] => .ok (d, true)
  | c :: cs => match decode1 d c with
    | .error u => .error u
    | .ok (d, false) => .ok (d, false)
    | .ok (d, true) => decodeRange d cs

/-- `flush`, base64_decoder.h:164-192. -/
def flushDec (d : Dec) : Dec × Bool :=
  let (d, success) := decodeBlock d
  let d := { d with inp := [] }
  let d := if success then { d with out := sendFinal d.out } else d
  ({ d with padded := false }, success)

/-- `restart`, base64_decoder.h:197-204. -/
def restartDec (d : Dec) : Dec := { d with inp := [], out := { d.out with buf := [], overflowed := false }, invalid := false, padded := false }

/-- `decoded_size_from_valid_input_length`, base64_decoder.h:338-341. -/
def decodedSize (n : Nat) : Nat := n - n / 4

/-! ## Streaming clients: a sequence of range calls, then `flush`; a client stops at the first failure -/

/-- encode the pieces one call each, then flush; the result says whether every call returned true -/
def encodeAll (e : Enc) : List (List Byte) → Res (Enc × Bool)
  | [] => .ok (flushEnc e)
  | p :: ps => match encodeRange e p with
    | .error u => .error u
    | .ok (e, false) => .ok (e, false)
    | .ok (e, true) => encodeAll e ps

/-- decode the pieces one call each, then flush -/
def decodeAll (d : Dec) : List (List Char) → Res (Dec × Bool)
  | [] => .ok (flushDec d)
  | p :: ps => match decodeRange d p with
    | .error u => .error u
    | .ok (d, false) => .ok (d, false)
    | .ok (d, true) => decodeAll d ps

end Etl.Base64
