import Verif.Common.Res

/-!
# Model of `etl/binary.h`

Source: `/repo/include/etl/binary.h`, the code used when `ETL_USING_CPP20 && ETL_USING_STL` is false (otherwise the functions call `std::rotl`, `std::popcount`, ...).
An unsigned `w` bit value is a `Nat` below `2^w`; every assignment to a `w` bit variable is reduced modulo `2^w`.  Signed values are `Int`.
Masks, shifts and their order are copied literally, per width; the chains of `if`s of the counting functions are lists of (mask, shift) literals with one interpreter.
-/
namespace Etl.Binary

/-- assignment to / conversion to a `w` bit unsigned variable -/
def trunc (w v : Nat) : Nat := v % 2 ^ w
/-- conversion to a `w` bit signed type -/
def toSigned (w v : Nat) : Int := if v % 2 ^ w < 2 ^ (w - 1) then ((v % 2 ^ w : Nat) : Int) else ((v % 2 ^ w : Nat) : Int) - 2 ^ w
/-- conversion of a signed value to `w` bit unsigned -/
def toUnsigned (w : Nat) (v : Int) : Nat := (v % 2 ^ w).toNat

/-! ## rotate -/

/-- `rotate_left(value)` on an unsigned type, l.116-127 -/
def rotl1 (w v : Nat) : Nat := trunc w ((v <<< 1) ||| (v >>> (w - 1)))
/-- `rotate_left(value, distance)`, l.134-154 -/
def rotl (w v distance : Nat) : Nat :=
  let distance := distance % w
  let SHIFT := w - distance
  if SHIFT = w then v else trunc w ((v <<< distance) ||| (v >>> SHIFT))
/-- `rotate_right(value)`, l.161-172 -/
def rotr1 (w v : Nat) : Nat := trunc w ((v >>> 1) ||| (v <<< (w - 1)))
/-- `rotate_right(value, distance)`, l.179-199 -/
def rotr (w v distance : Nat) : Nat :=
  let distance := distance % w
  let SHIFT := w - distance
  if SHIFT = w then v else trunc w ((v >>> distance) ||| (v <<< SHIFT))
/-- `rotate`, l.207-223 -/
def rotate (w v : Nat) (distance : Int) : Nat := if distance > 0 then rotl w v distance.toNat else rotr w v (-distance).toNat
/-- `rotate_left(value)` on a signed type: `value >> SHIFT` copies the sign bit.  `int` is wider than `T` (8 or 16 bit types). -/
def rotl1S (w : Nat) (v : Int) : Int := toSigned w (toUnsigned w (v * 2) ||| toUnsigned w (v / 2 ^ (w - 1)))

/-! ## gray code, folding, sign extension -/

/-- `binary_to_gray`, l.230-235, unsigned -/
def binaryToGray (v : Nat) : Nat := (v >>> 1) ^^^ v
/-- `binary_to_gray` on a signed type: arithmetic shift -/
def binaryToGrayS (w : Nat) (v : Int) : Int := toSigned w (toUnsigned w (v / 2) ^^^ toUnsigned w v)
/-- `value ^= (value >> k)` -/
def xorShift (k v : Nat) : Nat := v ^^^ (v >>> k)
/-- `gray_to_binary`, l.811-876 -/
def grayToBinary8 (v : Nat) : Nat := xorShift 1 (xorShift 2 (xorShift 4 v))
def grayToBinary16 (v : Nat) : Nat := xorShift 1 (xorShift 2 (xorShift 4 (xorShift 8 v)))
def grayToBinary32 (v : Nat) : Nat := xorShift 1 (xorShift 2 (xorShift 4 (xorShift 8 (xorShift 16 v))))
def grayToBinary64 (v : Nat) : Nat := xorShift 1 (xorShift 2 (xorShift 4 (xorShift 8 (xorShift 16 (xorShift 32 v)))))

/-- `max_value_for_nbits<NBITS>`, l.88-101 -/
def maxValueForNbits : Nat → Nat
  | 0 => 0
  | n + 1 => (1 <<< n) ||| maxValueForNbits n

/-- the loop of `fold_bits`, l.251-255 -/
def foldLoop (NBITS : Nat) : Nat → Nat → Nat → Res Nat
  | 0, _, _ => .error .diverge
  | fuel + 1, value, folded =>
    if value ≥ maxValueForNbits NBITS then foldLoop NBITS fuel (value >>> NBITS) (folded ^^^ (value &&& (2 ^ NBITS - 1)))
    else .ok (folded ^^^ (value &&& (2 ^ NBITS - 1)))
/-- `fold_bits<TReturn, NBITS>(value)`, l.241-260; a shift by the whole width of `TValue` is undefined. -/
def foldBits (w NBITS v : Nat) : Res Nat := if w ≤ NBITS then .error .overflow else foldLoop NBITS (w + 1) v 0

/-- `sign_extend<TReturn>(value, NBITS)` and the variant with SHIFT, l.312-346.  `T` is the width of the unsigned `TValue`, `R` that of the signed `TReturn`; the arithmetic is
done modulo 2^64 (both operands converted to a common type of at most 64 bits, the result cut to `R` bits).  Shifts by a negative amount or by the width of the promoted type are undefined. -/
def signExtend (T R v NBITS SHIFT : Nat) : Res Int :=
  if NBITS > R then .error .outOfBounds   -- the assertion
  else if NBITS = 0 ∨ NBITS ≥ max T 32 ∨ SHIFT ≥ max T 32 then .error .overflow
  else
    let mask := toUnsigned 64 (toSigned R (2 ^ (NBITS - 1)))
    let value := (v >>> SHIFT) &&& trunc T (2 ^ NBITS - 1)
    .ok (toSigned R (((value ^^^ mask) + (2 ^ 64 - mask)) % 2 ^ 64))

/-! ## fill, merge, zero bytes -/

/-- `binary_fill<TResult, TValue>(value)`, l.376-386: widths `R` and `V` -/
def binaryFill (R V v : Nat) : Nat := trunc R (v * ((2 ^ R - 1) / (2 ^ V - 1)))
/-- `has_zero_byte`, l.407-416 -/
def hasZeroByte (w v : Nat) : Bool :=
  let mask := binaryFill w 8 0x7F
  let t := trunc w (trunc w ((v &&& mask) + mask) ||| v ||| mask)
  (2 ^ w - 1) - t != 0
/-- `has_byte_n`, l.435-449 -/
def hasByteN (w v n : Nat) : Bool := hasZeroByte w (v ^^^ binaryFill w 8 n)
/-- `binary_merge`, l.458-473 -/
def binaryMerge (first second mask : Nat) : Nat := second ^^^ ((second ^^^ first) &&& mask)

/-! ## reversal -/

/-- `value = ((value & M) >> k) | ((value & L) << k)` -/
def swapStage (w M L k v : Nat) : Nat := trunc w (((v &&& M) >>> k) ||| ((v &&& L) <<< k))
/-- `value = (value >> k) | ((value & L) << k)` -/
def lastStage (w L k v : Nat) : Nat := trunc w ((v >>> k) ||| ((v &&& L) <<< k))
/-- `reverse_bits`, 8 bits l.490-497, 16 bits l.541-549, 32 bits l.594-603, 64 bits l.651-661 -/
def reverseBits8 (v : Nat) : Nat := lastStage 8 0x0F 4 (swapStage 8 0xCC 0x33 2 (swapStage 8 0xAA 0x55 1 v))
def reverseBits16 (v : Nat) : Nat := lastStage 16 0xFF 8 (swapStage 16 0xF0F0 0x0F0F 4 (swapStage 16 0xCCCC 0x3333 2 (swapStage 16 0xAAAA 0x5555 1 v)))
def reverseBits32 (v : Nat) : Nat :=
  lastStage 32 0xFFFF 16 (swapStage 32 0xFF00FF00 0x00FF00FF 8 (swapStage 32 0xF0F0F0F0 0x0F0F0F0F 4 (swapStage 32 0xCCCCCCCC 0x33333333 2 (swapStage 32 0xAAAAAAAA 0x55555555 1 v))))
def reverseBits64 (v : Nat) : Nat :=
  lastStage 64 0xFFFFFFFF 32 (swapStage 64 0xFFFF0000FFFF0000 0x0000FFFF0000FFFF 16 (swapStage 64 0xFF00FF00FF00FF00 0x00FF00FF00FF00FF 8
    (swapStage 64 0xF0F0F0F0F0F0F0F0 0x0F0F0F0F0F0F0F0F 4 (swapStage 64 0xCCCCCCCCCCCCCCCC 0x3333333333333333 2 (swapStage 64 0xAAAAAAAAAAAAAAAA 0x5555555555555555 1 v)))))
/-- `value = (value >> k) | (value << k)` -/
def rotStage (w k v : Nat) : Nat := trunc w ((v >>> k) ||| (v <<< k))
/-- `reverse_bytes`, l.739-790 -/
def reverseBytes16 (v : Nat) : Nat := rotStage 16 8 v
def reverseBytes32 (v : Nat) : Nat := rotStage 32 16 (swapStage 32 0xFF00FF00 0x00FF00FF 8 v)
def reverseBytes64 (v : Nat) : Nat := rotStage 64 32 (swapStage 64 0xFFFF0000FFFF0000 0x0000FFFF0000FFFF 16 (swapStage 64 0xFF00FF00FF00FF00 0x00FF00FF00FF00FF 8 v))

/-! ## counting -/

/-- `count = value - ((value >> 1) & M)` -/
def cnt1 (M v : Nat) : Nat := v - ((v >>> 1) &&& M)
/-- `count = ((count >> 2) & M) + (count & M)` -/
def cnt2 (M c : Nat) : Nat := ((c >>> 2) &&& M) + (c &&& M)
/-- `count = ((count >> k) + count) & M` -/
def cntK (k M c : Nat) : Nat := ((c >>> k) + c) &&& M
/-- `count_bits`, l.899-987 (the sums never exceed 32, for 64 bits 64, bit variables) -/
def countBits8 (v : Nat) : Nat := trunc 8 (cntK 4 0x0F (cnt2 0x33 (cnt1 0x55 v)))
def countBits16 (v : Nat) : Nat := trunc 8 (cntK 8 0x00FF (cntK 4 0x0F0F (cnt2 0x3333 (cnt1 0x5555 v))))
def countBits32 (v : Nat) : Nat := trunc 8 (cntK 16 0x0000FF (cntK 8 0x00FF00FF (cntK 4 0x0F0F0F0F (cnt2 0x33333333 (cnt1 0x55555555 v)))))
def countBits64 (v : Nat) : Nat :=
  trunc 8 (cntK 32 0x00000000FFFFFFFF (cntK 16 0x0000FFFF0000FFFF (cntK 8 0x00FF00FF00FF00FF (cntK 4 0x0F0F0F0F0F0F0F0F (cnt2 0x3333333333333333 (cnt1 0x5555555555555555 v))))))

/-- `parity`, l.1011-1066 -/
def parity8 (v : Nat) : Nat := (0x6996 >>> (xorShift 4 v &&& 0x0F)) &&& 1
def parity16 (v : Nat) : Nat := (0x6996 >>> (xorShift 4 (xorShift 8 v) &&& 0x0F)) &&& 1
def parity32 (v : Nat) : Nat := (0x6996 >>> (xorShift 4 (xorShift 8 (xorShift 16 v)) &&& 0x0F)) &&& 1
def parity64 (v : Nat) : Nat := (0x69966996 >>> (xorShift 4 (xorShift 8 (xorShift 16 (xorShift 32 v))) &&& 0x0F)) &&& 1

/-- The chain of `if ((value & M) == E) { value >>= k; count += k; }`, with E = 0 or M. -/
def downChain (ones : Bool) : List (Nat × Nat) → Nat → Nat → Nat × Nat
  | [], v, c => (v, c)
  | (M, k) :: ms, v, c => if (v &&& M) = (if ones then M else 0) then downChain ones ms (v >>> k) (c + k) else downChain ones ms v c
/-- The same with `value <<= k`. -/
def upChain (w : Nat) (ones : Bool) : List (Nat × Nat) → Nat → Nat → Nat × Nat
  | [], v, c => (v, c)
  | (M, k) :: ms, v, c => if (v &&& M) = (if ones then M else 0) then upChain w ones ms (trunc w (v <<< k)) (c + k) else upChain w ones ms v c
/-- `count_trailing_zeros`, shape of l.1092-1312 -/
def ctz (ms : List (Nat × Nat)) (v : Nat) : Nat := if v &&& 1 ≠ 0 then 0 else let (v, c) := downChain false ms v 1; c - (v &&& 1)
/-- `count_trailing_ones`, shape of l.1338-1551 -/
def cto (ms : List (Nat × Nat)) (v : Nat) : Nat := if v &&& 1 = 0 then 0 else let (v, c) := downChain true ms v 1; c - (if v &&& 1 = 0 then 1 else 0)
/-- `count_leading_zeros`, shape of l.1578-1798 -/
def clz (w : Nat) (ms : List (Nat × Nat)) (v : Nat) : Nat :=
  if v &&& 2 ^ (w - 1) ≠ 0 then 0 else let (v, c) := upChain w false ms v 1; c - (if v &&& 2 ^ (w - 1) = 2 ^ (w - 1) then 1 else 0)
/-- `count_leading_ones`, shape of l.1824-2043 -/
def clo (w : Nat) (ms : List (Nat × Nat)) (v : Nat) : Nat :=
  if v &&& 2 ^ (w - 1) = 0 then 0 else let (v, c) := upChain w true ms v 1; c - (if v &&& 2 ^ (w - 1) = 0 then 1 else 0)

/-- l.1092-1130, l.1141-1184, l.1195-1244, l.1256-1312 -/
def ctz8 := ctz [(0xF, 4), (0x3, 2), (0x1, 1)]
def ctz16 := ctz [(0xFF, 8), (0xF, 4), (0x3, 2), (0x1, 1)]
def ctz32 := ctz [(0xFFFF, 16), (0xFF, 8), (0xF, 4), (0x3, 2), (0x1, 1)]
def ctz64 := ctz [(0xFFFFFFFF, 32), (0xFFFF, 16), (0xFF, 8), (0xF, 4), (0x3, 2), (0x1, 1)]
/-- l.1338-1376, l.1387-1431, l.1441-1491, l.1502-1552 -/
def cto8 := cto [(0xF, 4), (0x3, 2), (0x1, 1)]
def cto16 := cto [(0xFF, 8), (0xF, 4), (0x3, 2), (0x1, 1)]
def cto32 := cto [(0xFFFF, 16), (0xFF, 8), (0xF, 4), (0x3, 2), (0x1, 1)]
def cto64 := cto [(0xFFFF, 16), (0xFF, 8), (0xF, 4), (0x3, 2), (0x1, 1)]   -- no 32 bit step in the source
/-- l.1578-1616, l.1627-1671, l.1681-1731, l.1742-1798 -/
def clz8 := clz 8 [(0xF0, 4), (0xC0, 2), (0x80, 1)]
def clz16 := clz 16 [(0xFF00, 8), (0xF000, 4), (0xC000, 2), (0x8000, 1)]
def clz32 := clz 32 [(0xFFFF0000, 16), (0xFF000000, 8), (0xF0000000, 4), (0xC0000000, 2), (0x80000000, 1)]
def clz64 := clz 64 [(0xFFFFFFFFF0000000, 32), (0xFFFF000000000000, 16), (0xFF00000000000000, 8), (0xF000000000000000, 4), (0xC000000000000000, 2), (0x8000000000000000, 1)]
/-- `count_leading_zeros` for signed types, l.1808-1813: calls `count_trailing_ones` -/
def clz8S (v : Int) : Nat := cto8 (toUnsigned 8 v)
/-- l.1824-1862, l.1873-1917, l.1927-1977, l.1988-2043 -/
def clo8 := clo 8 [(0xF0, 4), (0xC0, 2), (0x80, 1)]
def clo16 := clo 16 [(0xFF00, 8), (0xF000, 4), (0xC000, 2), (0x8000, 1)]
def clo32 := clo 32 [(0xFFFF0000, 8), (0xFF000000, 8), (0xF0000000, 4), (0xC0000000, 2), (0x80000000, 1)]
def clo64 := clo 64 [(0xFFFFFFFF00000000, 8), (0xFFFF000000000000, 8), (0xFF00000000000000, 8), (0xF000000000000000, 4), (0xC000000000000000, 2), (0x8000000000000000, 1)]

/-- `first_set_bit_position`, `first_clear_bit_position`, `first_bit_position`, l.2067-2099, 8..64 bits by the width's `ctz` -/
def firstSet (c : Nat → Nat) (v : Nat) : Nat := c v
def firstClear (w : Nat) (c : Nat → Nat) (v : Nat) : Nat := c (2 ^ w - 1 - v)
def firstBit (w : Nat) (c : Nat → Nat) (state : Bool) (v : Nat) : Nat := if !state then c (2 ^ w - 1 - v) else c v

/-! ## interleave -/

/-- `f = (f | (f << k)) & M` -/
def spread (w k M v : Nat) : Nat := trunc w (v ||| (v <<< k)) &&& M
/-- `binary_interleave`, l.2108-2177: from 8, 16, 32 bits to 16, 32, 64 -/
def spread16 (v : Nat) : Nat := spread 16 1 0x5555 (spread 16 2 0x3333 (spread 16 4 0x0F0F v))
def interleave8 (f s : Nat) : Nat := trunc 16 (spread16 f ||| (spread16 s <<< 1))
def spread32 (v : Nat) : Nat := spread 32 1 0x55555555 (spread 32 2 0x33333333 (spread 32 4 0x0F0F0F0F (spread 32 8 0x00FF00FF v)))
def interleave16 (f s : Nat) : Nat := trunc 32 (spread32 f ||| (spread32 s <<< 1))
def spread64 (v : Nat) : Nat :=
  spread 64 1 0x5555555555555555 (spread 64 2 0x3333333333333333 (spread 64 4 0x0F0F0F0F0F0F0F0F (spread 64 8 0x00FF00FF00FF00FF (spread 64 16 0x0000FFFF0000FFFF v))))
def interleave32 (f s : Nat) : Nat := trunc 64 (spread64 f ||| (spread64 s <<< 1))

/-! ## masks -/

/-- `make_lsb_mask<T>(nbits)`, l.2238-2244 -/
def lsbMask (w nbits : Nat) : Nat := if nbits = 0 then 0 else (2 ^ w - 1) >>> (w - nbits)
/-- `make_msb_mask<T>(nbits)`, l.2262-2268 -/
def msbMask (w nbits : Nat) : Nat := if nbits = 0 then 0 else trunc w ((2 ^ w - 1) <<< (w - nbits))
/-- `is_odd`, `is_even`, l.2197-2212 -/
def isOdd (w : Nat) (v : Int) : Bool := toUnsigned w v &&& 1 != 0
def isEven (w : Nat) (v : Int) : Bool := toUnsigned w v &&& 1 == 0

end Etl.Binary
