import Verif.Common.Res
import Verif.Binary.Model

/-!
# Model of bitset

Source: `/repo/include/etl/private/bitset_new.h` (the default; for `bitset_legacy.h` see `Legacy.lean`).  `bitset_ext` (l.2770-3960) calls the same `bitset_impl` functions on external storage.

An element is a `w` bit unsigned number, `w = 2^lg`; the buffer is a function from indices.  As in C++, elements narrower than `int` (32 bits) are promoted before a shift, so a shift is undefined if the
amount is at least `max w 32`; an index outside the buffer is undefined.  `bitset_impl<…, Single>` is used if there is one element, `bitset_impl<…, Multi>` otherwise.
-/
namespace Etl.Bitset

/-- `Active_Bits` and the (logarithm of the) number of bits of `TElement`. -/
structure Cfg where
  N : Nat
  lg : Nat

/-- `Bits_Per_Element`, l.178. -/
def Cfg.w (c : Cfg) : Nat := 2 ^ c.lg
/-- `All_Set_Element`, l.179. -/
def Cfg.allSet (c : Cfg) : Nat := 2 ^ c.w - 1
/-- `Number_Of_Elements`, l.1853. -/
def Cfg.ne (c : Cfg) : Nat := if c.N % c.w = 0 then c.N / c.w else c.N / c.w + 1
/-- `~x` on an element -/
def Cfg.inv (c : Cfg) (x : Nat) : Nat := c.allSet ^^^ x
/-- conversion to an element -/
def Cfg.cut (c : Cfg) (x : Nat) : Nat := x % 2 ^ c.w
/-- `Top_Mask_Shift`, l.1868. -/
def Cfg.topShift (c : Cfg) : Nat := (c.w - (c.ne * c.w - c.N)) % c.w
/-- `Top_Mask`, l.1872. -/
def Cfg.topMask (c : Cfg) : Nat := if c.topShift = 0 then c.allSet else c.inv (c.cut (c.allSet <<< c.topShift))

/-- `x >> s` and `x << s` on elements -/
def Cfg.shr (c : Cfg) (x s : Nat) : Res Nat := if s < max c.w 32 then .ok (x >>> s) else .error .overflow
def Cfg.shl (c : Cfg) (x s : Nat) : Res Nat := if s < max c.w 32 then .ok (c.cut (x <<< s)) else .error .overflow

abbrev Buf := Nat → Nat

def get (c : Cfg) (b : Buf) (i : Nat) : Res Nat := if i < c.ne then .ok (b i) else .error .outOfBounds
def put (c : Cfg) (b : Buf) (i v : Nat) : Res Buf := if i < c.ne then .ok (upd b i v) else .error .outOfBounds

/-- `index` and `bit`: `position >> log2<Bits_Per_Element>::value` and `position & (Bits_Per_Element - 1)`. -/
def Cfg.index (c : Cfg) (p : Nat) : Nat := p >>> c.lg
def Cfg.bitpos (c : Cfg) (p : Nat) : Nat := p &&& (c.w - 1)
/-- `element_type(1) << (position & (Bits_Per_Element - 1))` -/
def Cfg.mask (c : Cfg) (p : Nat) : Nat := c.cut (1 <<< c.bitpos p)

/-! ## Single element, l.213-854 -/

/-- `element_type(element_type(1) << position)` -/
def sMask (c : Cfg) (p : Nat) : Res Nat := c.shl 1 p
/-- `set_position`, l.247-264. -/
def sSet (c : Cfg) (e p : Nat) (v : Bool) : Res Nat := match sMask c p with
  | .error u => .error u
  | .ok m => .ok (if v then e ||| m else e &&& c.inv m)
/-- `reset_position`, l.325-332. -/
def sReset (c : Cfg) (e p : Nat) : Res Nat := match sMask c p with
  | .error u => .error u
  | .ok m => .ok (e &&& c.inv m)
/-- `flip_position`, l.644-651. -/
def sFlip (c : Cfg) (e p : Nat) : Res Nat := match sMask c p with
  | .error u => .error u
  | .ok m => .ok (e ^^^ m)
/-- `test`, l.512-519. -/
def sTest (c : Cfg) (e p : Nat) : Res Bool := match sMask c p with
  | .error u => .error u
  | .ok m => .ok (e &&& m != 0)
/-- The loop of `from_string`, l.353-361. -/
def sFromLoop : List Bool → Nat → Nat → Nat
  | [], _, e => e
  | ch :: text, m, e => sFromLoop text (m >>> 1) (if ch then e ||| m else e)
/-- `from_string`, l.337-365; the text is a list that tells which characters are '1'.  The shift by `string_length - 1` is made for the empty text as well. -/
def sFrom (c : Cfg) (text : Option (List Bool)) : Res Nat := match text with
  | none => .ok 0
  | some t => if min c.N t.length = 0 then .error .overflow else match c.shl 1 (min c.N t.length - 1) with
    | .error u => .error u
    | .ok m => .ok (sFromLoop (t.take (min c.N t.length)) m 0)
/-- The loop of `find_next`, l.705-718; `fuel` is `active_bits - bit`. -/
def sFindLoop (c : Cfg) (e : Nat) (state : Bool) : Nat → Nat → Nat → Option Nat
  | 0, _, _ => none
  | fuel + 1, bit, m => if (e &&& m != 0) = state then some bit else sFindLoop c e state fuel (bit + 1) (c.cut (m <<< 1))
/-- `find_next`, l.684-723: the mask is `1U << position`. -/
def sFind (c : Cfg) (e : Nat) (state : Bool) (p : Nat) : Res (Option Nat) :=
  if p < c.N then
    if p < 32 then .ok (if (state = true ∧ e ≠ 0) ∨ (state = false ∧ e ≠ c.allSet) then sFindLoop c e state (c.N - p) p (c.cut (1 <<< p)) else none) else .error .overflow
  else .ok none

/-! ## Several elements, l.856-1843 -/

/-- `test`, l.896-903. -/
def mTest (c : Cfg) (b : Buf) (p : Nat) : Res Bool := match get c b (c.index p) with
  | .error u => .error u
  | .ok e => .ok (e &&& c.mask p != 0)
/-- `set_position`, l.1005-1022. -/
def mSet (c : Cfg) (b : Buf) (p : Nat) (v : Bool) : Res Buf := match get c b (c.index p) with
  | .error u => .error u
  | .ok e => put c b (c.index p) (if v then e ||| c.mask p else e &&& c.inv (c.mask p))
/-- `reset_position`, l.1223-1231. -/
def mReset (c : Cfg) (b : Buf) (p : Nat) : Res Buf := match get c b (c.index p) with
  | .error u => .error u
  | .ok e => put c b (c.index p) (e &&& c.inv (c.mask p))
/-- `flip_position`, l.1452-1461. -/
def mFlip (c : Cfg) (b : Buf) (p : Nat) : Res Buf := match get c b (c.index p) with
  | .error u => .error u
  | .ok e => put c b (c.index p) (e ^^^ c.mask p)
/-- The loops over all elements, such as `operator_and`, l.1551-1565; from element `i` on. -/
def mapLoop (f : Nat → Nat → Nat) : Nat → Nat → Buf → Buf
  | 0, _, b => b
  | n + 1, i, b => mapLoop f n (i + 1) (upd b i (f i (b i)))
/-- `set_all`, l.990-1001. -/
def mSetAll (c : Cfg) (b : Buf) : Buf := upd (mapLoop (fun _ _ => c.allSet) (c.ne - 1) 0 b) (c.ne - 1) (c.allSet &&& c.topMask)
/-- The second loop of `from_string`, l.1098-1101: `i` characters to go. -/
def mFromLoop (c : Cfg) : List Bool → Nat → Buf → Res Buf
  | _, 0, b => .ok b
  | [], _ + 1, _ => .error .outOfBounds
  | ch :: text, i + 1, b => match mSet c b i ch with
    | .error u => .error u
    | .ok b => mFromLoop c text i b
/-- `from_string`, l.1075-1103. -/
def mFrom (c : Cfg) (b : Buf) (text : Option (List Bool)) : Res Buf := match text with
  | none => .ok (mapLoop (fun _ _ => 0) c.ne 0 b)
  | some t => mFromLoop c t (min c.N t.length) (mapLoop (fun _ _ => 0) (c.ne - min (c.ne - 1) (t.length / c.w)) (min (c.ne - 1) (t.length / c.w)) b)
/-- `count`, l.908-922. -/
def countBits (c : Cfg) (v : Nat) : Nat :=
  if c.lg = 3 then Binary.countBits8 v else if c.lg = 4 then Binary.countBits16 v else if c.lg = 5 then Binary.countBits32 v else Binary.countBits64 v
def countLoop (c : Cfg) (b : Buf) : Nat → Nat → Nat → Nat
  | 0, _, k => k
  | n + 1, i, k => countLoop c b n (i + 1) (k + countBits c (b i))
/-- `all`, l.927-950. -/
def allLoop (c : Cfg) (b : Buf) : Nat → Nat → Bool
  | 0, i => decide (b i &&& c.topMask = c.topMask)
  | n + 1, i => if b i ≠ c.allSet then false else allLoop c b n (i + 1)
/-- `none`, l.955-970. -/
def noneLoop (b : Buf) : Nat → Nat → Bool
  | 0, _ => true
  | n + 1, i => if b i ≠ 0 then false else noneLoop b n (i + 1)
/-- `any`, l.975-991. -/
def anyLoop (b : Buf) : Nat → Nat → Bool
  | 0, _ => false
  | n + 1, i => if b i ≠ 0 then true else anyLoop b n (i + 1)
/-- `etl::equal` in `operator_equality`, l.1765-1772. -/
def eqLoop (a b : Buf) : Nat → Nat → Bool
  | 0, _ => true
  | n + 1, i => if a i = b i then eqLoop a b n (i + 1) else false
/-- `1 << bit` for the `int` 1, converted to an element: undefined from 32 on; `1 << 31` is negative. -/
def Cfg.intShl (c : Cfg) (bit : Nat) : Res Nat :=
  if bit < 31 then .ok (c.cut (1 <<< bit)) else if bit = 31 then .ok (c.cut (2 ^ 64 - 2 ^ 31)) else .error .overflow
/-- The inner loop of `find_next`, l.1493-1505: the position if found, else where it stopped.  `fuel` is `Bits_Per_Element - bit`. -/
def mFindBits (c : Cfg) (e : Nat) (state : Bool) : Nat → Nat → Nat → Bool × Nat
  | 0, p, _ => (false, p)
  | fuel + 1, p, m => if p < c.N then (if (e &&& m != 0) = state then (true, p) else mFindBits c e state fuel (p + 1) (c.cut (m <<< 1))) else (false, p)
/-- One element: l.1484-1510. -/
def mFindElem (c : Cfg) (e : Nat) (state : Bool) (p bit m : Nat) : Bool × Nat :=
  if (state = true ∧ e ≠ 0) ∨ (state = false ∧ e ≠ c.allSet) then mFindBits c e state (c.w - bit) p m else (false, p + (c.w - bit))
/-- The outer loop of `find_next`, l.1481-1517: `n` elements to go. -/
def mFindLoop (c : Cfg) (b : Buf) (state : Bool) : Nat → Nat → Nat → Nat → Nat → Option Nat
  | 0, _, _, _, _ => none
  | n + 1, i, p, bit, m => if (mFindElem c (b i) state p bit m).1 then some (mFindElem c (b i) state p bit m).2 else mFindLoop c b state n (i + 1) (mFindElem c (b i) state p bit m).2 0 1
/-- `find_next`, l.1467-1520. -/
def mFind (c : Cfg) (b : Buf) (state : Bool) (p : Nat) : Res (Option Nat) := match c.intShl (c.bitpos p) with
  | .error u => .error u
  | .ok m => .ok (mFindLoop c b state (c.ne - c.index p) (c.index p) p (c.bitpos p) m)

/-- `initialise` for other elements than `unsigned long long`, l.1799-1824: `n` elements to go. -/
def mInitLoop (c : Cfg) : Nat → Nat → Nat → Buf → Buf
  | 0, _, _, b => b
  | n + 1, i, v, b => if v ≠ 0 then mInitLoop c n (i + 1) (v >>> c.w) (upd b i (v &&& c.allSet)) else mInitLoop c n (i + 1) 0 (upd b i 0)
/-- `initialise`, l.1776-1824; `v` is 64 bits. -/
def mInit (c : Cfg) (b : Buf) (v : Nat) : Buf := if c.w = 64 then mapLoop (fun _ _ => 0) (c.ne - 1) 1 (upd b 0 v) else mInitLoop c c.ne 0 v b

/-- `value`, l.1236-1259, for a type of `tb` bits; its assertion is that they are enough. -/
def mValueLoop (c : Cfg) (tb : Nat) (b : Buf) : Nat → Nat → Nat → Nat
  | 0, _, v => v
  | n + 1, i, v => mValueLoop c tb b n (i + 1) (v ||| ((b i % 2 ^ tb) <<< (i * c.w)) % 2 ^ tb)

/-- The shifting loop of `operator_shift_left`, l.1666-1678: `k` is `src_index + 1`. -/
def shlLoop (c : Cfg) (msbMask msbShift lsbMask lsbShift : Nat) : Nat → Nat → Buf → Res (Nat × Buf)
  | 0, dst, b => .ok (dst, b)
  | k + 1, dst, b => do
    let src ← get c b k
    let msb ← c.shr (src &&& msbMask) msbShift
    let d ← get c b dst
    let b ← put c b dst (d ||| msb)
    let src ← get c b k
    let lsb ← c.shl (src &&& lsbMask) lsbShift
    if dst = 0 then .error .outOfBounds else do
      let b ← put c b (dst - 1) lsb
      shlLoop c msbMask msbShift lsbMask lsbShift k (dst - 1) b

/-- `operator_shift_left`, l.1631-1690. -/
def mShl (c : Cfg) (b : Buf) (shift : Nat) : Res Buf :=
  if shift ≥ c.N then .ok (mapLoop (fun _ _ => 0) c.ne 0 b)
  else do
    let split := c.w - shift % c.w
    let src := c.ne - shift / c.w - 1
    let dst := c.ne - 1
    let lsbShift := c.w - split
    let msbShift := split
    let lsbMask ← c.shr c.allSet (c.w - split)
    let msbMask := c.allSet - lsbMask
    let lsbShiftedMask ← c.shl lsbMask lsbShift
    let s ← get c b src
    let lsb ← c.shl (s &&& lsbMask) lsbShift
    let b ← put c b dst lsb
    let (dst, b) ← shlLoop c msbMask msbShift lsbMask lsbShift src dst b
    let d ← get c b dst
    let b ← put c b dst (d &&& lsbShiftedMask)
    .ok (mapLoop (fun _ _ => 0) dst 0 b)

/-- The shifting loop of `operator_shift_right`, l.1722-1735: `n` is `number_of_elements - 1 - src_index`. -/
def shrLoop (c : Cfg) (msbMask msbShift lsbMask lsbShift : Nat) : Nat → Nat → Nat → Buf → Res (Nat × Nat × Buf)
  | 0, src, dst, b => .ok (src, dst, b)
  | n + 1, src, dst, b => do
    let s ← get c b src
    let msb ← c.shr (s &&& msbMask) msbShift
    let s ← get c b (src + 1)
    let lsb ← c.shl (s &&& lsbMask) lsbShift
    let b ← put c b dst (lsb ||| msb)
    shrLoop c msbMask msbShift lsbMask lsbShift n (src + 1) (dst + 1) b

/-- `operator_shift_right`, l.1695-1754. -/
def mShr (c : Cfg) (b : Buf) (shift : Nat) : Res Buf :=
  if shift ≥ c.N then .ok (mapLoop (fun _ _ => 0) c.ne 0 b)
  else do
    let split := shift % c.w
    let src := shift / c.w
    let lsbShift := c.w - split
    let msbShift := split
    let lsbMask ← c.shr c.allSet (c.w - split)
    let msbMask := c.allSet - lsbMask
    let msbShiftedMask ← c.shr msbMask msbShift
    let (src, dst, b) ← shrLoop c msbMask msbShift lsbMask lsbShift (c.ne - 1 - src) src 0 b
    let s ← get c b src
    let msb ← c.shr (s &&& msbMask) msbShift
    let b ← put c b dst msb
    let d ← get c b dst
    let b ← put c b dst (d &&& msbShiftedMask)
    .ok (mapLoop (fun _ _ => 0) (c.ne - (dst + 1)) (dst + 1) b)

/-! ## `bitset`, l.1931-2700 -/

def one (b : Buf) (r : Res Nat) : Res Buf := match r with
  | .error u => .error u
  | .ok e => .ok (upd b 0 e)

/-- `bitset()`, l.2024-2028, and `reset()`, l.2351-2356. -/
def resetAll (c : Cfg) (b : Buf) : Buf := if c.ne = 1 then upd b 0 0 else mapLoop (fun _ _ => 0) c.ne 0 b
/-- `set()`, l.2107-2112. -/
def setAll (c : Cfg) (b : Buf) : Buf := if c.ne = 1 then upd b 0 (c.allSet &&& c.topMask) else mSetAll c b
/-- `flip()`, l.2480-2485; `operator ~` does it to a copy, l.2589-2596. -/
def flipAll (c : Cfg) (b : Buf) : Buf := if c.ne = 1 then upd b 0 (c.inv (b 0)) else mapLoop (fun _ e => c.inv e) c.ne 0 b
/-- `set(position, value)`, `reset(position)`, `flip(position)`, `test(position)`: `none` means that the error `bitset_overflow` is raised. -/
def set (c : Cfg) (b : Buf) (p : Nat) (v : Bool) : Res (Option Buf) :=
  if p < c.N then (match (if c.ne = 1 then one b (sSet c (b 0) p v) else mSet c b p v) with
    | .error u => .error u
    | .ok b => .ok (some b)) else .ok none
def reset (c : Cfg) (b : Buf) (p : Nat) : Res (Option Buf) :=
  if p < c.N then (match (if c.ne = 1 then one b (sReset c (b 0) p) else mReset c b p) with
    | .error u => .error u
    | .ok b => .ok (some b)) else .ok none
def flip (c : Cfg) (b : Buf) (p : Nat) : Res (Option Buf) :=
  if p < c.N then (match (if c.ne = 1 then one b (sFlip c (b 0) p) else mFlip c b p) with
    | .error u => .error u
    | .ok b => .ok (some b)) else .ok none
def test (c : Cfg) (b : Buf) (p : Nat) : Res (Option Bool) :=
  if p < c.N then (match (if c.ne = 1 then sTest c (b 0) p else mTest c b p) with
    | .error u => .error u
    | .ok b => .ok (some b)) else .ok none
/-- `from_string`, `set(text)` and the constructor, l.2054-2095, l.2150-2262. -/
def fromString (c : Cfg) (b : Buf) (text : Option (List Bool)) : Res Buf := if c.ne = 1 then one b (sFrom c text) else mFrom c b text
/-- `operator &=`, `|=`, `^=`, `=`, l.2530-2585, l.2097-2102. -/
def andWith (c : Cfg) (a b : Buf) : Buf := if c.ne = 1 then upd a 0 (a 0 &&& b 0) else mapLoop (fun i e => e &&& b i) c.ne 0 a
def orWith (c : Cfg) (a b : Buf) : Buf := if c.ne = 1 then upd a 0 (a 0 ||| b 0) else mapLoop (fun i e => e ||| b i) c.ne 0 a
def xorWith (c : Cfg) (a b : Buf) : Buf := if c.ne = 1 then upd a 0 (a 0 ^^^ b 0) else mapLoop (fun i e => e ^^^ b i) c.ne 0 a
def assign (c : Cfg) (a b : Buf) : Buf := if c.ne = 1 then upd a 0 (b 0) else mapLoop (fun i _ => b i) c.ne 0 a
/-- `operator <<=`, l.2611-2623; `operator <<` does the same to a copy; `Single`: l.789-803. -/
def shiftLeft (c : Cfg) (b : Buf) (s : Nat) : Res Buf :=
  if s ≥ c.N then .ok (resetAll c b) else if c.ne = 1 then one b (c.shl (b 0) s) else mShl c b s
/-- `operator >>=`, l.2638-2650; `Single`: l.809-823. -/
def shiftRight (c : Cfg) (b : Buf) (s : Nat) : Res Buf :=
  if s ≥ c.N then .ok (resetAll c b) else if c.ne = 1 then one b (c.shr (b 0) s) else mShr c b s
/-- The constructor from a number (64 bits), l.2043-2048. -/
def initialise (c : Cfg) (b : Buf) (v : Nat) : Buf := if c.ne = 1 then upd b 0 (c.cut v) else mInit c b v
/-- `count()`, `all()`, `none()`, `any()`, `operator ==`, l.2419-2475, l.2655-2659. -/
def count (c : Cfg) (b : Buf) : Nat := if c.ne = 1 then countBits c (b 0) else countLoop c b c.ne 0 0
def all (c : Cfg) (b : Buf) : Bool := if c.ne = 1 then decide (b 0 &&& c.topMask = c.topMask) else allLoop c b (c.ne - 1) 0
def none (c : Cfg) (b : Buf) : Bool := if c.ne = 1 then decide (b 0 = 0) else noneLoop b c.ne 0
def any (c : Cfg) (b : Buf) : Bool := if c.ne = 1 then decide (b 0 ≠ 0) else anyLoop b c.ne 0
def equal (c : Cfg) (a b : Buf) : Bool := if c.ne = 1 then decide (a 0 = b 0) else eqLoop a b c.ne 0
/-- `find_first`, `find_next`, l.2511-2525. -/
def findNext (c : Cfg) (b : Buf) (state : Bool) (p : Nat) : Res (Option Nat) := if c.ne = 1 then sFind c (b 0) state p else mFind c b state p
/-- `value<T>()`, l.2272-2281, for `T` of `tb` bits; the static assertion is `none`. -/
def value (c : Cfg) (tb : Nat) (b : Buf) : Option Nat :=
  if tb < c.ne * c.w then Option.none else some (if c.ne = 1 then b 0 % 2 ^ tb else mValueLoop c tb b c.ne 0 0)
/-- The loop of `to_string`, l.671-676 and l.1535-1539: `i` characters to go. -/
def toStringLoop (c : Cfg) (b : Buf) : Nat → Res (List Bool)
  | 0 => .ok []
  | i + 1 => match (if c.ne = 1 then sTest c (b 0) i else mTest c b i) with
    | .error u => .error u
    | .ok v => match toStringLoop c b i with
      | .error u => .error u
      | .ok l => .ok (v :: l)
def toString (c : Cfg) (b : Buf) : Res (List Bool) := toStringLoop c b c.N

end Etl.Bitset
