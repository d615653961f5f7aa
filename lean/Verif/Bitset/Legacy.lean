import Verif.Bitset.Lemmas3

/-!
# Model of the bitset of `ETL_USE_LEGACY_BITSET`

Source: `/repo/include/etl/private/bitset_legacy.h`.  The element type is configurable there as well (`ETL_BITSET_ELEMENT_TYPE`, 8 bits if not defined); `Cfg`, the buffers and the loops that have the same text
as in `bitset_new.h` are those of `Verif/Bitset/Model.lean`.  Simplified: `etl::fill_n`, `copy`, `copy_backward`, `transform_n`, `equal` and `swap_ranges` are element by element loops; the texts are lists that tell
which characters are '1'; the indices of the shifts, of type `int`, do not overflow.
-/
namespace Etl.Bitset.Legacy

/-- `index` and `bit`, l.297-306, l.337-346, l.565-574, l.610-619: one element is not divided. -/
def pos (c : Cfg) (p : Nat) : Res (Nat × Nat) := if c.ne = 1 then (match c.shl 1 p with
  | .error u => .error u
  | .ok m => .ok (0, m)) else .ok (c.index p, c.mask p)

/-- `pdata[index] = f(pdata[index], bit)` -/
def modify (c : Cfg) (b : Buf) (p : Nat) (f : Nat → Nat → Nat) : Res Buf := match pos c p with
  | .error u => .error u
  | .ok im => match get c b im.1 with
    | .error u => .error u
    | .ok e => put c b im.1 (f e im.2)

/-- `test`, l.283-309; `none` means that `bitset_overflow` is raised. -/
def test (c : Cfg) (b : Buf) (p : Nat) : Res (Option Bool) :=
  if p < c.N then (match pos c p with
    | .error u => .error u
    | .ok im => match get c b im.1 with
      | .error u => .error u
      | .ok e => .ok (some (e &&& im.2 != 0))) else .ok Option.none

def opt (r : Res Buf) : Res (Option Buf) := match r with
  | .error u => .error u
  | .ok b => .ok (some b)

/-- `set(position, value)`, l.325-359. -/
def set (c : Cfg) (b : Buf) (p : Nat) (v : Bool) : Res (Option Buf) :=
  if p < c.N then opt (modify c b p fun e m => if v then e ||| m else e &&& c.inv m) else .ok Option.none
/-- `reset(position)`, l.553-580. -/
def reset (c : Cfg) (b : Buf) (p : Nat) : Res (Option Buf) :=
  if p < c.N then opt (modify c b p fun e m => e &&& c.inv m) else .ok Option.none
/-- `flip(position)`, l.600-624. -/
def flip (c : Cfg) (b : Buf) (p : Nat) : Res (Option Buf) :=
  if p < c.N then opt (modify c b p fun e m => e ^^^ m) else .ok Option.none

/-- `clear_unused_bits_in_msb`, l.1087-1090. -/
def clearTop (c : Cfg) (b : Buf) : Res Buf := match get c b (c.ne - 1) with
  | .error u => .error u
  | .ok e => put c b (c.ne - 1) (e &&& c.topMask)

/-- `reset()`, l.543-548. -/
def resetAll (c : Cfg) (b : Buf) : Buf := mapLoop (fun _ _ => 0) c.ne 0 b
/-- `set()`, l.314-320. -/
def setAll (c : Cfg) (b : Buf) : Res Buf := put c (mapLoop (fun _ _ => c.allSet) (c.ne - 1) 0 b) (c.ne - 1) c.topMask
/-- `flip()`, l.585-595, and `invert()` for `~`, l.1041-1049, l.1418-1425. -/
def flipAll (c : Cfg) (b : Buf) : Res Buf := clearTop c (mapLoop (fun _ e => c.inv e) c.ne 0 b)

/-- The loop of `from_string`, l.370-373: `i` characters to go. -/
def textLoop (c : Cfg) : List Bool → Nat → Buf → Res Buf
  | _, 0, b => .ok b
  | [], _ + 1, _ => .error .outOfBounds
  | ch :: text, i + 1, b => match set c b i ch with
    | .error u => .error u
    | .ok .none => textLoop c text i b
    | .ok (some b) => textLoop c text i b
/-- `from_string`, l.364-427, and `set(text)`, l.432-495. -/
def fromString (c : Cfg) (b : Buf) (text : Option (List Bool)) : Res Buf := match text with
  | Option.none => .ok (resetAll c b)
  | some t => textLoop c t (min c.N t.length) (resetAll c b)

/-- The loop of `initialise`, l.1024-1030: `n` elements to go. -/
def initLoop (c : Cfg) : Nat → Nat → Nat → Buf → Buf
  | 0, _, _, b => b
  | n + 1, i, v, b => if v ≠ 0 then initLoop c n (i + 1) (v >>> c.w) (upd b i (v &&& c.allSet)) else b
/-- `initialise`, l.1011-1036; `v` is 64 bits. -/
def initialise (c : Cfg) (b : Buf) (v : Nat) : Res Buf :=
  if 64 ≤ c.w then (match put c (resetAll c b) 0 (c.cut v) with
    | .error u => .error u
    | .ok b => clearTop c b) else clearTop c (initLoop c c.ne 0 v (resetAll c b))

/-- `operator &=`, `|=`, `^=`, `=` (also the copy constructor), l.775-809, l.968-976, l.1153-1157. -/
def andWith (c : Cfg) (a b : Buf) : Buf := mapLoop (fun i e => e &&& b i) c.ne 0 a
def orWith (c : Cfg) (a b : Buf) : Buf := mapLoop (fun i e => e ||| b i) c.ne 0 a
def xorWith (c : Cfg) (a b : Buf) : Buf := mapLoop (fun i e => e ^^^ b i) c.ne 0 a
def assign (c : Cfg) (a b : Buf) : Buf := mapLoop (fun i _ => b i) c.ne 0 a

/-- `etl::copy_backward(pdata, pdata + n - 1, pdata + n)`: `i` elements to go. -/
def upLoop : Nat → Buf → Buf
  | 0, b => b
  | i + 1, b => upLoop i (upd b (i + 1) (b i))
/-- `etl::copy(pdata + 1, pdata + n, pdata)` from element `i` on. -/
def downLoop : Nat → Nat → Buf → Buf
  | 0, _, b => b
  | n + 1, i, b => downLoop n (i + 1) (upd b i (b (i + 1)))

/-- `operator <<=`, l.814-887.  The part for other shifts, l.832-878, has the text of the new one (`mShl`). -/
def shiftLeft (c : Cfg) (b : Buf) (s : Nat) : Res Buf :=
  if s ≥ c.N then .ok (resetAll c b)
  else if c.ne = 0 then .ok b
  else match (if c.ne = 1 then one b (c.shl (b 0) s) else if s = c.w then .ok (upd (upLoop (c.ne - 1) b) 0 0) else mShl c b s) with
    | .error u => .error u
    | .ok b => clearTop c b
/-- `operator >>=`, l.892-963; other shifts, l.911-958, as `mShr`. -/
def shiftRight (c : Cfg) (b : Buf) (s : Nat) : Res Buf :=
  if s ≥ c.N then .ok (resetAll c b)
  else if c.ne = 0 then .ok b
  else if c.ne = 1 then one b (c.shr (b 0) s)
  else if s = c.w then .ok (upd (downLoop (c.ne - 1) 0 b) (c.ne - 1) 0)
  else mShr c b s

/-- `count`, l.267-277. -/
def count (c : Cfg) (b : Buf) : Nat := countLoop c b c.ne 0 0
/-- The loop of `all`, l.637-643, then the last element, l.646-649. -/
def allLoop (c : Cfg) (b : Buf) : Nat → Nat → Bool
  | 0, i => decide (b i = c.allSet &&& c.topMask)
  | n + 1, i => if b i ≠ c.allSet then false else allLoop c b n (i + 1)
/-- `all`, l.629-652. -/
def all (c : Cfg) (b : Buf) : Bool := if c.ne = 0 then true else allLoop c b (c.ne - 1) 0
/-- `none`, `any`, l.657-676; `is_equal`, l.1075-1078. -/
def none (c : Cfg) (b : Buf) : Bool := noneLoop b c.ne 0
def any (c : Cfg) (b : Buf) : Bool := !none c b
def equal (c : Cfg) (a b : Buf) : Bool := eqLoop a b c.ne 0
/-- `find_next`, l.683-749; `find_first` starts at 0. -/
def findNext (c : Cfg) (b : Buf) (state : Bool) (p : Nat) : Res (Option Nat) :=
  if c.ne = 0 then .ok Option.none
  else if c.ne = 1 then (match c.intShl p with
    | .error u => .error u
    | .ok m => .ok (mFindLoop c b state 1 0 p p m))
  else match c.intShl (c.bitpos p) with
    | .error u => .error u
    | .ok m => .ok (mFindLoop c b state (c.ne - c.index p) (c.index p) p (c.bitpos p) m)
/-- `value<T>()`, l.502-522, for `T` of `tb` bits; the assertion is `none`.  `shift`, of at least 8 bits, does not wrap, as `T` has at most 64 bits. -/
def value (c : Cfg) (tb : Nat) (b : Buf) : Option Nat := if tb < c.ne * c.w then Option.none else some (mValueLoop c tb b c.ne 0 0)
/-- The loop of `to_string`, l.1367-1370: `i` positions to go. -/
def toStringLoop (c : Cfg) (b : Buf) : Nat → Res (List Bool)
  | 0 => .ok []
  | i + 1 => match test c b i with
    | .error u => .error u
    | .ok v => match toStringLoop c b i with
      | .error u => .error u
      | .ok l => .ok (v.getD false :: l)
def toString (c : Cfg) (b : Buf) : Res (List Bool) := toStringLoop c b c.N

end Etl.Bitset.Legacy
