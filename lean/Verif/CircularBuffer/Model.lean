import Verif.Common.Res

/-!
# Model of `etl::circular_buffer`

Source: `/repo/include/etl/circular_buffer.h` (`circular_buffer_base`, `icircular_buffer`, `circular_buffer`).

A slot holds `some v` while an object lives in it, `none` otherwise.  Constructing over a live object and reading or destroying a dead slot are
undefined behaviour, as is an index outside the array.  `size_t` values are `Nat`s where the code cannot wrap; the iterator arithmetic
(`operator +=`) is done modulo the size `M = 2^w` of `size_t`.
Simplifications: debug counters are not modelled; copying/moving `T` does not throw; failed `ETL_ASSERT` throws.
-/
namespace Etl.CircularBuffer

variable {α : Type}

structure St (α : Type) where
  bs   : Nat                 -- buffer_size
  inI  : Nat                 -- in
  outI : Nat                 -- out
  slot : Nat → Option α      -- pbuffer[0 .. buffer_size)
  trivial : Bool             -- is_trivially_destructible<T>

inductive Err where
  | empty
  deriving DecidableEq, Repr


/-- Constructor: circular_buffer_base l.141-146, icircular_buffer l.1040-1044 (buffer_size = max_length + 1). -/
def init (n : Nat) (trivial : Bool) : St α :=
  { bs := n + 1, inI := 0, outI := 0, slot := fun _ => none, trivial }

/-- `size`, l.97-100. -/
def size (s : St α) : Nat := if s.inI ≥ s.outI then s.inI - s.outI else s.bs - (s.outI - s.inI)
/-- `empty`, l.103-106. -/
def empty (s : St α) : Bool := s.inI == s.outI
/-- `full`, l.109-120. -/
def full (s : St α) : Bool :=
  let i := s.inI + 1
  let i := if i = s.bs then 0 else i
  i == s.outI
/-- `max_size` / `capacity`, l.129-138. -/
def maxSize (s : St α) : Nat := s.bs - 1
/-- `available`, l.123-126. -/
def available (s : St α) : Nat := maxSize s - size s

/-- `increment_in`, l.151-158. -/
def incrementIn (s : St α) : St α :=
  let i := s.inI + 1
  { s with inI := if i = s.bs then 0 else i }
/-- `increment_out`, l.161-168. -/
def incrementOut (s : St α) : St α :=
  let i := s.outI + 1
  { s with outI := if i = s.bs then 0 else i }

/-- Placement new at `pbuffer[i]`. -/
def construct (s : St α) (i : Nat) (v : α) : Res (St α) :=
  if i < s.bs then
    match s.slot i with
    | none => .ok { s with slot := upd s.slot i (some v) }
    | some _ => .error .constructLive
  else .error .outOfBounds
/-- `pbuffer[i].~T()` -/
def destroy (s : St α) (i : Nat) : Res (St α) :=
  if i < s.bs then
    match s.slot i with
    | some _ => .ok { s with slot := upd s.slot i none }
    | none => .error .deadAccess
  else .error .outOfBounds
/-- reading `pbuffer[i]` -/
def read (s : St α) (i : Nat) : Res α :=
  if i < s.bs then
    match s.slot i with
    | some v => .ok v
    | none => .error .deadAccess
  else .error .outOfBounds
/-- assigning to `pbuffer[i]` -/
def write (s : St α) (i : Nat) (v : α) : Res (St α) :=
  if i < s.bs then
    match s.slot i with
    | some _ => .ok { s with slot := upd s.slot i (some v) }
    | none => .error .deadAccess
  else .error .outOfBounds

/-- `push`, l.908-925 and l.933-949. -/
def push (s : St α) (v : α) : Res (St α) := do
  let s ← construct s s.inI v
  let s := incrementIn s
  -- Did we catch up with the 'out' index?
  if s.inI = s.outI then do
    -- Forget about the oldest one.
    let s ← destroy s s.outI
    .ok (incrementOut s)
  else .ok s

/-- `push(first, last)`, l.955-962. -/
def pushRange (s : St α) : List α → Res (St α)
  | [] => .ok s
  | v :: vs => do
    let s ← push s v
    pushRange s vs

/-- `pop`, l.967-973. -/
def pop (s : St α) : Res (Except Err (St α)) :=
  if empty s then .ok (.error .empty)
  else do
    let s ← destroy s s.outI
    .ok (.ok (incrementOut s))

/-- `pop(n)`, l.978-984.  When the buffer runs empty on the way the assert throws: the pops made so far stay. -/
def popN (s : St α) : Nat → Res (St α × Option Err)
  | 0 => .ok (s, none)
  | n + 1 => do
    match ← pop s with
    | .error e => .ok (s, some e)
    | .ok s => popN s n

/-- The loop of `clear`, l.999-1002; `fuel` bounds the loop, running out of it is divergence. -/
def clearLoop (s : St α) : Nat → Res (St α)
  | 0 => .error .diverge
  | fuel + 1 =>
    if empty s then .ok s
    else do
      match ← pop s with
      | .error _ => .ok s
      | .ok s => clearLoop s fuel

/-- `clear`, l.989-1004.  For a trivially destructible `T` no destructor is run: the storage is simply free again. -/
def clear (s : St α) : Res (St α) :=
  if s.trivial then .ok { s with inI := 0, outI := 0, slot := fun _ => none }
  else clearLoop s (s.bs + 1)

/-- `operator =`, l.1170-1179, from another buffer whose iteration yields `vs`. -/
def assign (s : St α) (vs : List α) : Res (St α) := do
  let s ← clear s
  pushRange s vs

/-- `front`, l.846-851. -/
def front (s : St α) : Res (Except Err α) :=
  if empty s then .ok (.error .empty) else do .ok (.ok (← read s s.outI))
/-- `back`, l.868-873. -/
def back (s : St α) : Res (Except Err α) :=
  if empty s then .ok (.error .empty)
  else do .ok (.ok (← read s (if s.inI = 0 then s.bs - 1 else s.inI - 1)))
/-- `operator []`, l.889-892. -/
def index (s : St α) (i : Nat) : Res α := read s ((s.outI + i) % s.bs)

/-! ## Iterators: only `current` matters, `picb` is the buffer (l.718-719). -/

/-- `begin` l.749-752, `end` l.773-776. -/
def beginIt (s : St α) : Nat := s.outI
def endIt (s : St α) : Nat := s.inI
/-- `operator *`, l.236-239. -/
def deref (s : St α) (it : Nat) : Res α := read s it
/-- `operator []` of the iterator, l.252-255. -/
def itIndex (s : St α) (it : Nat) (i : Nat) : Res α := read s ((it + i) % s.bs)
/-- `operator ++`, l.268-279. -/
def itInc (s : St α) (it : Nat) : Nat :=
  let c := it + 1
  if c = s.bs then 0 else c
/-- `operator --`, l.296-309. -/
def itDec (s : St α) (it : Nat) : Nat := if it = 0 then s.bs - 1 else it - 1
/-- conversion of an integer to `size_t` (modulus `M`). -/
def toSize (M : Nat) (x : Int) : Nat := (x % (M : Int)).toNat
/-- `operator +=`, l.326-332: `current += size_type(buffer_size + n); current %= buffer_size;` all in `size_t`. -/
def itAdd (M : Nat) (s : St α) (it : Nat) (n : Int) : Nat :=
  let d := toSize M ((s.bs : Int) + n)
  ((it + d) % M) % s.bs
/-- `operator -=`, l.337-340. -/
def itSub (M : Nat) (s : St α) (it : Nat) (n : Int) : Nat := itAdd M s it (-n)
/-- `operator ==`, l.381-384. -/
def itEq (a b : Nat) : Bool := a == b
/-- `distance(other)`, l.1064-1078. -/
def distance1 (s : St α) (it : Nat) : Int :=
  if (it : Int) < (s.outI : Int) then (s.bs : Int) + it - s.outI else (it : Int) - s.outI
/-- `distance(range_begin, range_end)`, l.1052-1058, and `operator -(lhs, rhs) = distance(rhs, lhs)`, l.1024-1027. -/
def itDiff (s : St α) (lhs rhs : Nat) : Int := distance1 s lhs - distance1 s rhs
/-- `operator <`, l.395-406. -/
def itLt (s : St α) (lhs rhs : Nat) : Bool :=
  let ref : Int := beginIt s
  let bs : Int := maxSize s + 1
  let ld : Int := if (lhs : Int) < ref then bs + lhs - ref else (lhs : Int) - ref
  let rd : Int := if (rhs : Int) < ref then bs + rhs - ref else (rhs : Int) - ref
  decide (ld < rd)

/-- Loop `for (it = begin(); it != end(); ++it) use(*it)` (used by copy, assignment, comparison: l.1170-1179, l.1446). -/
def collectFrom (s : St α) (it : Nat) : Nat → Res (List α)
  | 0 => .error .diverge
  | fuel + 1 =>
    if itEq it (endIt s) then .ok []
    else do
      let v ← deref s it
      let vs ← collectFrom s (itInc s it) fuel
      .ok (v :: vs)
def collect (s : St α) : Res (List α) := collectFrom s (beginIt s) (s.bs + 1)

/-- `fill`, l.1009-1012: `etl::fill(begin(), end(), value)`. -/
def fillFrom (s : St α) (it : Nat) (v : α) : Nat → Res (St α)
  | 0 => .error .diverge
  | fuel + 1 =>
    if itEq it (endIt s) then .ok s
    else do
      let s ← write s it v
      fillFrom s (itInc s it) v fuel
def fill (s : St α) (v : α) : Res (St α) := fillFrom s (beginIt s) v (s.bs + 1)

/-- Mutating operations of the public API. -/
inductive Op (α : Type) where
  | push (v : α) | pushRange (vs : List α) | pop | popN (n : Nat) | clear | assign (vs : List α) | fill (v : α)

/-- New state and error thrown, if any. -/
def step (s : St α) : Op α → Res (St α × Option Err)
  | .push v => do .ok (← push s v, none)
  | .pushRange vs => do .ok (← pushRange s vs, none)
  | .pop => do
    match ← pop s with
    | .ok s => .ok (s, none)
    | .error e => .ok (s, some e)
  | .popN n => popN s n
  | .clear => do .ok (← clear s, none)
  | .assign vs => do .ok (← assign s vs, none)
  | .fill v => do .ok (← fill s v, none)

def run (s : St α) : List (Op α) → Res (St α × List (Option Err))
  | [] => .ok (s, [])
  | o :: os => do
    let (s, e) ← step s o
    let (s, es) ← run s os
    .ok (s, e :: es)

end Etl.CircularBuffer
