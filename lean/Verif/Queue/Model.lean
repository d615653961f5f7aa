import Verif.Common.Mem

/-!
# Model of `etl::queue`

Source: `/repo/include/etl/queue.h` (`queue_base`, `iqueue`, `queue`).

The buffer is raw storage with object lifetimes (`Common/Mem.lean`).  `mf v` is the value left in an object of value `v` that has been moved from
(any function; the identity for types whose move is a copy), so a moved-from object is still alive and holds `mf v`.
`check` says whether `ETL_CHECK_PUSH_POP` is defined.  A failed `ETL_ASSERT` throws, or returns for `ETL_ASSERT_OR_RETURN`: either way the operation stops
and reports the error.  `size_type` arithmetic does not wrap: all values are at most `CAPACITY` (`static_assert`, l.621).
Simplifications: debug counters are not modelled, copying and moving `T` does not throw.
-/
namespace Etl.Queue

variable {α : Type}

inductive Err where
  | full | empty
  deriving DecidableEq, Repr

structure St (α : Type) where
  inI  : Nat       -- in
  outI : Nat       -- out
  size : Nat       -- current_size
  cap  : Nat       -- CAPACITY
  mem  : Mem α     -- p_buffer
  trivial : Bool   -- is_trivially_destructible<T>
  check : Bool     -- ETL_CHECK_PUSH_POP

/-- Constructors, l.170-176, 572-576, 628-631. -/
def init (n : Nat) (trivial check : Bool) : St α := { inI := 0, outI := 0, size := 0, cap := n, mem := .fresh n true, trivial, check }

/-- `empty`, l.142-145. -/
def empty (q : St α) : Bool := q.size == 0
/-- `full`, l.151-154. -/
def full (q : St α) : Bool := q.size == q.cap
/-- `max_size`, `capacity`, l.125-136. -/
def maxSize (q : St α) : Nat := q.cap
/-- `available`, l.160-163. -/
def available (q : St α) : Nat := maxSize q - q.size

/-- `add_in`, l.188-197. -/
def addIn (q : St α) : St α :=
  let i := q.inI + 1
  { q with inI := if i = q.cap then 0 else i, size := q.size + 1 }
/-- `del_out`, l.202-210. -/
def delOut (q : St α) : St α :=
  let o := q.outI + 1
  { q with outI := if o = q.cap then 0 else o, size := q.size - 1 }
/-- `index_clear`, l.215-221. -/
def indexClear (q : St α) : St α := { q with inI := 0, outI := 0, size := 0 }

/-- `front`, l.274-286. -/
def front (q : St α) : Res α := q.mem.read q.outI
/-- `back`, l.292-304. -/
def back (q : St α) : Res α := q.mem.read (if q.inI = 0 then q.cap - 1 else q.inI - 1)

/-- `push`, l.311-334, and `emplace`, l.343-441 (constructing the value from its arguments is one step). -/
def push (q : St α) (v : α) : Res (Except Err (St α)) :=
  if q.check ∧ full q then .ok (.error .full)
  else do
    let m ← q.mem.construct q.inI v
    .ok (.ok (addIn { q with mem := m }))

/-- `pop`, l.471-478. -/
def pop (q : St α) : Res (Except Err (St α)) :=
  if q.check ∧ empty q then .ok (.error .empty)
  else do
    let m ← q.mem.destroy q.outI
    .ok (.ok (delOut { q with mem := m }))

/-- The loop of `clear`, l.455-459; running out of `fuel` is divergence. -/
def clearLoop (q : St α) : Nat → Res (St α)
  | 0 => .error .diverge
  | fuel + 1 =>
    if q.size > 0 then do
      let m ← q.mem.destroy q.outI
      clearLoop (delOut { q with mem := m }) fuel
    else .ok q

/-- `clear`, l.447-464.  For a trivially destructible `T` no destructor is run: the storage is simply free again. -/
def clear (q : St α) : Res (St α) :=
  if q.trivial then .ok { indexClear q with mem := .fresh q.mem.cap q.mem.sms }
  else do
    let q ← clearLoop q (q.size + 1)
    .ok { q with inI := 0, outI := 0 }

/-- Moving the value out of the object in slot `i`; the object stays alive with value `mf v`. -/
def takeAt (mf : α → α) (q : St α) (i : Nat) : Res (α × St α) := do
  let v ← q.mem.read i
  let m ← q.mem.assign i (mf v)
  .ok (v, { q with mem := m })

/-- `pop_into(reference)`, l.484-488; returns the value given to the destination. -/
def popInto (mf : α → α) (q : St α) : Res (α × Except Err (St α)) := do
  let (v, q) ← takeAt mf q q.outI
  let r ← pop q
  .ok (v, r)

/-- The loop of `clone`, l.544-548.  The index into `other` wraps at *this* queue's capacity, as in the code. -/
def cloneLoop (q other : St α) (i index : Nat) : Nat → Res (St α × Option Err)
  | 0 => .error .diverge
  | fuel + 1 =>
    if i < other.size then do
      let v ← other.mem.read index
      match ← push q v with
      | .error e => .ok (q, some e)
      | .ok q => cloneLoop q other (i + 1) (if index = q.cap - 1 then 0 else index + 1) fuel
    else .ok (q, none)

/-- `clone`, l.538-549. -/
def clone (q other : St α) : Res (St α × Option Err) := do
  let q ← clear q
  cloneLoop q other 0 other.outI (other.size + 1)

/-- The loop of `move_clone`, l.561-565. -/
def moveCloneLoop (mf : α → α) (q other : St α) (i index : Nat) : Nat → Res (St α × St α × Option Err)
  | 0 => .error .diverge
  | fuel + 1 =>
    if i < other.size then
      if q.check ∧ full q then .ok (q, other, some .full)      -- the assert in `push` comes before the element is moved
      else do
        let (v, other) ← takeAt mf other index
        match ← push q v with
        | .error e => .ok (q, other, some e)
        | .ok q => moveCloneLoop mf q other (i + 1) (if index = q.cap - 1 then 0 else index + 1) fuel
    else .ok (q, other, none)

/-- `move_clone`, l.555-566. -/
def moveClone (mf : α → α) (q other : St α) : Res (St α × St α × Option Err) := do
  let q ← clear q
  moveCloneLoop mf q other 0 other.outI (other.size + 1)

/-! ## Any number of queues of one type -/

/-- The queues of a program, by name. -/
abbrev World (α : Type) := Nat → St α

inductive Op (α : Type) where
  | push (q : Nat) (v : α)
  | pop (q : Nat)
  | popInto (q : Nat)                 -- into a plain variable
  | popIntoQueue (q dst : Nat)        -- `pop_into(TContainer&)`, the container being another queue
  | clear (q : Nat)
  | copyAssign (dst src : Nat)        -- also the copy constructor, for a `dst` not used before
  | moveAssign (dst src : Nat)        -- also the move constructor, for a `dst` not used before
  deriving Repr

/-- What an operation reports: nothing, an error or a value. -/
inductive Out (α : Type) where
  | unit | err (e : Err) | val (v : α)
  deriving DecidableEq, Repr

/-- `destination.push(ETL_MOVE(front())); pop();`, l.497-501. -/
def popIntoQueue (mf : α → α) (w : World α) (q dst : Nat) : Res (World α × Out α) :=
  if (w dst).check ∧ full (w dst) then .ok (w, .err .full)     -- `destination.push` throws before constructing
  else do
    let (v, s) ← takeAt mf (w q) (w q).outI
    let w := upd w q s
    match ← push (w dst) v with
    | .error e => .ok (w, .err e)
    | .ok d =>
      let w := upd w dst d
      match ← pop (w q) with
      | .error e => .ok (w, .err e)
      | .ok s => .ok (upd w q s, .unit)

/-- One operation of a program. `operator =`: l.664-672 and l.678-686; constructors: l.636-651. -/
def step (mf : α → α) (w : World α) : Op α → Res (World α × Out α)
  | .push q v => do
    match ← push (w q) v with
    | .error e => .ok (w, .err e)
    | .ok s => .ok (upd w q s, .unit)
  | .pop q => do
    match ← pop (w q) with
    | .error e => .ok (w, .err e)
    | .ok s => .ok (upd w q s, .unit)
  | .popInto q => do
    match ← popInto mf (w q) with
    | (_, .error e) => .ok (w, .err e)
    | (v, .ok s) => .ok (upd w q s, .val v)
  | .popIntoQueue q dst => popIntoQueue mf w q dst
  | .clear q => do
    let s ← clear (w q)
    .ok (upd w q s, .unit)
  | .copyAssign dst src =>
    if dst = src then .ok (w, .unit) else do
    let (s, e) ← clone (w dst) (w src)
    .ok (upd w dst s, match e with | some e => .err e | none => .unit)
  | .moveAssign dst src =>
    if dst = src then .ok (w, .unit) else do
    let (s, o, e) ← moveClone mf (w dst) (w src)
    .ok (upd (upd w dst s) src o, match e with | some e => .err e | none => .unit)

def run (mf : α → α) (w : World α) : List (Op α) → Res (World α × List (Out α))
  | [] => .ok (w, [])
  | o :: os => do
    let (w, r) ← step mf w o
    let (w, rs) ← run mf w os
    .ok (w, r :: rs)

/-- `~queue`, l.656-659: `clear`; afterwards the storage is given up. -/
def destroy (q : St α) : Res (St α) := clear q

end Etl.Queue
