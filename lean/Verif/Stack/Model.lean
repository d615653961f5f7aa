import Verif.Common.Mem
import Verif.Algo.Rotate

/-!
# Model of `etl::stack`

Source: `/repo/include/etl/stack.h` (`stack_base`, `istack`, `stack`).

Same conventions as `Queue/Model.lean`: raw storage with lifetimes, `mf v` is what a moved-from object of value `v` holds, `check` is `ETL_CHECK_PUSH_POP`.
`top_index` is a `size_t`: decrementing 0 gives `mx` (`SIZE_MAX`).
Simplifications: debug counters are not modelled, copying, moving and swapping `T` does not throw.
-/
namespace Etl.Stack

variable {α : Type}

inductive Err where
  | full | empty
  deriving DecidableEq, Repr

structure St (α : Type) where
  topI : Nat       -- top_index
  size : Nat       -- current_size
  cap  : Nat       -- CAPACITY
  mx   : Nat       -- SIZE_MAX
  mem  : Mem α     -- p_buffer
  trivial : Bool   -- is_trivially_destructible<T>
  check : Bool     -- ETL_CHECK_PUSH_POP

/-- Constructors, l.159-164, 517-521, 564-567. -/
def init (n mx : Nat) (trivial check : Bool) : St α := { topI := 0, size := 0, cap := n, mx, mem := .fresh n true, trivial, check }

/-- `empty`, l.115-118. -/
def empty (q : St α) : Bool := q.size == 0
/-- `full`, l.124-127. -/
def full (q : St α) : Bool := q.size == q.cap
/-- `max_size`, l.140-143. -/
def maxSize (q : St α) : Nat := q.cap
/-- `available`, l.149-152. -/
def available (q : St α) : Nat := maxSize q - q.size

/-- `add_in`, l.176-180. -/
def addIn (q : St α) : St α := { q with topI := q.size, size := q.size + 1 }
/-- `del_out`, l.185-190. -/
def delOut (q : St α) : St α := { q with topI := if q.topI = 0 then q.mx else q.topI - 1, size := q.size - 1 }
/-- `index_clear`, l.195-200. -/
def indexClear (q : St α) : St α := { q with topI := 0, size := 0 }

/-- `top`, l.244-247, 386-389. -/
def top (q : St α) : Res α := q.mem.read q.topI

/-- `push`, l.254-276, and `emplace`, l.286-379.  The indexes are updated before the object is constructed. -/
def push (q : St α) (v : α) : Res (Except Err (St α)) :=
  if q.check ∧ full q then .ok (.error .full)
  else do
    let q := addIn q
    let m ← q.mem.construct q.topI v
    .ok (.ok { q with mem := m })

/-- `pop`, l.413-420. -/
def pop (q : St α) : Res (Except Err (St α)) :=
  if q.check ∧ empty q then .ok (.error .empty)
  else do
    let m ← q.mem.destroy q.topI
    .ok (.ok (delOut { q with mem := m }))

/-- The loop of `clear`, l.402-406; running out of `fuel` is divergence. -/
def clearLoop (q : St α) : Nat → Res (St α)
  | 0 => .error .diverge
  | fuel + 1 =>
    if q.size > 0 then do
      let m ← q.mem.destroy q.topI
      clearLoop (delOut { q with mem := m }) fuel
    else .ok q

/-- `clear`, l.394-408.  For a trivially destructible `T` no destructor is run: the storage is simply free again. -/
def clear (q : St α) : Res (St α) :=
  if q.trivial then .ok { indexClear q with mem := .fresh q.mem.cap q.mem.sms }
  else clearLoop q (q.size + 1)

/-- Moving the value out of the object in slot `i`; the object stays alive with value `mf v`. -/
def takeAt (mf : α → α) (q : St α) (i : Nat) : Res (α × St α) := do
  let v ← q.mem.read i
  let m ← q.mem.assign i (mf v)
  .ok (v, { q with mem := m })

/-- `pop_into(reference)`, l.425-429; returns the value given to the destination. -/
def popInto (mf : α → α) (q : St α) : Res (α × Except Err (St α)) := do
  let (v, q) ← takeAt mf q q.topI
  let r ← pop q
  .ok (v, r)

/-- `reverse`, l.446-449: `etl::reverse` (`Algo/Rotate.lean`) on the array `p_buffer[0, current_size)`.  The array is read into a list, reversed by the modelled
algorithm, and written back. -/
def reverse (k : Algo.Kind) (q : St α) : Res (St α) := do
  let vs ← q.mem.readN 0 q.size
  let vs ← Algo.reverse k vs 0 q.size
  let m ← q.mem.copyTo 0 vs
  .ok { q with mem := m }

/-- The loop of `clone`, l.491-494. -/
def cloneLoop (q other : St α) (i : Nat) : Nat → Res (St α × Option Err)
  | 0 => .error .diverge
  | fuel + 1 =>
    if i < other.size then do
      let v ← other.mem.read i
      match ← push q v with
      | .error e => .ok (q, some e)
      | .ok q => cloneLoop q other (i + 1) fuel
    else .ok (q, none)

/-- `clone(const istack&)`, l.485-495. -/
def clone (q other : St α) : Res (St α × Option Err) := do
  let q ← clear q
  cloneLoop q other 0 (other.size + 1)

/-- The loop of `clone(istack&&)`, l.507-510. -/
def moveCloneLoop (mf : α → α) (q other : St α) (i : Nat) : Nat → Res (St α × St α × Option Err)
  | 0 => .error .diverge
  | fuel + 1 =>
    if i < other.size then
      if q.check ∧ full q then .ok (q, other, some .full)      -- the assert in `push` comes before the element is moved
      else do
        let (v, other) ← takeAt mf other i
        match ← push q v with
        | .error e => .ok (q, other, some e)
        | .ok q => moveCloneLoop mf q other (i + 1) fuel
    else .ok (q, other, none)

/-- `clone(istack&&)`, l.501-511. -/
def moveClone (mf : α → α) (q other : St α) : Res (St α × St α × Option Err) := do
  let q ← clear q
  moveCloneLoop mf q other 0 (other.size + 1)

/-! ## Any number of stacks of one type -/

abbrev World (α : Type) := Nat → St α

inductive Op (α : Type) where
  | push (q : Nat) (v : α)
  | pop (q : Nat)
  | popInto (q : Nat)                 -- into a plain variable
  | popIntoStack (q dst : Nat)        -- `pop_into(TContainer&)`, the container being another stack
  | clear (q : Nat)
  | reverse (q : Nat)
  | copyAssign (dst src : Nat)        -- also the copy constructor, for a `dst` not used before
  | moveAssign (dst src : Nat)        -- also the move constructor, for a `dst` not used before
  deriving Repr

inductive Out (α : Type) where
  | unit | err (e : Err) | val (v : α)
  deriving DecidableEq, Repr

/-- `destination.push(ETL_MOVE(top())); pop();`, l.437-441. -/
def popIntoStack (mf : α → α) (w : World α) (q dst : Nat) : Res (World α × Out α) :=
  if (w dst).check ∧ full (w dst) then .ok (w, .err .full)     -- `destination.push` throws before constructing
  else do
    let (v, s) ← takeAt mf (w q) (w q).topI
    let w := upd w q s
    match ← push (w dst) v with
    | .error e => .ok (w, .err e)
    | .ok d =>
      let w := upd w dst d
      match ← pop (w q) with
      | .error e => .ok (w, .err e)
      | .ok s => .ok (upd w q s, .unit)

/-- One operation of a program. `operator =`: l.600-622; constructors: l.572-587. -/
def step (mf : α → α) (w : World α) : Op α → Res (World α × Out α)
  | .push q v => do
    match ← push (w q) v with
    | .error e => .ok (w, .err e)
    | .ok s => .ok (upd w q s, .unit)
  | .pop q => do
    match ← pop (w q) with
    | .error e => .ok (w, .err e)
    | .ok s => .ok (upd w q s, .unit)
  | .popInto q => do
    match ← popInto mf (w q) with
    | (_, .error e) => .ok (w, .err e)
    | (v, .ok s) => .ok (upd w q s, .val v)
  | .popIntoStack q dst => popIntoStack mf w q dst
  | .clear q => do
    let s ← clear (w q)
    .ok (upd w q s, .unit)
  | .reverse q => do
    let s ← reverse .pointer (w q)
    .ok (upd w q s, .unit)
  | .copyAssign dst src =>
    if dst = src then .ok (w, .unit) else do
    let (s, e) ← clone (w dst) (w src)
    .ok (upd w dst s, match e with | some e => .err e | none => .unit)
  | .moveAssign dst src =>
    if dst = src then .ok (w, .unit) else do
    let (s, o, e) ← moveClone mf (w dst) (w src)
    .ok (upd (upd w dst s) src o, match e with | some e => .err e | none => .unit)

def run (mf : α → α) (w : World α) : List (Op α) → Res (World α × List (Out α))
  | [] => .ok (w, [])
  | o :: os => do
    let (w, r) ← step mf w o
    let (w, rs) ← run mf w os
    .ok (w, r :: rs)

/-- `~stack`, l.592-595. -/
def destroy (q : St α) : Res (St α) := clear q

end Etl.Stack
