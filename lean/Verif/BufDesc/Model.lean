import Verif.Common.Res

/-!
# Model of `etl::buffer_descriptors`

Source: `/repo/include/etl/buffer_descriptors.h` (`++next`: `/repo/include/etl/cyclic_value.h`, the version with constant limits, `operator++` l.124-136).

One thread allocates; any number of other threads write, read and release the buffers they hold, at any time between the allocator's accesses to the flags, to
`next` and to the buffers.  A micro-step is one such access.  Simplification: accesses to the flag `in_use` are indivisible and sequentially consistent (a
`TFlag` such as `etl::atomic<bool>`; with the default `bool` the `volatile` member is formally a data race between threads).  `notify` and the callback only
hand a descriptor to the user's function and are not modelled.
-/
namespace Etl.BufDesc

/-- `descriptor_items[i].in_use`, `next`, the memory behind `pbuffers_`.  `N` = `N_BUFFERS`, `SZ` = `BUFFER_SIZE`; l.278-287. -/
structure St (α : Type) where
  N : Nat
  SZ : Nat
  inUse : Nat → Bool
  next : Nat
  mem : Nat → α

/-- Where the allocating thread is in `allocate`: nowhere; before the test of the flag; before `++next`; before `in_use = true`; before the `j`-th assignment
of `fill_n`.  The descriptor under construction is `&descriptor_items[i]`. -/
inductive Pc (α : Type) where
  | idle
  | test (f : Option α)
  | inc (i : Nat) (f : Option α)
  | set (i : Nat) (f : Option α)
  | fill (i : Nat) (f : α) (j : Nat)
  deriving DecidableEq, Repr

/-- What happens next: the allocating thread calls `allocate()` (`none`) or `allocate(fill)`, takes its next micro-step, or calls `clear()`; some thread writes
or reads an element of the buffer of a descriptor, or releases it. -/
inductive Event (α : Type) where
  | call (f : Option α)
  | micro
  | clear
  | write (i j : Nat) (v : α)
  | read (i j : Nat)
  | release (i : Nat)
  deriving Repr

/-- A returned descriptor, an invalid one, or a value read. -/
inductive Out (α : Type) where
  | desc (i : Nat)
  | invalid
  | val (v : α)
  deriving DecidableEq, Repr

/-- The constructor, l.202-210. -/
def init {α : Type} (N SZ : Nat) (mem : Nat → α) : St α := ⟨N, SZ, fun _ => false, 0, mem⟩

/-- `pbuffers_ + (i * BUFFER_SIZE)`, l.207, plus an index. -/
def addr {α : Type} (s : St α) (i j : Nat) : Nat := i * s.SZ + j

/-- `++next`, cyclic_value.h: back to the first value after the last. -/
def incNext {α : Type} (s : St α) : Nat := if s.next ≥ s.N - 1 then 0 else s.next + 1

/-- The accesses of the allocating thread, `allocate` l.248-277, `fill_n` over `BUFFER_SIZE` elements. -/
def micro {α : Type} (s : St α) : Pc α → Res (St α × Pc α × Option (Out α))
  | .idle => .ok (s, .idle, none)
  | .test f =>
    if s.N ≤ s.next then .error .outOfBounds
    else if s.inUse s.next = false then .ok (s, .inc s.next f, none)
    else .ok (s, .idle, some .invalid)
  | .inc i f => .ok ({ s with next := incNext s }, .set i f, none)
  | .set i f =>
    let s := { s with inUse := upd s.inUse i true }
    match f with
    | none => .ok (s, .idle, some (.desc i))
    | some v => .ok (s, .fill i v 0, none)
  | .fill i v j =>
    if j < s.SZ then
      if addr s i j < s.N * s.SZ then .ok ({ s with mem := upd s.mem (addr s i j) v }, .fill i v (j + 1), none)
      else .error .outOfBounds
    else .ok (s, .idle, some (.desc i))

/-- One event. -/
def step {α : Type} (s : St α) (pc : Pc α) : Event α → Res (St α × Pc α × Option (Out α))
  | .call f => .ok (s, .test f, none)
  | .micro => micro s pc
  -- `clear()`, l.219-227
  | .clear => .ok ({ s with inUse := fun i => if i < s.N then false else s.inUse i, next := 0 }, pc, none)
  | .write i j v => if addr s i j < s.N * s.SZ then .ok ({ s with mem := upd s.mem (addr s i j) v }, pc, none) else .error .outOfBounds
  | .read i j => if addr s i j < s.N * s.SZ then .ok (s, pc, some (.val (s.mem (addr s i j)))) else .error .outOfBounds
  -- `release()`, l.131-134
  | .release i => .ok ({ s with inUse := upd s.inUse i false }, pc, none)

/-- A run; the outputs in order. -/
def run {α : Type} (s : St α) (pc : Pc α) : List (Event α) → Res (St α × Pc α × List (Out α))
  | [] => .ok (s, pc, [])
  | e :: es =>
    match step s pc e with
    | .error u => .error u
    | .ok (s, pc, o) =>
      match run s pc es with
      | .error u => .error u
      | .ok (s, pc, os) => .ok (s, pc, o.toList ++ os)

/-- `is_allocated()`, l.117-120. -/
def isAllocated {α : Type} (s : St α) (i : Nat) : Bool := s.inUse i

end Etl.BufDesc
