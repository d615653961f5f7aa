import Verif.Common.Res

/-!
# Model of shared_message and its reference counted pool

Sources: `/repo/include/etl/shared_message.h`, `/repo/include/etl/reference_counted_object.h`, `/repo/include/etl/reference_counted_message.h`,
`/repo/include/etl/reference_counted_message_pool.h`.

Any number of threads work on `shared_message` objects ("handles").  The counter is atomic (`atomic_counted_message_pool`), the pool is used under its lock, so an
operation on handles is a short sequence of atomic steps which may interleave with those of other threads: the decrement, the release, the increment.
Everything else an operation does touches only its own handles, so it is merged into those steps.  A handle that an unfinished operation is assigning to or
destroying is `busy`: C++ gives nobody else the right to look at it.

Simplifications: the memory block allocator is any allocator that hands out unused blocks (C01, C02 for the pools of this library); a failed allocation with asserts that
do not throw leaves a null handle (with throwing asserts no handle comes to exist); the counter does not overflow; messages are values.
-/
namespace Etl.SharedMsg

variable {α : Type}

/-- A `shared_message` object: not existing, in the middle of an operation, or with its `p_rcmessage`. -/
inductive Cell where
  | dead
  | busy
  | own (p : Option Nat)
  deriving DecidableEq, Repr

/-- A block of the pool: free, or a `reference_counted_message` with its counter; or a `persistent_message` (not in a pool). -/
inductive Blk (α : Type) where
  | free
  | live (msg : α) (count : Nat)
  | persistent (msg : α)
  deriving DecidableEq, Repr

/-- The rest of an unfinished operation of a thread; `rel` is a message it has to release first. -/
inductive Pend where
  | idle
  | copyAssign (dst src : Nat) (rel : Option Nat)
  | moveAssign (dst src : Nat) (rel : Option Nat)
  | destroy (dst : Nat) (rel : Option Nat)
  deriving DecidableEq, Repr

structure St (α : Type) where
  cell : Nat → Cell
  blk : Nat → Blk α
  pend : Nat → Pend
  /-- how often each block was allocated and released so far, for stating "exactly once" -/
  allocs : Nat → Nat
  releases : Nat → Nat

inductive Op (α : Type) where
  | create (dst : Nat) (msg : α) (b : Option Nat)     -- `b`: what the allocator returns
  | wrap (dst : Nat) (b : Nat)                        -- from a persistent message
  | copy (dst src : Nat)
  | move (dst src : Nat)
  | copyAssign (dst src : Nat)
  | moveAssign (dst src : Nat)
  | destroy (dst : Nat)

/-- `increment_reference_count`, reference_counted_object.h l.110-113, l.165-168. -/
def incr (s : St α) (b : Nat) : Res (St α) :=
  match s.blk b with
  | .free => .error .deadAccess
  | .live m c => .ok { s with blk := upd s.blk b (.live m (c + 1)) }
  | .persistent _ => .ok s

/-- `decrement_reference_count`, reference_counted_object.h l.118-123, l.173-176.  The assert is `count > 0`. -/
def decr (s : St α) (b : Nat) : Res (St α × Nat) :=
  match s.blk b with
  | .free => .error .deadAccess
  | .live m (c + 1) => .ok ({ s with blk := upd s.blk b (.live m c) }, c)
  | .live _ 0 => .error .overflow
  | .persistent _ => .ok (s, 1)

/-- `release()`, reference_counted_message.h l.137-140 and l.210-213, and `reference_counted_message_pool::release`, reference_counted_message_pool.h l.189-202: destroy the message and give back the block. -/
def release (s : St α) (b : Nat) : Res (St α) :=
  match s.blk b with
  | .free => .error .deadAccess
  | .live _ _ => .ok { s with blk := upd s.blk b .free, releases := upd s.releases b (s.releases b + 1) }
  | .persistent _ => .ok s

/-- What to release after a decrement gave `n`: `if (... == 0U) release()`. -/
def relOf (b n : Nat) : Option Nat := if n = 0 then some b else none

/-- Constructor from a pool and a message, shared_message.h l.66-98; `allocate`, reference_counted_message_pool.h l.108-184. -/
def create (s : St α) (dst : Nat) (msg : α) : Option Nat → Res (St α)
  | none => .ok { s with cell := upd s.cell dst (.own none) }
  | some b =>
    match s.blk b with
    | .free => .ok { s with blk := upd s.blk b (.live msg 1), cell := upd s.cell dst (.own (some b)), allocs := upd s.allocs b (s.allocs b + 1) }
    | _ => .error .constructLive

/-- Constructor from a message that exists, shared_message.h l.102-107: sets the counter to 1. -/
def wrap (s : St α) (dst b : Nat) : Res (St α) :=
  match s.blk b with
  | .free => .error .deadAccess
  | .live m _ => .ok { s with blk := upd s.blk b (.live m 1), cell := upd s.cell dst (.own (some b)) }
  | .persistent _ => .ok { s with cell := upd s.cell dst (.own (some b)) }

/-- Copy constructor, shared_message.h l.112-116. -/
def copy (s : St α) (dst src : Nat) : Res (St α) :=
  match s.cell src with
  | .own (some b) => do
    let s ← incr s b
    .ok { s with cell := upd s.cell dst (.own (some b)) }
  | .own none => .error .nullDeref
  | _ => .error .deadAccess

/-- Move constructor, l.122-126. -/
def move (s : St α) (dst src : Nat) : Res (St α) :=
  match s.cell src with
  | .own p => .ok { s with cell := upd (upd s.cell dst (.own p)) src (.own none) }
  | _ => .error .deadAccess

/-- First step of the assignments, l.132-139 and l.154-161, for thread `t`: decrement the old counter. -/
def startAssign (mk : Nat → Nat → Option Nat → Pend) (s : St α) (t dst src : Nat) : Res (St α) :=
  if dst = src then .ok s
  else
    match s.cell dst with
    | .own (some b) => do
      let (s, n) ← decr s b
      .ok { s with cell := upd s.cell dst .busy, pend := upd s.pend t (mk dst src (relOf b n)) }
    | .own none => .error .nullDeref
    | _ => .error .deadAccess

/-- First step of the destructor, l.177-184. -/
def startDestroy (s : St α) (t dst : Nat) : Res (St α) :=
  match s.cell dst with
  | .own (some b) => do
    let (s, n) ← decr s b
    .ok { s with cell := upd s.cell dst .busy, pend := upd s.pend t (.destroy dst (relOf b n)) }
  | .own none => .ok { s with cell := upd s.cell dst .dead }
  | _ => .error .deadAccess

/-- Thread `t` starts an operation. -/
def start (s : St α) (t : Nat) : Op α → Res (St α)
  | .create dst m b => create s dst m b
  | .wrap dst b => wrap s dst b
  | .copy dst src => copy s dst src
  | .move dst src => move s dst src
  | .copyAssign dst src => startAssign .copyAssign s t dst src
  | .moveAssign dst src => startAssign .moveAssign s t dst src
  | .destroy dst => startDestroy s t dst

/-- Thread `t` does the next step of its unfinished operation. -/
def cont (s : St α) (t : Nat) : Res (St α) :=
  match s.pend t with
  | .idle => .ok s
  | .copyAssign dst src (some b) => do
    let s ← release s b
    .ok { s with pend := upd s.pend t (.copyAssign dst src none) }
  | .copyAssign dst src none =>                     -- l.142-143: take the other's pointer and increment
    match s.cell src with
    | .own (some b) => do
      let s ← incr s b
      .ok { s with cell := upd s.cell dst (.own (some b)), pend := upd s.pend t .idle }
    | .own none => .error .nullDeref
    | _ => .error .deadAccess
  | .moveAssign dst src (some b) => do
    let s ← release s b
    .ok { s with pend := upd s.pend t (.moveAssign dst src none) }
  | .moveAssign dst src none =>                     -- l.164-165
    match s.cell src with
    | .own p => .ok { s with cell := upd (upd s.cell dst (.own p)) src (.own none), pend := upd s.pend t .idle }
    | _ => .error .deadAccess
  | .destroy dst (some b) => do
    let s ← release s b
    .ok { s with pend := upd s.pend t (.destroy dst none) }
  | .destroy dst none => .ok { s with cell := upd s.cell dst .dead, pend := upd s.pend t .idle }

/-- `get_message`, l.189-200. -/
def getMessage (s : St α) (h : Nat) : Res α :=
  match s.cell h with
  | .own (some b) =>
    match s.blk b with
    | .free => .error .deadAccess
    | .live m _ => .ok m
    | .persistent m => .ok m
  | .own none => .error .nullDeref
  | _ => .error .deadAccess

/-- `get_reference_count`, l.205-208. -/
def getCount (s : St α) (h : Nat) : Res Nat :=
  match s.cell h with
  | .own (some b) =>
    match s.blk b with
    | .free => .error .deadAccess
    | .live _ c => .ok c
    | .persistent _ => .ok 1
  | .own none => .error .nullDeref
  | _ => .error .deadAccess

/-- `is_valid`, l.213-216. -/
def isValid (s : St α) (h : Nat) : Bool := match s.cell h with | .own (some _) => true | _ => false

end Etl.SharedMsg
