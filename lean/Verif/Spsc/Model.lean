import Verif.Common.Res

/-!
# Model of `etl::queue_spsc_atomic` under release/acquire memory

Source: `/repo/include/etl/queue_spsc_atomic.h`.

Two threads: the producer (calls `push`/`emplace`, `full`, `size`) and the consumer (calls `pop`, `front`,
`empty`, `size`, `clear`).  Every atomic load/store and every access to a slot of the buffer is one
micro-step; actions of the two threads interleave arbitrarily.

Memory model.  Each atomic has its modification order (a list of messages, oldest first).  A load may return *any*
message that is not older than one the thread already read (coherence), so stale values are
possible.  A `release` store attaches the storing thread's clock (number of slot accesses it
has made); an `acquire` load joins it into the loading thread's knowledge; `relaxed` does neither.
A slot access that conflicts with an access of the other thread that is not known to happen-before it is a data
race, i.e. undefined behaviour.  Only the own atomic (`write` for the producer, `read` for the consumer) is ever stored to
by a thread, so loading the own atomic always returns the latest message.

Simplifications: `size_type` is `Nat` (the static assert at l.541 excludes overflow of `Size + 1`); `emplace` is the same code
as `push` (l.256-384); copy/move/destroy of `T` do not throw; move is a copy followed by destruction.
-/
namespace Etl.Spsc

/-- C++ memory orders that occur in the file. -/
inductive Order where
  | relaxed | acquire | release
  deriving DecidableEq

/-- One store in the modification order of an atomic. -/
structure Msg where
  val : Nat
  /-- slot accesses of the storing thread that happen-before this store (0 for a relaxed store) -/
  clk : Nat

/-- Raw storage for one element, plus the race detector's epochs. -/
structure Slot (α : Type) where
  obj  : Option α
  accP : Nat   -- producer clock of the producer's last access
  accC : Nat   -- consumer clock of the consumer's last access

/-- Per-thread memory knowledge. -/
structure Thr where
  clock : Nat  -- own slot accesses so far
  known : Nat  -- accesses of the other thread known to happen-before
  ts    : Nat  -- coherence: index of the newest message of the other thread's atomic read so far

/-- API calls of the producer. -/
inductive POp (α : Type) where
  | push (v : α) | full | size

/-- API calls of the consumer.  `pop` is `pop(reference)`, `popDiscard` is `pop()`. -/
inductive COp where
  | pop | popDiscard | front | empty | size

/-- Producer program counter. -/
inductive PPc (α : Type) where
  | idle
  | start (op : POp α)
  | gotW (op : POp α) (w : Nat)             -- own `write` loaded
  | construct (v : α) (w next : Nat)        -- about to placement-new
  | store (v : α) (next : Nat)              -- about to publish

/-- Consumer program counter. -/
inductive CPc (α : Type) where
  | idle
  | start (op : COp)
  | gotR (op : COp) (r : Nat)               -- own `read` loaded
  | copy (r : Nat)                          -- front(value): about to copy
  | move (r next : Nat)                     -- pop(value): about to move out
  | destroy (v : Option α) (r next : Nat)   -- about to destroy
  | store (v : Option α) (next : Nat)       -- about to publish

/-- Observable results of API calls, in order of completion. -/
inductive Ev (α : Type) where
  | pushed (v : α)        -- push returned true
  | pushFull (v : α)      -- push returned false
  | popped (v : α)        -- pop(value) returned true
  | discarded             -- pop() returned true
  | popEmpty              -- pop returned false
  | front (v : α) | frontEmpty
  | pFull (b : Bool) | cEmpty (b : Bool)
  | pSize (n : Nat) | cSize (n : Nat)

structure St (α : Type) where
  reserved : Nat
  slot  : Nat → Slot α
  write : List Msg      -- modification order of `write`
  read  : List Msg      -- modification order of `read`
  p     : Thr
  ppc   : PPc α
  c     : Thr
  cpc   : CPc α
  trace : List (Ev α)   -- completed calls, oldest first

variable {α : Type}

/-- Constructors: queue_spsc_atomic.h l.130-135 (write=0, read=0, Reserved), l.535, l.548-551, l.564 (`Reserved_Size = Size + 1`, raw storage). -/
def init (size : Nat) : St α where
  reserved := size + 1
  slot  := fun _ => ⟨none, 0, 0⟩
  write := [⟨0, 0⟩]
  read  := [⟨0, 0⟩]
  p     := ⟨0, 0, 0⟩
  ppc   := .idle
  c     := ⟨0, 0, 0⟩
  cpc   := .idle
  trace := []

/-- `get_next_index`, l.140-150. -/
def nextIndex (index maximum : Nat) : Nat :=
  let index := index + 1
  if index = maximum then 0 else index

/-- Latest value of an atomic (what its only storing thread reads back). -/
def latest (h : List Msg) : Nat := (h.getLast?.map Msg.val).getD 0

/-- Load of the other thread's atomic: `k` picks how stale the result is (any message from `ts` on). -/
def load (o : Order) (h : List Msg) (t : Thr) (k : Nat) : Nat × Thr :=
  let i := min (t.ts + k) (h.length - 1)
  let m := h.getD i ⟨0, 0⟩
  (m.val, { t with ts := i, known := if o = .acquire then max t.known m.clk else t.known })

/-- Store to the own atomic. -/
def storeMsg (o : Order) (h : List Msg) (t : Thr) (v : Nat) : List Msg :=
  h ++ [⟨v, if o = .release then t.clock else 0⟩]

/-- `size()`, l.84-101, from the two loaded indices. -/
def sizeOf (reserved w r : Nat) : Nat :=
  if w ≥ r then w - r else reserved - r + w

/-- A producer access to slot `i`: bounds, race check, then `f` on the object. -/
def accessP (s : St α) (i : Nat) (f : Option α → Res (Option α × β)) : Res (St α × β) :=
  if i < s.reserved then
    if (s.slot i).accC ≤ s.p.known then
      match f (s.slot i).obj with
      | .ok (o, b) =>
        let clk := s.p.clock + 1
        .ok ({ s with slot := upd s.slot i { (s.slot i) with obj := o, accP := clk }
                      p := { s.p with clock := clk } }, b)
      | .error e => .error e
    else .error .dataRace
  else .error .outOfBounds

/-- A consumer access to slot `i`. -/
def accessC (s : St α) (i : Nat) (f : Option α → Res (Option α × β)) : Res (St α × β) :=
  if i < s.reserved then
    if (s.slot i).accP ≤ s.c.known then
      match f (s.slot i).obj with
      | .ok (o, b) =>
        let clk := s.c.clock + 1
        .ok ({ s with slot := upd s.slot i { (s.slot i) with obj := o, accC := clk }
                      c := { s.c with clock := clk } }, b)
      | .error e => .error e
    else .error .dataRace
  else .error .outOfBounds

/-- placement new: only into raw storage -/
def construct (v : α) : Option α → Res (Option α × Unit)
  | none => .ok (some v, ())
  | some _ => .error .constructLive

/-- copy out of a live object -/
def copyOut : Option α → Res (Option α × α)
  | some v => .ok (some v, v)
  | none => .error .deadAccess

/-- explicit destructor call -/
def destroyObj : Option α → Res (Option α × Unit)
  | some _ => .ok (none, ())
  | none => .error .deadAccess

def emit (s : St α) (e : Ev α) : St α := { s with trace := s.trace ++ [e] }

/-- One micro-step of the producer.  `push`: l.210-226 (and l.232-248, `emplace` l.256-384);
    `full`: l.73-78; `size`: l.84-101. -/
def stepP (s : St α) (k : Nat) : Res (St α) :=
  match s.ppc with
  | .idle => .ok s
  -- size_type write_index = write.load(relaxed);
  | .start op => .ok { s with ppc := .gotW op (latest s.write) }
  | .gotW (.push v) w =>
    -- if (next_index != read.load(acquire))
    let next := nextIndex w s.reserved
    let (r, p) := load .acquire s.read s.p k
    let s := { s with p := p }
    if next ≠ r then .ok { s with ppc := .construct v w next }
    else .ok (emit { s with ppc := .idle } (.pushFull v))
  | .construct v w next => do
    -- ::new (&p_buffer[write_index]) T(value);
    let (s, _) ← accessP s w (construct v)
    .ok { s with ppc := .store v next }
  | .store v next =>
    -- write.store(next_index, release); return true;
    .ok (emit { s with write := storeMsg .release s.write s.p next, ppc := .idle } (.pushed v))
  | .gotW .full w =>
    let (r, p) := load .acquire s.read s.p k
    .ok (emit { s with p := p, ppc := .idle } (.pFull (nextIndex w s.reserved == r)))
  | .gotW .size w =>
    let (r, p) := load .acquire s.read s.p k
    .ok (emit { s with p := p, ppc := .idle } (.pSize (sizeOf s.reserved w r)))

/-- One micro-step of the consumer.  `front(value)`: l.393-406; `pop(value)`: l.411-434; `pop()`: l.439-457;
    `empty`: l.63-66; `size`: l.84-101. -/
def stepC (s : St α) (k : Nat) : Res (St α) :=
  match s.cpc with
  | .idle => .ok s
  -- size_type read_index = read.load(relaxed);
  | .start op => .ok { s with cpc := .gotR op (latest s.read) }
  | .gotR .pop r =>
    -- if (read_index == write.load(acquire)) return false;
    let (w, c) := load .acquire s.write s.c k
    let s := { s with c := c }
    if r = w then .ok (emit { s with cpc := .idle } .popEmpty)
    else .ok { s with cpc := .move r (nextIndex r s.reserved) }
  | .gotR .popDiscard r =>
    let (w, c) := load .acquire s.write s.c k
    let s := { s with c := c }
    if r = w then .ok (emit { s with cpc := .idle } .popEmpty)
    else .ok { s with cpc := .destroy none r (nextIndex r s.reserved) }
  | .gotR .front r =>
    let (w, c) := load .acquire s.write s.c k
    let s := { s with c := c }
    if r = w then .ok (emit { s with cpc := .idle } .frontEmpty)
    else .ok { s with cpc := .copy r }
  | .gotR .empty r =>
    let (w, c) := load .acquire s.write s.c k
    .ok (emit { s with c := c, cpc := .idle } (.cEmpty (r == w)))
  | .gotR .size r =>
    let (w, c) := load .acquire s.write s.c k
    .ok (emit { s with c := c, cpc := .idle } (.cSize (sizeOf s.reserved w r)))
  | .copy r => do
    -- value = p_buffer[read_index]; return true;
    let (s, v) ← accessC s r copyOut
    .ok (emit { s with cpc := .idle } (.front v))
  | .move r next => do
    -- value = etl::move(p_buffer[read_index]);
    let (s, v) ← accessC s r copyOut
    .ok { s with cpc := .destroy (some v) r next }
  | .destroy v r next => do
    -- p_buffer[read_index].~T();
    let (s, _) ← accessC s r destroyObj
    .ok { s with cpc := .store v next }
  | .store v next =>
    -- read.store(next_index, release); return true;
    .ok (emit { s with read := storeMsg .release s.read s.c next, cpc := .idle }
      (match v with | some v => .popped v | none => .discarded))

/-- Scheduler actions: a thread that is idle starts a call, or a thread makes one micro-step
    (with the staleness choice `k` for a load).  Starting a call on a busy thread does nothing. -/
inductive Act (α : Type) where
  | startP (op : POp α)
  | startC (op : COp)
  | stepP (k : Nat)
  | stepC (k : Nat)

def step (s : St α) : Act α → Res (St α)
  | .startP op => match s.ppc with
    | .idle => .ok { s with ppc := .start op }
    | _ => .ok s
  | .startC op => match s.cpc with
    | .idle => .ok { s with cpc := .start op }
    | _ => .ok s
  | .stepP k => stepP s k
  | .stepC k => stepC s k

/-- Run a schedule. -/
def run (s : St α) : List (Act α) → Res (St α)
  | [] => .ok s
  | a :: as => do
    let s ← step s a
    run s as

end Etl.Spsc
