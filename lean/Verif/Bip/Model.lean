import Verif.Common.Res

/-!
# Model of `etl::bip_buffer_spsc_atomic` under release/acquire memory

Source: `/repo/include/etl/bip_buffer_spsc_atomic.h`.

Two threads: the writer (`write_reserve`, `write_reserve_optimal`, `write_commit`) and the reader (`read_reserve`, `read_commit`).  Every load of the other thread's atomics, every store, and every access to a slot of the buffer is one
micro-step; the steps of the two threads interleave arbitrarily.  (The load of the own index is done with the next step: nobody else stores to it.)

Memory model, as for `queue_spsc_atomic`: each atomic has its modification order (messages, numbered from 0).  A load may return any message that is not older than one the thread has already read or must have seen: stale values are
possible.  A `release` store carries the number of slot accesses of the storing thread and, for `write`, the number of the newest message of `last`; an `acquire` load joins both into the knowledge of the loading thread; a `relaxed` load does not.
A slot access that conflicts with an access of the other thread that is not known to happen before it is a data race.

Between reserve and commit the user reads or writes slots inside of the reserve.  A commit may be trimmed.  `lap` in the messages is a ghost: it counts how often the index wrapped, and is never read by the code.
Arithmetic of the index type is modulo `M`, wherever the operands can be large.  (For an 8 or 16 bit `size_type` the sums are computed in `int` and `M` is larger than all of them.)
`fixed` is false for the code as it is.  With `fixed` the branch that wraps stores `last` first, as it should: see the finding in `Props`.
Not modelled: `size`, `available`, `clear` and the destructor (no concurrent access); construction and destruction of the elements is done by the user.
-/
namespace Etl.Bip

/-- One store in the modification order of an atomic: the value, the slot accesses of the storing thread that happen before, the newest message of `last`, and the ghost. -/
structure Msg where
  val : Nat
  clk : Nat
  aux : Nat
  lap : Nat
/-- an atomic: the messages 0 to `n` -/
structure Atom where
  n : Nat
  m : Nat → Msg
def Atom.top (a : Atom) : Msg := a.m a.n
def Atom.store (a : Atom) (x : Msg) : Atom := ⟨a.n + 1, upd a.m (a.n + 1) x⟩
/-- a load: `k` says how new the message is -/
def Atom.pick (a : Atom) (ts k : Nat) : Nat := min (ts + k) a.n

/-- the writer -/
inductive WPc where
  | idle
  | reserving (n fallback : Nat)
  | holding (i n : Nat)
  | committing (i n : Nat)
  | storeLast (v i n lap : Nat)
  | storeWrite (i n lap : Nat)
/-- why the reader looks at the indices -/
inductive Why where
  | reserve (max : Nat)
  | commit (i n : Nat)
/-- the reader -/
inductive RPc where
  | idle
  | loading (y : Why)
  | gotWrite (y : Why) (wv : Nat)
  | holding (i n : Nat)
  | storeRead (i n lap : Nat)
/-- what has happened: a region was committed by the writer (first index, values), by the reader, or a commit was refused with `bip_buffer_reserve_invalid` -/
inductive Ev (α : Type) where
  | wrote (i : Nat) (vs : List α)
  | took (i : Nat) (vs : List α)
  | refused

structure St (α : Type) where
  cap : Nat
  M : Nat
  fixed : Bool
  slot : Nat → α
  accP : Nat → Nat      -- clock of the writer's last access to the slot
  accC : Nat → Nat      -- clock of the reader's last access to the slot
  write : Atom
  read : Atom
  last : Atom
  pclock : Nat          -- slot accesses of the writer so far
  pknown : Nat          -- slot accesses of the reader known to happen before
  pts : Nat             -- newest message of `read` seen by the writer
  cclock : Nat
  cknown : Nat
  cts : Nat             -- newest message of `write` seen by the reader
  clts : Nat            -- oldest message of `last` that the reader may still see
  wpc : WPc
  rpc : RPc
  stale : Bool          -- ghost: the writer has wrapped while `last` was not the end of the data
  trace : List (Ev α)

variable {α : Type}

/-- constructors, l.181-187, l.517-520 -/
def init (cap M : Nat) (fixed : Bool) (a : α) : St α where
  cap := cap
  M := M
  fixed := fixed
  slot := fun _ => a
  accP := fun _ => 0
  accC := fun _ => 0
  write := ⟨0, fun _ => ⟨0, 0, 0, 0⟩⟩
  read := ⟨0, fun _ => ⟨0, 0, 0, 0⟩⟩
  last := ⟨0, fun _ => ⟨0, 0, 0, 0⟩⟩
  pclock := 0
  pknown := 0
  pts := 0
  cclock := 0
  cknown := 0
  cts := 0
  clts := 0
  wpc := .idle
  rpc := .idle
  stale := false
  trace := []

/-- `get_write_reserve`, l.198-252: the index and the size, from the two indices -/
def writeReserve (cap M w r n fallback : Nat) : Nat × Nat :=
  if w ≥ r then
    if n ≤ cap - w then (w, n)
    else if r ≤ (cap - w + 1) % M ∨ fallback ≤ cap - w then (w, cap - w)
    else (0, if n ≥ r then (if r > 0 then r - 1 else 0) else n)
  else (w, if (w + n) % M ≥ r then r - w - 1 else n)
/-- `get_read_reserve`, l.286-320, from the own index, `write` and `last`: the index and the available size -/
def readReserve (M r w l : Nat) : Nat × Nat :=
  if r > w then (if r = l then (0, w) else (r, (l + M - r) % M)) else (r, (w + M - r) % M)
/-- the values of a region -/
def region (slot : Nat → α) (i n : Nat) : List α := (List.range' i n).map slot

/-- what the threads do -/
inductive Act (α : Type) where
  | wReserve (n fallback : Nat)   -- write_reserve (fallback: the largest number), write_reserve_optimal (n: the largest number)
  | wPut (j : Nat) (v : α)        -- write element j of the reserve
  | wCommit (n : Nat)             -- write_commit of the first n elements of the reserve
  | wStep (k : Nat)
  | rReserve (max : Nat)
  | rLook (j : Nat)               -- read element j of the reserve
  | rCommit (n : Nat)
  | rStep (k : Nat)

/-- the writer sees message `j` of `read` (acquire) -/
def seeRead (s : St α) (j : Nat) : St α := { s with pts := j, pknown := max s.pknown (s.read.m j).clk }
/-- the reader sees message `j` of `write` (acquire) -/
def seeWrite (s : St α) (j : Nat) : St α := { s with cts := j, cknown := max s.cknown (s.write.m j).clk, clts := max s.clts (s.write.m j).aux }

/-- the decision of `apply_write_reserve`, l.255-281, after the loads; `r` is the value of `read` -/
def applyWrite (s : St α) (r i n : Nat) : St α :=
  if s.write.top.val < r then
    if i = s.write.top.val ∧ (n + 1) % s.M ≤ r then { s with wpc := .storeWrite i n s.write.top.lap }
    else { s with wpc := .idle, trace := s.trace ++ [.refused] }
  else if i = s.write.top.val then
    if n ≤ s.cap - s.write.top.val then { s with wpc := .storeLast (i + n) i n s.write.top.lap }
    else { s with wpc := .idle, trace := s.trace ++ [.refused] }
  else if i = 0 ∧ (n + 1) % s.M ≤ r then
    if s.fixed then { s with wpc := .storeLast s.write.top.val i n (s.write.top.lap + 1) }
    else { s with wpc := .storeWrite i n (s.write.top.lap + 1), stale := s.stale || decide (s.last.top.val ≠ s.write.top.val) }
  else { s with wpc := .idle, trace := s.trace ++ [.refused] }
/-- a step of the writer inside of a call: `get_write_reserve`, l.198-252, `apply_write_reserve`, l.255-281 -/
def stepW (s : St α) (k : Nat) : St α := match s.wpc with
  | .idle => s
  | .holding _ _ => s
  | .reserving n fb =>
    let s := seeRead s (s.read.pick s.pts k)
    let g := writeReserve s.cap s.M s.write.top.val (s.read.m s.pts).val n fb
    { s with wpc := .holding g.1 g.2 }
  | .committing i n => let s := seeRead s (s.read.pick s.pts k); applyWrite s (s.read.m s.pts).val i n
  | .storeLast v i n lap => { s with last := s.last.store ⟨v, s.pclock, 0, 0⟩, wpc := .storeWrite i n lap }
  | .storeWrite i n lap => { s with write := s.write.store ⟨i + n, s.pclock, s.last.n, lap⟩, wpc := .idle, trace := s.trace ++ [.wrote i (region s.slot i n)] }
/-- the decision of the reader: `get_read_reserve`, l.286-320, and the check of `apply_read_reserve`, l.323-332; `l` is the value of `last`, if it is read -/
def applyRead (s : St α) (wv l : Nat) : Why → St α
  | .reserve max =>
    let g := readReserve s.M s.read.top.val wv l
    { s with rpc := .holding g.1 (if g.2 < max then g.2 else max) }
  | .commit i n =>
    let g := readReserve s.M s.read.top.val wv l
    if i = g.1 ∧ n = (if g.2 < n then g.2 else n) then { s with rpc := .storeRead i n (if s.read.top.val > wv ∧ s.read.top.val = l then s.read.top.lap + 1 else s.read.top.lap) }
    else { s with rpc := .idle, trace := s.trace ++ [.refused] }
/-- a step of the reader inside of a call; `last` is loaded relaxed, and only if the writer has wrapped -/
def stepR (s : St α) (k : Nat) : St α := match s.rpc with
  | .idle => s
  | .holding _ _ => s
  | .loading y => let s := seeWrite s (s.write.pick s.cts k); { s with rpc := .gotWrite y (s.write.m s.cts).val }
  | .gotWrite y wv =>
    if s.read.top.val > wv then
      let j := s.last.pick s.clts k
      applyRead { s with clts := j } wv (s.last.m j).val y
    else applyRead s wv 0 y
  | .storeRead i n lap => { s with read := s.read.store ⟨i + n, s.cclock, 0, lap⟩, rpc := .idle, trace := s.trace ++ [.took i (region s.slot i n)] }

/-- one action.  An action that is not possible in the state (an access outside of the reserve, a commit without one, a call inside of a call) is none. -/
def step (s : St α) : Act α → Res (St α)
  | .wReserve n fb => match s.wpc with
    | .idle => .ok { s with wpc := .reserving n fb }
    | .holding _ _ => .ok { s with wpc := .reserving n fb }
    | _ => .ok s
  | .wPut j v => match s.wpc with
    | .holding i n => if j < n then
        (if i + j < s.cap then
          (if s.accC (i + j) ≤ s.pknown then .ok { s with slot := upd s.slot (i + j) v, accP := upd s.accP (i + j) (s.pclock + 1), pclock := s.pclock + 1 }
           else .error .dataRace)
         else .error .outOfBounds)
      else .ok s
    | _ => .ok s
  | .wCommit n => match s.wpc with
    | .holding i m => if n ≤ m then (if n > 0 then .ok { s with wpc := .committing i n } else .ok { s with wpc := .idle }) else .ok s
    | _ => .ok s
  | .wStep k => .ok (stepW s k)
  | .rReserve max => match s.rpc with
    | .idle => .ok { s with rpc := .loading (.reserve max) }
    | .holding _ _ => .ok { s with rpc := .loading (.reserve max) }
    | _ => .ok s
  | .rLook j => match s.rpc with
    | .holding i n => if j < n then
        (if i + j < s.cap then
          (if s.accP (i + j) ≤ s.cknown then .ok { s with accC := upd s.accC (i + j) (s.cclock + 1), cclock := s.cclock + 1 }
           else .error .dataRace)
         else .error .outOfBounds)
      else .ok s
    | _ => .ok s
  | .rCommit n => match s.rpc with
    | .holding i m => if n ≤ m then (if n > 0 then .ok { s with rpc := .loading (.commit i n) } else .ok { s with rpc := .idle }) else .ok s
    | _ => .ok s
  | .rStep k => .ok (stepR s k)
def run (s : St α) : List (Act α) → Res (St α)
  | [] => .ok s
  | a :: as => match step s a with
    | .error e => .error e
    | .ok s => run s as

end Etl.Bip
