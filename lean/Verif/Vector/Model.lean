import Verif.Common.Mem

/-!
# Model of `etl::vector` / `etl::ivector`

Source: `/repo/include/etl/vector.h`.  Storage: `Mem` (raw storage with object lifetimes), `p_end - p_buffer` is `n`.
Iterators are indices.  `check` = `ETL_CHECK_PUSH_POP`, `debug` = `ETL_IS_DEBUG_BUILD` (both only enable more checks).
Simplifications: a failed `ETL_ASSERT`/`ETL_ASSERT_OR_RETURN` throws; copying/moving `T` does not throw; values passed in live outside the vector
(except in `insertAlias`); `emplace(args...)` receives the value that `T(args...)` builds; debug counters are left out.
-/
namespace Etl.Vector

variable {α : Type}

structure St (α : Type) where
  mem : Mem α
  n : Nat           -- p_end - p_buffer
  check : Bool
  debug : Bool

inductive Err where
  | full | empty | outOfBounds
  deriving DecidableEq, Repr

/-- Constructor, l.1022-1027 and l.1216-1220. -/
def init (cap : Nat) (sms check debug : Bool) : St α := { mem := Mem.fresh cap sms, n := 0, check, debug }

/-- `size` l.978, `empty` l.987, `full` l.996, `available` l.1005, `capacity`/`max_size` (vector_base). -/
def size (s : St α) : Nat := s.n
def empty (s : St α) : Bool := s.n == 0
def full (s : St α) : Bool := s.n == s.mem.cap
def available (s : St α) : Nat := s.mem.cap - s.n

/-- `initialise`, l.1032-1038. -/
def initialise (s : St α) : Res (St α) := do
  let m ← s.mem.destroyN 0 s.n
  .ok { s with mem := m, n := 0 }

/-- `create_back(value)`, l.1069-1075. -/
def createBack (s : St α) (v : α) : Res (St α) := do
  let m ← s.mem.construct s.n v
  .ok { s with mem := m, n := s.n + 1 }

/-- `destroy_back`, l.1093-1099. -/
def destroyBack (s : St α) : Res (St α) :=
  if s.n = 0 then .error .outOfBounds   -- --p_end would leave the buffer
  else do
    let m ← s.mem.destroy (s.n - 1)
    .ok { s with mem := m, n := s.n - 1 }


/-- `resize(new_size, value)`, l.222-241. -/
def resize (s : St α) (newSize : Nat) (v : α) : Res (St α × Option Err) :=
  if newSize ≤ s.mem.cap then do
    let cur := s.n
    let delta := if cur < newSize then newSize - cur else cur - newSize
    let m ← if cur < newSize then s.mem.fillNew s.n delta v else s.mem.destroyN (s.n - delta) delta
    .ok ({ s with mem := m, n := newSize }, none)
  else .ok (s, some .full)

/-- `assign(first, last)`, l.381-396; copy constructor / `operator =`, l.1272-1288. -/
def assignRange (s : St α) (vs : List α) : Res (St α × Option Err) :=
  if s.debug && !(decide (vs.length ≤ s.mem.cap)) then .ok (s, some .full)
  else do
    let s ← initialise s
    let m ← s.mem.copyNew 0 vs
    .ok ({ s with mem := m, n := vs.length }, none)

/-- `assign(n, value)`, l.404-412. -/
def assignN (s : St α) (k : Nat) (v : α) : Res (St α × Option Err) :=
  if k ≤ s.mem.cap then do
    let s ← initialise s
    let m ← s.mem.fillNew 0 k v
    .ok ({ s with mem := m, n := k }, none)
  else .ok (s, some .full)

/-- `clear`, l.417-420. -/
def clear (s : St α) : Res (St α × Option Err) := do .ok (← initialise s, none)

/-- `fill`, l.425-428. -/
def fill (s : St α) (v : α) : Res (St α × Option Err) := do
  let m ← s.mem.fillN 0 s.n v
  .ok ({ s with mem := m }, none)

/-- `push_back`, l.435-456 and `emplace_back`, l.465-474. -/
def pushBack (s : St α) (v : α) : Res (St α × Option Err) :=
  if s.check && (s.n == s.mem.cap) then .ok (s, some .full)
  else do .ok (← createBack s v, none)

/-- `pop_back`, l.565-571. -/
def popBack (s : St α) : Res (St α × Option Err) :=
  if s.check && (s.n == 0) then .ok (s, some .empty)
  else do .ok (← destroyBack s, none)

/-- Opening a gap for one element: `create_back(back()); move_backward(position, p_end - 2, p_end - 1)`, l.591-592. -/
def openGap (s : St α) (p : Nat) : Res (St α) := do
  let b ← s.mem.read (s.n - 1)
  let s ← createBack s b
  let m ← s.mem.moveDown (s.n - 2 - p) (s.n - 2) (s.n - 1)
  .ok { s with mem := m }

/-- The same with `create_back(etl::move(back()))`, l.618-619. -/
def openGapMove (s : St α) (p : Nat) : Res (St α) := do
  let (b, m) ← s.mem.take (s.n - 1)
  let s ← createBack { s with mem := m } b
  let m ← s.mem.moveDown (s.n - 2 - p) (s.n - 2) (s.n - 1)
  .ok { s with mem := m }

/-- `insert(position, const T&)`, l.579-597. -/
def insert (s : St α) (p : Nat) (v : α) : Res (St α × Option Err) :=
  if s.n == s.mem.cap then .ok (s, some .full)
  else if p = s.n then do .ok (← createBack s v, none)
  else do
    let s ← openGap s p
    let m ← s.mem.assign p v
    .ok ({ s with mem := m }, none)

/-- `insert(position, T&&)`, l.606-624. -/
def insertMove (s : St α) (p : Nat) (v : α) : Res (St α × Option Err) :=
  if s.n == s.mem.cap then .ok (s, some .full)
  else if p = s.n then do .ok (← createBack s v, none)
  else do
    let s ← openGapMove s p
    let m ← s.mem.assign p v
    .ok ({ s with mem := m }, none)

/-- `emplace(position, args...)`, l.632-656. -/
def emplace (s : St α) (p : Nat) (v : α) : Res (St α × Option Err) :=
  if full s then .ok (s, some .full)
  else if p = s.n then do
    let m ← s.mem.construct s.n v
    .ok ({ s with mem := m, n := s.n + 1 }, none)
  else do
    let s ← openGap s p
    let m ← s.mem.destroy p
    let m ← m.construct p v
    .ok ({ s with mem := m }, none)

/-- `insert(position, n, value)`, l.774-820. -/
def insertN (s : St α) (p k : Nat) (v : α) : Res (St α × Option Err) :=
  if s.n + k ≤ s.mem.cap then do
    let insertEnd := p + k
    let copyOld := if insertEnd > s.n then 0 else s.n - p - k
    let constructOld := if insertEnd > s.n then s.n - p else k
    let pConstructOld := if insertEnd > s.n then insertEnd else s.n
    let copyNew := constructOld
    let constructNew := k - copyNew
    -- Construct old.
    let m ← s.mem.moveNew (s.n - constructOld) constructOld pConstructOld
    -- Copy old.
    let m ← m.moveDown copyOld (p + copyOld) (insertEnd + copyOld)
    -- Construct new.
    let m ← m.fillNew s.n constructNew v
    -- Copy new.
    let m ← m.fillN p copyNew v
    .ok ({ s with mem := m, n := s.n + k }, none)
  else .ok (s, some .full)

/-- `insert(position, first, last)`, l.831-877. -/
def insertRange (s : St α) (p : Nat) (vs : List α) : Res (St α × Option Err) :=
  let k := vs.length
  if s.n + k ≤ s.mem.cap then do
    let insertEnd := p + k
    let copyOld := if insertEnd > s.n then 0 else s.n - p - k
    let constructOld := if insertEnd > s.n then s.n - p else k
    let pConstructOld := if insertEnd > s.n then insertEnd else s.n
    let copyNew := constructOld
    -- Move construct old.
    let m ← s.mem.moveNew (s.n - constructOld) constructOld pConstructOld
    -- Move old.
    let m ← m.moveDown copyOld (p + copyOld) (insertEnd + copyOld)
    -- Copy construct new.
    let m ← m.copyNew s.n (vs.drop copyNew)
    -- Copy new.
    let m ← m.copyTo p (vs.take copyNew)
    .ok ({ s with mem := m, n := s.n + k }, none)
  else .ok (s, some .full)

/-- `erase(i_element)`, l.884-905. -/
def erase (s : St α) (p : Nat) : Res (St α × Option Err) := do
  let m ← s.mem.moveUp (p + 1) (s.n - (p + 1)) p
  .ok (← destroyBack { s with mem := m }, none)

/-- `erase(first, last)`, l.915-936. -/
def eraseRange (s : St α) (a b : Nat) : Res (St α × Option Err) :=
  if a = 0 ∧ b = s.n then clear s
  else do
    let m ← s.mem.moveUp b (s.n - b) a
    let nDelete := b - a
    let m ← m.destroyN (s.n - nDelete) nDelete
    .ok ({ s with mem := m, n := s.n - nDelete }, none)

/-- Move construction / move assignment: `push_back(etl::move(*itr))` for every element of the source, then the source is
    `initialise`d, l.955-971, l.1295-1333.  Returns target and source. -/
def pushAll (s : St α) (src : Mem α) (i : Nat) : Nat → Res (St α × Mem α × Option Err)
  | 0 => .ok (s, src, none)
  | k + 1 => do
    let v ← src.read i
    match ← pushBack s v with
    | (s, some e) => .ok (s, src, some e)
    | (s, none) => pushAll s (src.set i .moved) (i + 1) k

def moveAssign (s src : St α) : Res (St α × St α × Option Err) := do
  let s ← initialise s
  match ← pushAll s src.mem 0 src.n with
  | (s, sm, some e) => .ok (s, { src with mem := sm }, some e)
  | (s, sm, none) => do
    let src ← initialise { src with mem := sm }
    .ok (s, src, none)

/-- `at`, l.302-306. -/
def atIdx (s : St α) (i : Nat) : Res (Except Err α) :=
  if i < s.n then do .ok (.ok (← s.mem.read i)) else .ok (.error .outOfBounds)
/-- `operator []` l.281, `front` l.324, `back` l.342 (unchecked). -/
def index (s : St α) (i : Nat) : Res α := s.mem.read i
def front (s : St α) : Res α := s.mem.read 0
def back (s : St α) : Res α := if s.n = 0 then .error .outOfBounds else s.mem.read (s.n - 1)
/-- Iterating from `begin()` to `end()`. -/
def contents (s : St α) : Res (List α) := s.mem.readN 0 s.n

/-- `insert(position, value)` where `value` is a reference to element `k` of this very vector: it is read only when assigned, l.593. -/
def insertAlias (s : St α) (p k : Nat) : Res (St α × Option Err) :=
  if s.n == s.mem.cap then .ok (s, some .full)
  else if p = s.n then do
    let v ← s.mem.read k
    .ok (← createBack s v, none)
  else do
    let s ← openGap s p
    let v ← s.mem.read k
    let m ← s.mem.assign p v
    .ok ({ s with mem := m }, none)

inductive Op (α : Type) where
  | resize (k : Nat) (v : α) | assignRange (vs : List α) | assignN (k : Nat) (v : α) | clear | fill (v : α)
  | pushBack (v : α) | popBack | insert (p : Nat) (v : α) | insertMove (p : Nat) (v : α) | emplace (p : Nat) (v : α)
  | insertN (p k : Nat) (v : α) | insertRange (p : Nat) (vs : List α) | erase (p : Nat) | eraseRange (a b : Nat)

def step (s : St α) : Op α → Res (St α × Option Err)
  | .resize k v => resize s k v
  | .assignRange vs => assignRange s vs
  | .assignN k v => assignN s k v
  | .clear => clear s
  | .fill v => fill s v
  | .pushBack v => pushBack s v
  | .popBack => popBack s
  | .insert p v => insert s p v
  | .insertMove p v => insertMove s p v
  | .emplace p v => emplace s p v
  | .insertN p k v => insertN s p k v
  | .insertRange p vs => insertRange s p vs
  | .erase p => erase s p
  | .eraseRange a b => eraseRange s a b

def run (s : St α) : List (Op α) → Res (St α × List (Option Err))
  | [] => .ok (s, [])
  | o :: os => do
    let (s, e) ← step s o
    let (s, es) ← run s os
    .ok (s, e :: es)

end Etl.Vector
