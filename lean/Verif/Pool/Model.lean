import Verif.Common.Res

/-!
# Model of `etl::ipool` (and `generic_pool`, `pool`, which only fix its template parameters)

Source: `/repo/include/etl/ipool.h`, `/repo/include/etl/generic_pool.h`.

Addresses are natural numbers, `null` is `none`.  The free list is threaded through the memory of the items:
`mem a` is the pointer-sized word stored at address `a` (`Element` is a union with `char* next`, generic_pool.h l.180-185, so every
item can hold one).  An item handed to the client may be overwritten at will (`Op.scribble`).

Simplifications: `uint32_t` counters are `Nat` (they never exceed `Max_Size`); `items_initialised * Item_Size` is assumed not to overflow
`uint32_t` (buffer below 4 GiB).  Failed `ETL_ASSERT` throws.  Object construction/destruction inside `create`/`destroy` is not part of the state.
-/
namespace Etl.Pool

structure St where
  base      : Nat              -- p_buffer
  itemSize  : Nat              -- Item_Size
  max       : Nat              -- Max_Size
  debug     : Bool             -- ETL_IS_DEBUG_BUILD (alignment check in is_item_in_pool)
  next      : Option Nat       -- p_next
  allocated : Nat              -- items_allocated
  initialised : Nat            -- items_initialised
  mem       : Nat → Option Nat -- pointer words stored in memory

inductive Err where
  | noAllocation | notInPool | elementSize
  deriving DecidableEq, Repr

inductive Op where
  | alloc (sz : Nat)                  -- allocate<T>() with sizeof(T) = sz
  | release (p : Nat)                 -- release(p)
  | releaseAll
  | scribble (p : Nat) (v : Option Nat)  -- the client writes into an item it owns

inductive Out where
  | addr (a : Option Nat)  -- pointer returned
  | done
  | throw (e : Err)

/-- Constructor, ipool.h l.329-337; `debug`, `base`: build configuration and placement of the buffer. -/
def init (base itemSize max : Nat) (debug : Bool) (mem : Nat → Option Nat) : St :=
  { base, itemSize, max, debug, next := some base, allocated := 0, initialised := 0, mem }

/-- Is `a` the address of one of the items?  (bounds check of the memory model, not code) -/
def isItem (s : St) (a : Nat) : Bool :=
  s.base ≤ a && (a - s.base) % s.itemSize == 0 && (a - s.base) / s.itemSize < s.max

/-- `*reinterpret_cast<char**>(p)` -/
def readPtr (s : St) (p : Option Nat) : Res (Option Nat) :=
  match p with
  | none => .error .nullDeref
  | some a => if isItem s a then .ok (s.mem a) else .error .outOfBounds

/-- `*reinterpret_cast<char**>(p) = v` -/
def writePtr (s : St) (a : Nat) (v : Option Nat) : Res St :=
  if isItem s a then .ok { s with mem := upd s.mem a v } else .error .outOfBounds

/-- Lazy initialisation of one more item, ipool.h l.351-358. -/
def initialiseOne (s : St) : Res St :=
  if s.initialised < s.max then do
    let p := s.base + s.initialised * s.itemSize
    let np := p + s.itemSize
    let s ← writePtr s p (some np)
    .ok { s with initialised := s.initialised + 1 }
  else .ok s

/-- `allocate_item`, ipool.h l.344-381. -/
def allocateItem (s : St) : Res (St × Out) :=
  -- Any free space left?
  if s.allocated < s.max then do
    -- Initialise another one if necessary.
    let s ← initialiseOne s
    -- Get the address of new allocated item.
    let value := s.next
    let s := { s with allocated := s.allocated + 1 }
    let s ← if s.allocated < s.max then do
        let n ← readPtr s s.next
        .ok { s with next := n }
      else .ok { s with next := none }
    .ok (s, .addr value)
  else .ok (s, .throw .noAllocation)

/-- `allocate<T>`, l.113-121. -/
def allocate (s : St) (sz : Nat) : Res (St × Out) :=
  if sz > s.itemSize then .ok (s, .throw .elementSize) else allocateItem s

/-- `is_item_in_pool`, l.409-424.  `Item_Size * Max_Size - Item_Size` is computed in `uint32_t`; for `Max_Size ≥ 1` it does not wrap. -/
def isItemInPool (s : St) (p : Nat) : Bool :=
  let distance : Int := (p : Int) - (s.base : Int)
  let isWithinRange := decide (distance ≥ 0) && decide (distance ≤ ((s.itemSize * s.max - s.itemSize : Nat) : Int))
  let isValidAddress := if s.debug then decide (distance % (s.itemSize : Int) = 0) else true
  isWithinRange && isValidAddress

/-- `release_item`, l.386-404. -/
def releaseItem (s : St) (p : Nat) : Res (St × Out) :=
  if isItemInPool s p then
    if s.allocated > 0 then do
      -- Point it to the current free item.
      let s ← writePtr s p s.next
      .ok ({ s with next := some p, allocated := s.allocated - 1 }, .done)
    else .ok (s, .throw .noAllocation)
  else .ok (s, .throw .notInPool)

/-- `release_all`, l.248-253. -/
def releaseAll (s : St) : St :=
  { s with allocated := 0, initialised := 0, next := some s.base }

/-- `size`/`available`/`capacity`/`empty`/`full`, l.285-322. -/
def size (s : St) : Nat := s.allocated
def available (s : St) : Nat := s.max - s.allocated
def empty (s : St) : Bool := s.allocated == 0
def full (s : St) : Bool := s.allocated == s.max

def step (s : St) : Op → Res (St × Out)
  | .alloc sz => allocate s sz
  | .release p => releaseItem s p
  | .releaseAll => .ok (releaseAll s, .done)
  | .scribble p v => do
    let s ← writePtr s p v
    .ok (s, .done)

end Etl.Pool
