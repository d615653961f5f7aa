import Verif.Common.FwLinks

/-!
# Model of `etl::intrusive_stack` and `etl::intrusive_queue`

Sources: `/repo/include/etl/intrusive_stack.h`, `/repo/include/etl/intrusive_queue.h`, `/repo/include/etl/intrusive_links.h` (`forward_link`, l.87-140).

Any number of stacks and queues over one heap of links.  Addresses: null is 0; the `terminator` of container `c` is `2c+1`; the user's items are the positive even
numbers.  `check` = `ETL_CHECK_PUSH_POP`; `thr`: a failed `ETL_ASSERT_OR_RETURN` throws (otherwise the handler returns and the function returns, error_handler.h
l.311-346).  Simplification: `ETL_NO_CHECKS` builds, where the test for linked items disappears, are not modelled.
-/
namespace Etl.IStackQ

/-- `etl_next` of every link; `p_top` (stacks) or `p_back` (queues), and `current_size` of every container. -/
structure St where
  nx : Nat → Nat
  ptr : Nat → Nat
  sz : Nat → Nat

/-- Which containers are queues, and the build options. -/
structure Cfg where
  queue : Nat → Bool
  check : Bool
  thr : Bool

inductive Err where
  | empty | linked
  deriving DecidableEq, Repr

/-- `&terminator` of container `c`. -/
def term (c : Nat) : Nat := 2 * c + 1

/-- The constructors: stack l.181-185 (the terminator is a cleared link), queue l.184-189. -/
def init (g : Cfg) : St where
  nx := fun p => if p % 2 = 1 ∧ g.queue (p / 2) = true then p else 0
  ptr := fun c => term c
  sz := fun _ => 0

/-- `p->etl_next = v` -/
def setNext (s : St) (p v : Nat) : Res St := if p = 0 then .error .nullDeref else .ok { s with nx := upd s.nx p v }
/-- `p->etl_next` -/
def getNext (s : St) (p : Nat) : Res Nat := if p = 0 then .error .nullDeref else .ok (s.nx p)

/-- `is_linked`, intrusive_links.h l.125-128. -/
def isLinked (s : St) (p : Nat) : Bool := s.nx p != 0

/-- `empty`, stack l.163-166, queue l.166-169; `size`, l.171-174, l.174-177. -/
def empty (s : St) (c : Nat) : Bool := s.sz c == 0
def size (s : St) (c : Nat) : Nat := s.sz c

/-- `intrusive_stack_base::push`, l.101-109. -/
def pushStack (s : St) (c v : Nat) : Res (St × Option Err) :=
  if isLinked s v then .ok (s, some .linked)
  else do
    let s ← setNext s v (s.ptr c)
    .ok ({ s with ptr := upd s.ptr c v, sz := upd s.sz c (s.sz c + 1) }, none)

/-- `intrusive_queue_base::push`, l.101-118. -/
def pushQueue (s : St) (c v : Nat) : Res (St × Option Err) :=
  if isLinked s v then .ok (s, some .linked)
  else do
    let s ← if empty s c then setNext s (term c) v else setNext s (s.ptr c) v
    let s := { s with ptr := upd s.ptr c v }
    let s ← setNext s v (term c)
    .ok ({ s with sz := upd s.sz c (s.sz c + 1) }, none)

def push (g : Cfg) (s : St) (c v : Nat) : Res (St × Option Err) := if g.queue c then pushQueue s c v else pushStack s c v

/-- `intrusive_stack_base::pop`, l.115-124.  `--current_size` wraps, so popping an empty container is the error `overflow` here. -/
def popStack (g : Cfg) (s : St) (c : Nat) : Res (St × Option Err) :=
  if g.check = true ∧ empty s c = true then .ok (s, some .empty)
  else do
    let p_next ← getNext s (s.ptr c)
    let s ← setNext s (s.ptr c) 0
    let s := { s with ptr := upd s.ptr c p_next }
    if s.sz c = 0 then .error .overflow else .ok ({ s with sz := upd s.sz c (s.sz c - 1) }, none)

/-- `intrusive_queue_base::pop`, l.124-144.  The test `empty()` comes before `--current_size`. -/
def popQueue (g : Cfg) (s : St) (c : Nat) : Res (St × Option Err) :=
  if g.check = true ∧ empty s c = true then .ok (s, some .empty)
  else do
    let p_front ← getNext s (term c)
    let p_next ← getNext s p_front
    let s ← setNext s (term c) p_next
    let s ← setNext s p_front 0
    let s := if empty s c then { s with ptr := upd s.ptr c (term c) } else s
    if s.sz c = 0 then .error .overflow else .ok ({ s with sz := upd s.sz c (s.sz c - 1) }, none)

def pop (g : Cfg) (s : St) (c : Nat) : Res (St × Option Err) := if g.queue c then popQueue g s c else popStack g s c

/-- `pop_into`, stack l.131-137, queue l.151-157. -/
def popInto (g : Cfg) (s : St) (c d : Nat) : Res (St × Option Err) := do
  let p_link := if g.queue c then s.nx (term c) else s.ptr c
  let (s, e) ← pop g s c
  if g.thr = true ∧ e.isSome = true then .ok (s, e)
  else push g s d p_link

/-- The loop of `reverse`, l.147-153. -/
def reverseLoop (c : Nat) : Nat → St → Nat → Nat → Res (St × Nat)
  | 0, _, _, _ => .error .diverge
  | fuel + 1, s, previous, current =>
    if current ≠ term c then do
      let next ← getNext s current
      let s ← setNext s current previous
      reverseLoop c fuel s current next
    else .ok (s, previous)

/-- `intrusive_stack_base::reverse`, l.142-156. -/
def reverse (s : St) (c : Nat) : Res St := do
  let (s, previous) ← reverseLoop c (s.sz c + 1) s (term c) (s.ptr c)
  .ok { s with ptr := upd s.ptr c previous }

/-- `clear`: `while (!empty()) pop();`, stack l.161-169, queue l.162-170. -/
def clearLoop (g : Cfg) (c : Nat) : Nat → St → Res St
  | 0, _ => .error .diverge
  | fuel + 1, s =>
    if empty s c then .ok s
    else do
      let (s, _) ← pop g s c
      clearLoop g c fuel s

def clear (g : Cfg) (s : St) (c : Nat) : Res St := do
  let s ← clearLoop g c (s.sz c + 1) s
  .ok { s with sz := upd s.sz c 0 }

/-- `top`, stack l.236-239; `front`, queue l.237-240; the address of the item. -/
def front (g : Cfg) (s : St) (c : Nat) : Nat := if g.queue c then s.nx (term c) else s.ptr c
/-- `back`, queue l.247-250. -/
def back (s : St) (c : Nat) : Nat := s.ptr c

end Etl.IStackQ
