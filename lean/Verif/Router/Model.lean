import Verif.Common.Res
import Verif.Algo.Search

/-!
# Model of message routers and message buses

Sources: `/repo/include/etl/message_router.h` (C++17 version l.404-544 and C++14 version), `/repo/include/etl/message_bus.h`, `/repo/include/etl/successor.h`.

An `imessage_router` object is modelled by its virtual functions (`Obj`).  A message is its id: the payload is passed on untouched.  What a message does is
observed as a log of calls to the users' handlers: `on_receive` and `on_receive_unknown`, with the name (address) of the router they were called on.
The message types of a router are identified by their ids (`etl::message` enforces one id per type; ids of one router are distinct).
Successors and subscriptions are assumed not to form cycles (the code would recurse forever), which is what building objects from already built ones expresses.
The `shared_message` overloads have the same structure and are not modelled separately.
-/
namespace Etl.Router

/-- What handlers see. -/
inductive Ev where
  | handled (msg : Nat)      -- `on_receive(msg)`
  | unknown (msg : Nat)      -- `on_receive_unknown(msg)`
  deriving DecidableEq, Repr

abbrev Log := List (Nat × Ev)

/-- `imessage_router::` enum, message_router.h l.155-163. -/
def NULL_MESSAGE_ROUTER : Nat := 255
def MESSAGE_BUS : Nat := 254
def ALL_MESSAGE_ROUTERS : Nat := 253
def MESSAGE_BROKER : Nat := 252
def MESSAGE_ROUTER : Nat := 251
def MAX_MESSAGE_ROUTER : Nat := 249

/-- The virtual functions of a router object: `get_message_router_id`, `is_consumer`, `accepts(id)`, `receive(msg)`, `receive(destination, msg)`. -/
structure Obj where
  name : Nat
  id : Nat
  consumer : Bool
  accepts : Nat → Bool
  recv : Nat → Res Log
  recvTo : Nat → Nat → Res Log

/-- `imessage_router::receive(destination_router_id, message)`, message_router.h l.120-126. -/
def baseRecvTo (id : Nat) (recv : Nat → Res Log) (d m : Nat) : Res Log :=
  if d = id ∨ d = ALL_MESSAGE_ROUTERS then recv m else .ok []

/-! ## message_router -/

/-- The fold `(receive_message_type<TMessageTypes>(msg) || ...)`, message_router.h l.445 and l.505-517: the handler calls made and whether one was. -/
def tryTypes (name m : Nat) : List Nat → Log × Bool
  | [] => ([], false)
  | t :: ts => if t = m then ([(name, .handled m)], true) else tryTypes name m ts

/-- The successor gets the message, or there is none and `on_receive_unknown` is called, l.449-456. -/
def passOn (name : Nat) (succ : Option Obj) (m : Nat) : Res Log :=
  match succ with
  | some s => s.recv m
  | none => .ok [(name, .unknown m)]

/-- `receive(const imessage&)`, l.443-458. -/
def routerRecv (name : Nat) (types : List Nat) (succ : Option Obj) (m : Nat) : Res Log :=
  let (log, was_handled) := tryTypes name m types
  if !was_handled then passOn name succ m else .ok log

/-- `receive(const TMessage&)`, chosen at compile time from the static type, l.460-478. -/
def routerRecvStatic (name : Nat) (types : List Nat) (succ : Option Obj) (m : Nat) : Res Log :=
  if m ∈ types then .ok [(name, .handled m)] else passOn name succ m

/-- `(accepts_type<TMessageTypes>(id) || ...)`, l.483-486 and l.521-541: every type that does not match asks the successor. -/
def acceptsTypes (succ : Option Obj) (m : Nat) : List Nat → Bool
  | [] => false
  | t :: ts =>
    (if t = m then true
     else match succ with
      | some s => s.accepts m
      | none => false) || acceptsTypes succ m ts

/-- A `message_router` object.  `types` is not empty (the code with no types would not compile: an empty fold over `||` is allowed, but `message_packet` is not). -/
def mkRouter (name id : Nat) (types : List Nat) (succ : Option Obj) : Obj :=
  { name, id, consumer := true, accepts := fun m => acceptsTypes succ m types, recv := routerRecv name types succ,
    recvTo := baseRecvTo id (routerRecv name types succ) }

/-- The constructors' assert on explicit ids, l.429-439; without an id it is `MESSAGE_ROUTER`, l.416-426. -/
def legalId (id : Nat) : Bool := id ≤ MAX_MESSAGE_ROUTER || id = MESSAGE_ROUTER

/-! ## null_message_router (l.190-256) and message_producer (l.268-341): pass everything on -/

/-- `receive`, l.209-215 and l.301-307. -/
def forwardRecv (succ : Option Obj) (m : Nat) : Res Log :=
  match succ with
  | some s => s.recv m
  | none => .ok []

/-- `accepts`, l.220-230 and l.312-322. -/
def forwardAccepts (succ : Option Obj) (m : Nat) : Bool :=
  match succ with
  | some s => s.accepts m
  | none => false

def mkForward (name id : Nat) (succ : Option Obj) : Obj :=
  { name, id, consumer := false, accepts := forwardAccepts succ, recv := forwardRecv succ, recvTo := baseRecvTo id (forwardRecv succ) }

/-! ## message_bus -/

/-- `if (router.accepts(message.get_message_id())) router.receive(message)`, message_bus.h l.175-178 and l.201-204. -/
def offer (m : Nat) (r : Obj) : Res Log := if r.accepts m then r.recv m else .ok []

/-- The broadcast loop, message_bus.h l.171-181. -/
def broadcast (m : Nat) : List Obj → Res Log
  | [] => .ok []
  | r :: rs => do
    let a ← offer m r
    let b ← broadcast m rs
    .ok (a ++ b)

/-- `while (range.first != range.second)`, l.199-207: `n` iterations from index `i`. -/
def callRange (subs : List Obj) (m : Nat) (i : Nat) : Nat → Res Log
  | 0 => .ok []
  | n + 1 =>
    match subs[i]? with
    | none => .error .outOfBounds
    | some r => do
      let a ← offer m r
      let b ← callRange subs m (i + 1) n
      .ok (a ++ b)

/-- `while (irouter != router_list.end())`, l.216-222: pass it on to the buses at the end of the list. -/
def callBuses (d m : Nat) : List Obj → Res Log
  | [] => .ok []
  | r :: rs => do
    let a ← r.recvTo d m
    let b ← callBuses d m rs
    .ok (a ++ b)

/-- `compare_router_id`, l.404-415. -/
def cmp1 (r : Obj) (id : Nat) : Bool := r.id < id
def cmp2 (id : Nat) (r : Obj) : Bool := id < r.id

/-- `receive(destination_router_id, message)`, l.159-227: the switch on the destination. -/
def busSubscribers (subs : List Obj) (d m : Nat) : Res Log :=
  if d = ALL_MESSAGE_ROUTERS then broadcast m subs
  else do
    let (l, r) ← Algo.equalRange subs 0 subs.length d cmp1 cmp2
    let x ← callRange subs m l (r - l)
    let i ← Algo.lowerBound subs 0 subs.length MESSAGE_BUS cmp1
    let y ← callBuses d m (subs.drop i)
    .ok (x ++ y)

/-- The rest of it, l.228-234: the successor. -/
def busSuccessor (succ : Option Obj) (d m : Nat) : Res Log :=
  match succ with
  | some s => if s.accepts m then s.recvTo d m else .ok []
  | none => .ok []

/-- `receive(destination_router_id, message)`, l.159-235. -/
def busRecvTo (subs : List Obj) (succ : Option Obj) (d m : Nat) : Res Log := do
  let a ← busSubscribers subs d m
  let b ← busSuccessor succ d m
  .ok (a ++ b)

/-- `accepts`, l.320-347. -/
def busAccepts (subs : List Obj) (succ : Option Obj) (m : Nat) : Bool :=
  match subs with
  | [] => match succ with
    | some s => s.accepts m
    | none => false
  | r :: rs => if r.accepts m then true else busAccepts rs succ m

/-- A `message_bus` object; `receive(msg)` broadcasts, l.147-150. -/
def mkBus (name : Nat) (subs : List Obj) (succ : Option Obj) : Obj :=
  { name, id := MESSAGE_BUS, consumer := true, accepts := busAccepts subs succ,
    recv := fun m => busRecvTo subs succ ALL_MESSAGE_ROUTERS m, recvTo := busRecvTo subs succ }

/-! ### Subscriptions.  `α` stands for the subscribed objects; `key` is `get_message_router_id`, `addr` their address. -/

section
variable {α : Type} (key addr : α → Nat) (consumer : α → Bool)

/-- `subscribe`, l.88-111.  `false` for "full": `ETL_ASSERT` then throws, or the function returns `false` when it does not. -/
def subscribe (cap : Nat) (l : List α) (r : α) : Res (List α × Bool) :=
  if consumer r then
    if l.length = cap then .ok (l, false)
    else do
      let i ← Algo.upperBound l 0 l.length (key r) (fun id x => decide (id < key x))
      .ok (l.take i ++ [r] ++ l.drop i, true)            -- vector::insert
  else .ok (l, true)

/-- `unsubscribe(id)`, l.116-131. -/
def unsubscribeId (l : List α) (id : Nat) : Res (List α) :=
  if id = ALL_MESSAGE_ROUTERS then .ok []
  else do
    let (a, b) ← Algo.equalRange l 0 l.length id (fun x id => decide (key x < id)) (fun id x => decide (id < key x))
    .ok (l.take a ++ l.drop b)                           -- vector::erase(first, last)

/-- `unsubscribe(router)`, l.134-144: `find` and `erase`. -/
def unsubscribe (l : List α) (a : Nat) : List α :=
  match l with
  | [] => []
  | x :: xs => if addr x = a then xs else x :: unsubscribe xs a
end

end Etl.Router
