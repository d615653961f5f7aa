import Verif.Common.Res

/-!
# Model of `etl::message_broker`

Source: `/repo/include/etl/message_broker.h` (the constants of `imessage_router`: `/repo/include/etl/message_router.h` l.159).

Any number of brokers and subscriptions.  A subscription is an object the user owns, numbered `0..N-1`; it is bound to one router for its whole life, and its
message ids (`message_id_list()`) are a constant of the object.  The routers are the brokers themselves and user routers.  What a user router does to the
brokers while it handles a message is an arbitrary list of operations (`script`), including sending more messages, so handlers re-enter the brokers.

The nested calls are run by a machine with an explicit stack of what remains to be done (`Task`), one step at a time, because re-entrant handlers need not
terminate.  Simplification: the two `receive` overloads with `etl::shared_message` (l.191-194, l.236-274) have the same body and are not modelled apart.
-/
namespace Etl.Broker

/-- A router: a message broker, or some other router of the user. -/
inductive Target where
  | broker (b : Nat)
  | user (r : Nat)
  deriving DecidableEq, Repr

/-- A `subscription_node`: the `head` of a broker, or a subscription, l.47-90. -/
inductive Node where
  | head (b : Nat)
  | sub (s : Nat)
  deriving DecidableEq, Repr

/-- The operations of the program: `subscribe`, `unsubscribe`, `clear`, and `receive` with (`some d`) or without (`none`) a destination. -/
inductive Op where
  | subscribe (b s : Nat)
  | unsubscribe (b : Nat) (t : Target)
  | clear (b : Nat)
  | send (t : Target) (od : Option Nat) (m : Nat)
  deriving DecidableEq, Repr

/-- A user router's `receive(msg)` (`none`) or `receive(d, msg)` (`some d`) was called. -/
inductive Ev where
  | got (r : Nat) (od : Option Nat) (m : Nat)
  deriving DecidableEq, Repr

/-- The user's objects: their numbers, the router and the message ids of a subscription, the id of a router, the successor of a broker, what a handler does, and what a
router's `accepts` answers. -/
structure Env where
  N : Nat                                     -- number of subscription objects
  B : Nat                                     -- number of brokers
  rt : Nat → Target
  ids : Nat → List Nat
  rid : Target → Nat
  succ : Nat → Option Target
  script : Nat → Option Nat → Nat → List Op
  acc : Target → Nat → Bool

/-- `imessage_router::ALL_MESSAGE_ROUTERS`, message_router.h l.159. -/
def ALL : Nat := 253

/-- `head.p_next` of every broker and `p_next` of every subscription. -/
structure St where
  hd : Nat → Option Nat
  nx : Nat → Option Nat

/-- A new broker and a new subscription point nowhere, l.53-56, l.140-144. -/
def init : St := ⟨fun _ => none, fun _ => none⟩

/-- `get_next`, l.65-68. -/
def getNext (st : St) : Node → Option Nat
  | .head b => st.hd b
  | .sub s => st.nx s

/-- `set_next`, l.59-62. -/
def setNext (st : St) (n : Node) (p : Option Nat) : St :=
  match n with
  | .head b => { st with hd := upd st.hd b p }
  | .sub s => { st with nx := upd st.nx s p }

/-- `terminate`, l.71-74. -/
def terminate (st : St) (n : Node) : St := setNext st n none

/-- `append`, l.77-84. -/
def append (st : St) (n : Node) (new : Option Nat) : St :=
  let st := match new with
    | some s => setNext st (.sub s) (getNext st n)
    | none => st
  setNext st n new

/-- The loop of `initialise_insertion_point`, l.361-377: returns the state and `p_sub_previous`. -/
def insertionLoop (e : Env) (t : Target) : Nat → St → Option Nat → Node → Res (St × Node)
  | 0, _, _, _ => .error .diverge
  | _ + 1, st, none, prev => .ok (st, prev)
  | fuel + 1, st, some s, prev =>
    if e.rt s = t then
      let st := setNext st prev (getNext st (.sub s))
      .ok (terminate st (.sub s), prev)
    else
      let p := getNext st (.sub s)
      match getNext st prev with
      | none => .error .nullDeref
      | some q => insertionLoop e t fuel st p (.sub q)

/-- `initialise_insertion_point`, l.354-384. -/
def insertionPoint (e : Env) (st : St) (b : Nat) (t : Target) (new : Option Nat) : Res St :=
  match insertionLoop e t (e.N + 1) st (getNext st (.head b)) (.head b) with
  | .error u => .error u
  | .ok (st, prev) =>
    match new with
    | some s => .ok (append st prev (some s))
    | none => .ok st

/-- `subscribe`, l.174-177. -/
def subscribe (e : Env) (st : St) (b s : Nat) : Res St := insertionPoint e st b (e.rt s) (some s)
/-- `unsubscribe`, l.180-183. -/
def unsubscribe (e : Env) (st : St) (b : Nat) (t : Target) : Res St := insertionPoint e st b t none
/-- `clear`, l.322-325. -/
def clear (st : St) (b : Nat) : St := terminate st (.head b)
/-- `empty`, l.346-349. -/
def empty (st : St) (b : Nat) : Bool := (getNext st (.head b)).isNone

/-- The loop of `accepts`, l.287-305. -/
def acceptsLoop (e : Env) (m : Nat) (st : St) : Nat → Option Nat → Res Bool
  | 0, _ => .error .diverge
  | _ + 1, none => .ok false
  | fuel + 1, some s => if m ∈ e.ids s ∧ e.acc (e.rt s) m = true then .ok true else acceptsLoop e m st fuel (getNext st (.sub s))

/-- `accepts`, l.280-319. -/
def accepts (e : Env) (st : St) (b m : Nat) : Res Bool :=
  match (if empty st b then .ok false else acceptsLoop e m st (e.N + 1) (getNext st (.head b))) with
  | .error u => .error u
  | .ok true => .ok true
  | .ok false =>
    match e.succ b with
    | some t => .ok (e.acc t m)
    | none => .ok false

/-- What remains to be done: an operation; a call of a router's `receive`; the head of the loop over the subscriptions with the current one; the end of an
iteration of that loop; passing the message on to the successor. -/
inductive Task where
  | op (o : Op)
  | recv (t : Target) (od : Option Nat) (m : Nat)
  | loop (b : Nat) (cur : Option Nat) (d m : Nat)
  | next (b s d m : Nat)
  | succ (b d m : Nat)
  deriving DecidableEq, Repr

/-- One step of the top task; the new state, the new stack and the calls to user routers made.
`receive(msg)` of a broker is `receive(ALL_MESSAGE_ROUTERS, msg)`, l.186-189; `receive(destination, msg)`, l.197-233. -/
def step (e : Env) (st : St) : Task → Res (St × List Task × List Ev)
  | .op (.subscribe b s) => match subscribe e st b s with | .error u => .error u | .ok st => .ok (st, [], [])
  | .op (.unsubscribe b t) => match unsubscribe e st b t with | .error u => .error u | .ok st => .ok (st, [], [])
  | .op (.clear b) => .ok (clear st b, [], [])
  | .op (.send t od m) => .ok (st, [.recv t od m], [])
  | .recv (.user r) od m => .ok (st, (e.script r od m).map .op, [.got r od m])
  | .recv (.broker b) none m => .ok (st, [.recv (.broker b) (some ALL) m], [])
  | .recv (.broker b) (some d) m =>
    if empty st b then .ok (st, [.succ b d m], [])
    else .ok (st, [.loop b (getNext st (.head b)) d m, .succ b d m], [])
  | .loop _ none _ _ => .ok (st, [], [])
  | .loop b (some s) d m =>
    if m ∈ e.ids s then
      if d = ALL ∨ d = e.rid (e.rt s) then .ok (st, [.recv (e.rt s) none m, .next b s d m], [])
      else .ok (st, [.next b s d m], [])
    else .ok (st, [.next b s d m], [])
  | .next b s d m => .ok (st, [.loop b (getNext st (.sub s)) d m], [])
  | .succ b d m =>
    match e.succ b with
    | some t => .ok (st, [.recv t (some d) m], [])
    | none => .ok (st, [], [])

/-- The state of a running program: the brokers, what remains to be done, and the calls made so far. -/
structure Run where
  st : St
  todo : List Task
  evs : List Ev

/-- `n` steps of the machine (fewer if it finishes before). -/
def run (e : Env) : Nat → Run → Res Run
  | 0, r => .ok r
  | n + 1, r =>
    match r.todo with
    | [] => .ok r
    | t :: k =>
      match step e r.st t with
      | .error u => .error u
      | .ok (st, ts, es) => run e n ⟨st, ts ++ k, r.evs ++ es⟩

/-- A program: a list of operations, starting with new brokers and subscriptions. -/
def start (prog : List Op) : Run := ⟨init, prog.map .op, []⟩

end Etl.Broker
