import Verif.Common.Res

/-!
# Model of state_chart

Source: `/repo/include/etl/state_chart.h`.  Modelled is the version with tables given at run time and a parameter (l.620-866); `state_chart<TObject, void>` (l.874-1116),
`state_chart_ct` (l.237-420) and `state_chart_ctp` (l.430-612) have the same functions without the parameter and/or with the tables as template arguments (then the sizes are
`size_t`, not `uint_least8_t`).

The user's object is a value of type `σ`; member functions act on it.  Calls are recorded in a log.  Member functions do not call the state chart again.
-/
namespace Etl.StateChart

/-- `state_chart_traits::transition`, l.56-90.  A null pointer to a member function is `none`. -/
structure Transition (σ π : Type) where
  source : Nat
  event : Nat
  target : Nat
  action : Option (π → σ → σ)
  guard : Option (σ → Bool × σ)
  fromAny : Bool

/-- `state_chart_traits::state`, l.130-147. -/
structure State (σ : Type) where
  id : Nat
  entry : Option (σ → σ)
  exit : Option (σ → σ)

/-- The tables, and the sizes as stored: `uint_least8_t transition_table_size, state_table_size`, l.862-863, set in the constructor l.652-653. -/
structure Chart (σ π : Type) where
  trans : List (Transition σ π)
  states : List (State σ)

variable {σ π : Type}

def Chart.tsize (c : Chart σ π) : Nat := c.trans.length % 256
def Chart.ssize (c : Chart σ π) : Nat := c.states.length % 256

/-- Calls: transitions by their position in the table, states by their id. -/
inductive Ev where
  | guard (i : Nat)
  | action (i : Nat)
  | exit (s : Nat)
  | entry (s : Nat)
  deriving DecidableEq, Repr

structure St (σ : Type) where
  cur : Nat
  started : Bool
  obj : σ
  log : List Ev

/-- `etl::find_if` on `[i, n)` of an array (algorithm.h l.1007-1020), by position. -/
def findFrom {α : Type} (a : List α) (n : Nat) (p : α → Bool) : Nat → Nat → Res Nat
  | 0, i => if i = n then .ok i else .error .diverge
  | fuel + 1, i =>
    if i = n then .ok i
    else match a[i]? with
      | none => .error .outOfBounds
      | some x => if p x then .ok i else findFrom a n p fuel (i + 1)

/-- `is_transition`, l.822-838. -/
def isTransition (e st : Nat) (t : Transition σ π) : Bool := t.event = e && (t.fromAny || t.source = st)

/-- `find_state`, l.798-808. -/
def findState (c : Chart σ π) (id : Nat) : Res Nat := findFrom c.states c.ssize (fun s => decide (s.id = id)) c.ssize 0

/-- `if ((s != state_table_end()) && (s->on_entry != ETL_NULLPTR)) (object.*(s->on_entry))()`, l.711-714 and l.775-778. -/
def callEntry (c : Chart σ π) (i : Nat) (s : St σ) : Res (St σ) :=
  if i = c.ssize then .ok s
  else match c.states[i]? with
    | none => .error .outOfBounds
    | some x => match x.entry with
      | none => .ok s
      | some f => .ok { s with obj := f s.obj, log := s.log ++ [.entry x.id] }

/-- `if ((s != state_table_end()) && (s->on_exit != ETL_NULLPTR)) (object.*(s->on_exit))()`, l.763-766. -/
def callExit (c : Chart σ π) (i : Nat) (s : St σ) : Res (St σ) :=
  if i = c.ssize then .ok s
  else match c.states[i]? with
    | none => .error .outOfBounds
    | some x => match x.exit with
      | none => .ok s
      | some f => .ok { s with obj := f s.obj, log := s.log ++ [.exit x.id] }

/-- `start`, l.700-719. -/
def start (c : Chart σ π) (onEntry : Bool) (s : St σ) : Res (St σ) :=
  if s.started then .ok s
  else if onEntry then do
    let i ← findState c s.cur
    let s ← callEntry c i s
    .ok { s with started := true }
  else .ok { s with started := true }

/-- `(t->guard == ETL_NULLPTR) || ((object.*t->guard)())`, l.744. -/
def runGuard (i : Nat) (t : Transition σ π) (s : St σ) : Bool × St σ :=
  match t.guard with
  | none => (true, s)
  | some g => ((g s.obj).1, { s with obj := (g s.obj).2, log := s.log ++ [.guard i] })

/-- `if (t->action != ETL_NULLPTR) (object.*t->action)(data)`, l.747-750. -/
def runAction (i : Nat) (t : Transition σ π) (p : π) (s : St σ) : St σ :=
  match t.action with
  | none => s
  | some f => { s with obj := f p s.obj, log := s.log ++ [.action i] }

/-- Executing a transition, l.747-781. -/
def execute (c : Chart σ π) (i : Nat) (t : Transition σ π) (p : π) (s : St σ) : Res (St σ) :=
  if (runAction i t p s).cur ≠ t.target then do
    let j ← findState c (runAction i t p s).cur
    let s ← callExit c j (runAction i t p s)
    let k ← findState c t.target
    callEntry c k { s with cur := t.target }
  else .ok (runAction i t p s)

/-- The loop of `process_event`, l.732-790. -/
def eventLoop (c : Chart σ π) (e : Nat) (p : π) : Nat → Nat → St σ → Res (St σ)
  | 0, i, s => if i = c.tsize then .ok s else .error .diverge
  | fuel + 1, i, s =>
    if i = c.tsize then .ok s
    else match findFrom c.trans c.tsize (isTransition e s.cur) (c.tsize - i) i with
      | .error u => .error u
      | .ok j =>
        if j = c.tsize then .ok s
        else match c.trans[j]? with
          | none => .error .outOfBounds
          | some t =>
            if (runGuard j t s).1 then execute c j t p (runGuard j t s).2
            else eventLoop c e p fuel (j + 1) (runGuard j t s).2

/-- `process_event`, l.726-792. -/
def processEvent (c : Chart σ π) (e : Nat) (p : π) (s : St σ) : Res (St σ) :=
  if s.started then eventLoop c e p c.tsize 0 s else .ok s

end Etl.StateChart
