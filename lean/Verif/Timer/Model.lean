import Verif.Common.Res

/-!
# Model of callback_timer

Source: `/repo/include/etl/callback_timer.h` (`message_timer.h` has the same list, `tick`, `start`, `stop`, ..., but a different `unregister_timer`: see `Verif/MsgTimer`).

Modelled: `private_callback_timer::list` and all of `icallback_timer`, used from one thread.  Not modelled: the lock (atomic counter or interrupt mask): `ETL_TIMER_UPDATES_ENABLED`
is true.  Callbacks are not null; they may call the timer's other functions: `cb i h` are the calls made by the callback of timer `i` when the timers that have fired so far, this one included, are `h`.
-/
namespace Etl.Timer

/-- `etl::timer::id::NO_TIMER`, timer.h l.86-95. -/
def NO : Nat := 255
/-- `etl::timer::state::Inactive`, timer.h l.98-105; also `interval::No_Active_Interval`. -/
def Inactive : Nat := 4294967295

/-- `callback_timer_data`, l.88-190; the defaults are those of the default constructor, l.101-111. -/
structure Timer where
  period : Nat := 0
  delta : Nat := Inactive
  id : Nat := NO
  prev : Nat := NO
  next : Nat := NO
  repeating : Bool := true
  deriving DecidableEq, Repr

/-- `timer_array`, `active_list`, `enabled`, `registered_timers`, `MAX_TIMERS`, l.788-811; `log` are the timers called back so far. -/
structure St where
  timers : Nat → Timer
  head : Nat
  tail : Nat
  enabled : Bool
  registered : Nat
  max : Nat
  log : List Nat

/-- The constructor, l.764-774. -/
def init (max : Nat) : St := ⟨fun _ => {}, NO, NO, false, 0, max, []⟩

/-- Writing to the fields of `ptimers[i]`. -/
def put (s : St) (i : Nat) (f : Timer → Timer) : Res St :=
  if i < s.max then .ok { s with timers := upd s.timers i (f (s.timers i)) } else .error .outOfBounds

/-- The insertion before `p`, l.243-261. -/
def insertBefore (s : St) (n p : Nat) : Res St := do
  let timer := s.timers n
  let test := s.timers p
  let s := if test.id = s.head then { s with head := timer.id } else s
  let s ← put s n (fun t => { t with prev := test.prev })
  let s ← put s p (fun t => { t with prev := timer.id })
  let s ← put s n (fun t => { t with next := test.id })
  let s ← put s p (fun t => { t with delta := t.delta - timer.delta })
  if test.prev ≠ NO then put s test.prev (fun t => { t with next := timer.id }) else .ok s

/-- Adding at the tail, l.274-278. -/
def tagTail (s : St) (n : Nat) : Res St := do
  let s ← put s s.tail (fun t => { t with next := (s.timers n).id })
  let s ← put s n (fun t => { t with prev := s.tail, next := NO })
  .ok { s with tail := (s.timers n).id }

/-- The loop of `list::insert`, l.236-279; `p` is `test_id`. -/
def insertLoop (n : Nat) : Nat → Nat → St → Res St
  | 0, _, _ => .error .diverge
  | fuel + 1, p, s =>
    if p = NO then tagTail s n
    else if ¬ (p < s.max ∧ n < s.max) then .error .outOfBounds
    else if (s.timers n).delta ≤ (s.timers p).delta then insertBefore s n p
    else match put s n (fun t => { t with delta := t.delta - (s.timers p).delta }) with
      | .error u => .error u
      | .ok s => insertLoop n fuel (s.timers p).next s

/-- `list::insert`, l.219-280.  The walk is at most as long as the list, which has at most `max` entries. -/
def insert (s : St) (n : Nat) : Res St :=
  if s.head = NO then
    match put s n (fun t => { t with prev := NO, next := NO }) with
    | .error u => .error u
    | .ok s => .ok { s with head := n, tail := n }
  else insertLoop n (s.max + 1) s.head s

/-- First part of `list::remove`, l.287-294. -/
def unlinkPrev (s : St) (i : Nat) : Res St :=
  if s.head = i then .ok { s with head := (s.timers i).next } else put s (s.timers i).prev (fun t => { t with next := (s.timers i).next })

/-- Second part, l.296-303. -/
def unlinkNext (s : St) (i : Nat) : Res St :=
  if s.tail = i then .ok { s with tail := (s.timers i).prev } else put s (s.timers i).next (fun t => { t with prev := (s.timers i).prev })

/-- Third part, l.305-312. -/
def giveDelta (s : St) (i : Nat) (expired : Bool) : Res St :=
  if expired = false ∧ (s.timers i).next ≠ NO then put s (s.timers i).next (fun t => { t with delta := (t.delta + (s.timers i).delta) % 4294967296 }) else .ok s

/-- `list::remove`, l.283-317. -/
def remove (s : St) (i : Nat) (expired : Bool) : Res St :=
  if i < s.max then do
    let s ← unlinkPrev s i
    let s ← unlinkNext s i
    let s ← giveDelta s i expired
    put s i (fun t => { t with prev := NO, next := NO, delta := Inactive })
  else .error .outOfBounds

/-- The search of `register_timer`, l.401-414, from `i` on. -/
def findFree (s : St) : Nat → Nat → Option Nat
  | 0, _ => none
  | fuel + 1, i => if i < s.max then (if (s.timers i).id = NO then some i else findFree s fuel (i + 1)) else none

/-- `register_timer`, l.391-418. -/
def register (s : St) (period : Nat) (repeating : Bool) : Nat × St :=
  if s.registered < s.max then
    match findFree s s.max 0 with
    | some i => (i, { s with timers := upd s.timers i { period := period, id := i, repeating := repeating }, registered := s.registered + 1 })
    | none => (NO, s)
  else (NO, s)

/-- `if (timer.is_active()) active_list.remove(timer.id, false)`, l.499-504, l.637-640, l.669-674. -/
def deactivate (s : St) (i : Nat) : Res St :=
  if (s.timers i).delta ≠ Inactive then remove s (s.timers i).id false else .ok s

/-- `unregister_timer`, l.489-517. -/
def unregister (s : St) (i : Nat) : Res (Bool × St) :=
  if i = NO then .ok (false, s)
  else if ¬ i < s.max then .error .outOfBounds
  else if (s.timers i).id = NO then .ok (false, s)
  else match deactivate s i with
    | .error u => .error u
    | .ok s => .ok (true, { s with timers := upd s.timers i {}, registered := s.registered - 1 })

/-- `clear`, l.536-548.  Simplified: the walk of `list::clear` (l.353-368), which resets the `next` fields, is left out since all records are reset right after it. -/
def clear (s : St) : St := { s with timers := fun i => if i < s.max then {} else s.timers i, head := NO, tail := NO, registered := 0 }

/-- `start`, l.621-652. -/
def start (s : St) (i : Nat) (immediate : Bool) : Res (Bool × St) :=
  if i = NO then .ok (false, s)
  else if ¬ i < s.max then .error .outOfBounds
  else if (s.timers i).id = NO then .ok (false, s)
  else if (s.timers i).period = Inactive then .ok (false, s)
  else match deactivate s i with
    | .error u => .error u
    | .ok s => match put s i (fun t => { t with delta := if immediate then 0 else t.period }) with
      | .error u => .error u
      | .ok s => match insert s (s.timers i).id with
        | .error u => .error u
        | .ok s => .ok (true, s)

/-- `stop`, l.657-681. -/
def stop (s : St) (i : Nat) : Res (Bool × St) :=
  if i = NO then .ok (false, s)
  else if ¬ i < s.max then .error .outOfBounds
  else if (s.timers i).id = NO then .ok (false, s)
  else match deactivate s i with
    | .error u => .error u
    | .ok s => .ok (true, s)

/-- `set_period`, l.686-695. -/
def setPeriod (s : St) (i period : Nat) : Res (Bool × St) :=
  match stop s i with
  | .error u => .error u
  | .ok (false, s) => .ok (false, s)
  | .ok (true, s) => .ok (true, { s with timers := upd s.timers i { s.timers i with period := period } })

/-- `set_mode`, l.700-709. -/
def setMode (s : St) (i : Nat) (repeating : Bool) : Res (Bool × St) :=
  match stop s i with
  | .error u => .error u
  | .ok (false, s) => .ok (false, s)
  | .ok (true, s) => .ok (true, { s with timers := upd s.timers i { s.timers i with repeating := repeating } })

/-- `has_active_timer`, l.714-717. -/
def hasActive (s : St) : Bool := decide (s.head ≠ NO)

/-- `time_to_next`, l.723-733. -/
def timeToNext (s : St) : Nat := if s.head ≠ NO then (s.timers s.head).delta else Inactive

/-- `is_active`, l.739-757. -/
def isActive (s : St) (i : Nat) : Bool :=
  decide (i < s.max) && hasActive s && decide ((s.timers i).id ≠ NO) && decide ((s.timers i).delta ≠ Inactive)

/-- The calls the timer's user can make, other than `tick`. -/
inductive Op where
  | register (period : Nat) (repeating : Bool)
  | unregister (i : Nat)
  | start (i : Nat) (immediate : Bool)
  | stop (i : Nat)
  | setPeriod (i period : Nat)
  | setMode (i : Nat) (repeating : Bool)
  | clear
  | enable (b : Bool)

inductive Ret where
  | unit
  | bool (b : Bool)
  | id (i : Nat)
  deriving DecidableEq, Repr

def ret (r : Res (Bool × St)) : Res (Ret × St) :=
  match r with
  | .error u => .error u
  | .ok (b, s) => .ok (.bool b, s)

def apply (s : St) : Op → Res (Ret × St)
  | .register p r => .ok (.id (register s p r).1, (register s p r).2)
  | .unregister i => ret (unregister s i)
  | .start i b => ret (start s i b)
  | .stop i => ret (stop s i)
  | .setPeriod i p => ret (setPeriod s i p)
  | .setMode i r => ret (setMode s i r)
  | .clear => .ok (.unit, clear s)
  | .enable b => .ok (.unit, { s with enabled := b })

def applyAll : St → List Op → Res St
  | s, [] => .ok s
  | s, o :: os =>
    match apply s o with
    | .error u => .error u
    | .ok (_, s) => applyAll s os

/-- `if (timer.repeating) { timer.delta = timer.period; active_list.insert(timer.id); }`, l.577-582; `i` is the slot `timer` refers to. -/
def rearm (s : St) (i : Nat) : Res St :=
  if (s.timers i).repeating then
    match put s i (fun t => { t with delta := t.period }) with
    | .error u => .error u
    | .ok s => insert s (s.timers i).id
  else .ok s

/-- One turn of the loop of `tick` after its condition, l.569-605. -/
def fire (cb : Nat → List Nat → List Op) (s : St) : Res St :=
  match remove s (s.timers s.head).id true with
  | .error u => .error u
  | .ok s1 => match rearm s1 s.head with
    | .error u => .error u
    | .ok s2 => applyAll { s2 with log := s2.log ++ [(s2.timers s.head).id] } (cb (s2.timers s.head).id (s2.log ++ [(s2.timers s.head).id]))

/-- The loop of `tick`, l.567-606, and the subtraction of the remainder, l.608-612. -/
def tickLoop (cb : Nat → List Nat → List Op) : Nat → Nat → St → Res St
  | 0, _, _ => .error .diverge
  | fuel + 1, count, s =>
    if s.head = NO then .ok s
    else if ¬ s.head < s.max then .error .outOfBounds
    else if count ≥ (s.timers s.head).delta then
      match fire cb s with
      | .error u => .error u
      | .ok s' => tickLoop cb fuel (count - (s.timers s.head).delta) s'
    else put s s.head (fun t => { t with delta := t.delta - count })

/-- `tick`, l.556-616. -/
def tick (cb : Nat → List Nat → List Op) (fuel : Nat) (s : St) (count : Nat) : Res (Bool × St) :=
  if s.enabled then
    match tickLoop cb fuel count s with
    | .error u => .error u
    | .ok s => .ok (true, s)
  else .ok (false, s)

end Etl.Timer
