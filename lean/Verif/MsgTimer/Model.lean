import Verif.Timer.Model

/-!
# Model of the message timers

Sources: `/repo/include/etl/message_timer.h`, `message_timer_atomic.h`, `message_timer_interrupt.h`, `message_timer_locked.h`.  Line numbers are those of `message_timer.h`, unless another file is named.

The list (`insert` l.176-238, `remove` l.241-276) and `start`, `stop`, `set_period`, `set_mode`, `clear`, `enable` (l.416-591) are those of `callback_timer.h`, modelled in `Verif/Timer/Model.lean`.
Modelled here is what is different: `unregister_timer`, and `tick`, which in the last three files puts a repeating timer back *after* its message has been delivered.

Used from one thread; the receiving router may call the timer.  Not modelled: null routers (`register_timer` answers `NO_TIMER` to one and does nothing, l.354-355), the contents and the destination of the message.
-/
namespace Etl.MsgTimer
open Etl.Timer

/-- `if (timer.is_active()) active_list.remove(timer.id, true)`, l.395-400; message_timer_atomic.h l.108-113, message_timer_interrupt.h l.116-119, message_timer_locked.h l.112-117.
The second argument is `false` in the callback timers. -/
def drop (s : St) (i : Nat) : Res St :=
  if (s.timers i).delta ≠ Inactive then remove s (s.timers i).id true else .ok s

/-- `unregister_timer`, l.385-413. -/
def unregister (s : St) (i : Nat) : Res (Bool × St) :=
  if i = NO then .ok (false, s)
  else if ¬ i < s.max then .error .outOfBounds
  else if (s.timers i).id = NO then .ok (false, s)
  else match drop s i with
    | .error u => .error u
    | .ok s => .ok (true, { s with timers := upd s.timers i {}, registered := s.registered - 1 })

def apply (s : St) : Op → Res (Ret × St)
  | .unregister i => ret (unregister s i)
  | o => Timer.apply s o

def applyAll : St → List Op → Res St
  | s, [] => .ok s
  | s, o :: os =>
    match apply s o with
    | .error u => .error u
    | .ok (_, s) => applyAll s os

/-- One turn of the loop of `tick`, l.465-480; `cb i h` are the calls on the timer made by the router that receives the message of timer `i`, `h` being the timers that have fired so far.
`late`: message_timer_atomic.h l.180-195 and the same in the other two files. -/
def fire (late : Bool) (cb : Nat → List Nat → List Op) (s : St) : Res St :=
  match remove s (s.timers s.head).id true with
  | .error u => .error u
  | .ok s1 => match (if late then .ok s1 else rearm s1 s.head) with
    | .error u => .error u
    | .ok s2 => match applyAll { s2 with log := s2.log ++ [(s2.timers s.head).id] } (cb (s2.timers s.head).id (s2.log ++ [(s2.timers s.head).id])) with
      | .error u => .error u
      | .ok s3 => if late then rearm s3 s.head else .ok s3

/-- The loop of `tick`, l.463-483, and the subtraction of the remainder, l.485-489. -/
def tickLoop (late : Bool) (cb : Nat → List Nat → List Op) : Nat → Nat → St → Res St
  | 0, _, _ => .error .diverge
  | fuel + 1, count, s =>
    if s.head = NO then .ok s
    else if ¬ s.head < s.max then .error .outOfBounds
    else if count ≥ (s.timers s.head).delta then
      match fire late cb s with
      | .error u => .error u
      | .ok s' => tickLoop late cb fuel (count - (s.timers s.head).delta) s'
    else put s s.head (fun t => { t with delta := t.delta - count })

/-- `tick`, l.452-496. -/
def tick (late : Bool) (cb : Nat → List Nat → List Op) (fuel : Nat) (s : St) (count : Nat) : Res (Bool × St) :=
  if s.enabled then
    match tickLoop late cb fuel count s with
    | .error u => .error u
    | .ok s => .ok (true, s)
  else .ok (false, s)

end Etl.MsgTimer
