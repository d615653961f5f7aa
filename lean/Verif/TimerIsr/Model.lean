import Verif.Timer.Model

/-!
# Model of the callback timers that are ticked from an interrupt or another thread

Sources: `/repo/include/etl/callback_timer_atomic.h`, `callback_timer_interrupt.h`, `callback_timer_locked.h`.  Line numbers are those of `callback_timer_atomic.h`, unless another file is named.
The three files have the same records, the same list (l.450-630) and the same functions; they differ in how the list is protected: a counter that `tick` looks at, an interrupt guard, or a lock that `tick` tries to take.

The functions are called by one thread and are cut into the steps between which a `tick` can come in.  The `tick` comes from an interrupt handler: it runs to its end before the thread continues.

The list functions (`insert`, `remove`) are those of `callback_timer.h`, modelled in `Verif/Timer/Model.lean`: l.472-533 and l.536-572 are the same code.

Simplified: a section in which `tick` cannot touch the list is entered, executed and left in one step each (a `tick` that comes in between answers false, or is kept away, and touches nothing);
the search of `register_timer` and the creation of the record, which a `tick` does not read or write, are one step each; likewise the resetting of a record and the counting down in `unregister_timer`.
The callbacks make no calls on the timer (see `fireA` for what happens if they do).  `is_running` is left out.
-/
namespace Etl.TimerIsr
open Etl.Timer

/-- The three files. -/
inductive Variant where
  | atomic
  | interrupt
  | locked
  deriving DecidableEq, Repr

/-- The calls: those that change something (`Timer.Op`) and three questions. -/
inductive COp where
  | op (o : Op)
  | hasActive
  | timeToNext
  | isActive (i : Nat)

inductive Resp where
  | ret (r : Ret)
  | time (t : Nat)
  deriving DecidableEq, Repr

/-- The functions that first take a timer out of the list: `stop`, `unregister_timer`, `set_period`, `set_mode`. -/
inductive Kind where
  | stop
  | unreg
  | period (p : Nat)
  | mode (r : Bool)

/-- The protected sections.  -/
inductive Sec where
  /-- `active_list.remove(timer.id, false)` in `stop`, l.260-262, and `unregister_timer`, l.103-105 -/
  | remove (k : Kind) (i : Nat)
  /-- l.225-233 -/
  | start (i : Nat) (immediate : Bool)
  /-- `active_list.clear()`, l.140-142 -/
  | clearList
  /-- l.305-307 -/
  | hasActive
  /-- l.320-325 -/
  | next
  /-- the call of `has_active_timer` in `is_active` of the other two files: callback_timer_interrupt.h l.341 -/
  | isActive1 (i : Nat)
  /-- l.341-352; callback_timer_interrupt.h l.343-352 -/
  | isActive2 (i : Nat)

/-- Where a call is. -/
inductive P where
  /-- nothing done yet -/
  | begin
  /-- before a protected section -/
  | enter (x : Sec)
  /-- in it -/
  | body (x : Sec)
  /-- in it, its work done -/
  | leave (x : Sec) (r : Resp)
  /-- `register_timer` has found the free slot `i` -/
  | create (i period : Nat) (repeating : Bool)
  /-- the last, unprotected part of the four functions of `Kind` -/
  | finish (k : Kind) (i : Nat)
  /-- `clear` has reset the records before `k` -/
  | wipe (k : Nat)
  /-- about to return `r` -/
  | ret (r : Resp)

inductive Pc where
  | idle
  | run (o : COp) (p : P)

/-- The history: calls, when they take effect (ghost), their returns, and the ticks with their answers. -/
inductive Ev where
  | inv (o : COp)
  | lin (o : COp) (r : Resp)
  | ret (o : COp) (r : Resp)
  | tick (count : Nat) (answer : Bool)

structure S where
  t : St
  pc : Pc := .idle
  trace : List Ev := []

def init (max : Nat) : S := { t := Timer.init max }

def yes : Resp := .ret (.bool true)
def no : Resp := .ret (.bool false)

/-- First step of `stop`, l.246-258 (`unregister_timer`, l.91-101): nothing is protected here.  `some p`: go on at `p`; the flag says that the call has taken effect. -/
def beginKind (s : St) (k : Kind) (i : Nat) : Res (P × Option Resp) :=
  if i = NO then .ok (.ret no, some no)
  else if ¬ i < s.max then .error .outOfBounds
  else if (s.timers i).id = NO then .ok (.ret no, some no)
  else if (s.timers i).delta ≠ Inactive then .ok (.enter (.remove k i), none)
  else .ok (.finish k i, some yes)

/-- First step of each function.  The second component is the answer if the call takes effect in this step. -/
def begin (s : St) : COp → Res (P × Option Resp × St)
  /- l.59-86 up to the creation -/
  | .op (.register p r) =>
    if s.registered < s.max then
      match findFree s s.max 0 with
      | some i => .ok (.create i p r, none, s)
      | none => .ok (.ret (.ret (.id NO)), some (.ret (.id NO)), s)
    else .ok (.ret (.ret (.id NO)), some (.ret (.id NO)), s)
  | .op (.unregister i) => match beginKind s .unreg i with
    | .error u => .error u
    | .ok (p, r) => .ok (p, r, s)
  | .op (.stop i) => match beginKind s .stop i with
    | .error u => .error u
    | .ok (p, r) => .ok (p, r, s)
  | .op (.setPeriod i q) => match beginKind s (.period q) i with
    | .error u => .error u
    | .ok (p, r) => .ok (p, r, s)
  | .op (.setMode i m) => match beginKind s (.mode m) i with
    | .error u => .error u
    | .ok (p, r) => .ok (p, r, s)
  /- l.210-225 -/
  | .op (.start i b) =>
    if i = NO then .ok (.ret no, some no, s)
    else if ¬ i < s.max then .error .outOfBounds
    else if (s.timers i).id = NO then .ok (.ret no, some no, s)
    else if (s.timers i).period = Inactive then .ok (.ret no, some no, s)
    else .ok (.enter (.start i b), none, s)
  /- l.140 -/
  | .op .clear => .ok (.enter .clearList, none, s)
  /- l.122-125 -/
  | .op (.enable b) => .ok (.ret (.ret .unit), some (.ret .unit), { s with enabled := b })
  /- l.305 -/
  | .hasActive => .ok (.enter .hasActive, none, s)
  /- l.320 -/
  | .timeToNext => .ok (.enter .next, none, s)
  /- l.334-341: `is_valid_timer_id`; then has_active_timer is called inside the section (atomic) or before it -/
  | .isActive i => if i < s.max then .ok (.enter (.isActive1 i), none, s) else .ok (.ret no, some no, s)

/-- The walk of `list::clear`, l.606-616; `i` is `id`. -/
def clearLoop : Nat → Nat → St → Res St
  | 0, _, _ => .error .diverge
  | fuel + 1, i, s =>
    if i = NO then .ok s
    else match put s i (fun t => { t with next := NO }) with
      | .error u => .error u
      | .ok s' => clearLoop fuel (s.timers i).next s'

/-- The work done in a section, and what it answers. -/
def work (v : Variant) (s : St) : Sec → Res (Resp × St)
  | .remove _ i => match remove s (s.timers i).id false with
    | .error u => .error u
    | .ok s => .ok (yes, s)
  | .start i b => match deactivate s i with
    | .error u => .error u
    | .ok s => match put s i (fun t => { t with delta := if b then 0 else t.period }) with
      | .error u => .error u
      | .ok s => match insert s (s.timers i).id with
        | .error u => .error u
        | .ok s => .ok (yes, s)
  /- callback_timer_interrupt.h l.148 resets the number of timers here -/
  | .clearList => match clearLoop (s.max + 1) s.head s with
    | .error u => .error u
    | .ok s => .ok (.ret .unit, { s with head := NO, tail := NO, registered := if v = .interrupt then 0 else s.registered })
  | .hasActive => .ok (.ret (.bool (decide (s.head ≠ NO))), s)
  | .next => .ok (.time (if s.head ≠ NO then (s.timers s.head).delta else Inactive), s)
  /- in callback_timer_atomic.h l.341-352, the whole question is asked in this section -/
  | .isActive1 i => .ok (.ret (.bool (if v = .atomic then decide (s.head ≠ NO) && decide ((s.timers i).id ≠ NO) && decide ((s.timers i).delta ≠ Inactive) else decide (s.head ≠ NO))), s)
  | .isActive2 i => .ok (.ret (.bool (decide ((s.timers i).id ≠ NO) && decide ((s.timers i).delta ≠ Inactive))), s)

/-- Does the call take effect with the work of this section? -/
def takesEffect (v : Variant) (x : Sec) (r : Resp) : Bool :=
  match x with
  | .isActive1 _ => decide (v = .atomic) || decide (r = no)
  | _ => true

/-- Where a call goes on after a section. -/
def after (v : Variant) (x : Sec) (r : Resp) : P :=
  match x with
  | .remove k i => .finish k i
  | .clearList => .wipe 0
  | .isActive1 i => if takesEffect v x r then .ret r else .enter (.isActive2 i)
  | _ => .ret r

/-- The last part of the four functions: nothing (l.265), l.108-110, l.279, l.293. -/
def finish (s : St) (k : Kind) (i : Nat) : St :=
  match k with
  | .stop => s
  | .unreg => { s with timers := upd s.timers i {}, registered := s.registered - 1 }
  | .period p => { s with timers := upd s.timers i { s.timers i with period := p } }
  | .mode r => { s with timers := upd s.timers i { s.timers i with repeating := r } }

/-- Is the thread in a protected section: `process_semaphore != 0`, or interrupts are off, or the lock is taken. -/
def busy : Pc → Bool
  | .run _ (.body _) => true
  | .run _ (.leave _ _) => true
  | _ => false

/-- One turn of the loop of `tick` after its condition, l.172-188: the timer is put back *after* its callback.  `cb i h` are the calls the callback of timer `i` makes on the timer, `h` being the timers called back so far. -/
def fireA (cb : Nat → List Nat → List Op) (s : St) : Res St :=
  match remove s (s.timers s.head).id true with
  | .error u => .error u
  | .ok s1 => match applyAll { s1 with log := s1.log ++ [(s1.timers s.head).id] } (cb (s1.timers s.head).id (s1.log ++ [(s1.timers s.head).id])) with
    | .error u => .error u
    | .ok s2 => rearm s2 s.head

/-- The loop of `tick`, l.170-191, and the subtraction of the remainder, l.193-197. -/
def loopA (cb : Nat → List Nat → List Op) : Nat → Nat → St → Res St
  | 0, _, _ => .error .diverge
  | fuel + 1, count, s =>
    if s.head = NO then .ok s
    else if ¬ s.head < s.max then .error .outOfBounds
    else if count ≥ (s.timers s.head).delta then
      match fireA cb s with
      | .error u => .error u
      | .ok s' => loopA cb fuel (count - (s.timers s.head).delta) s'
    else put s s.head (fun t => { t with delta := t.delta - count })

/-- `tick` while the list is not protected, l.158-205. -/
def tickA (cb : Nat → List Nat → List Op) (fuel : Nat) (s : St) (count : Nat) : Res (Bool × St) :=
  if s.enabled then
    match loopA cb fuel count s with
    | .error u => .error u
    | .ok s => .ok (true, s)
  else .ok (false, s)

/-- A `tick` comes in.  While the thread is in a section: l.162 (and `try_lock`, callback_timer_locked.h l.163) answers false; with interrupts off it does not come in. -/
def tick (v : Variant) (fuel : Nat) (s : S) (count : Nat) : Res S :=
  if busy s.pc then
    if v = .interrupt then .ok s else .ok { s with trace := s.trace ++ [.tick count false] }
  else match tickA (fun _ _ => []) fuel s.t count with
    | .error u => .error u
    | .ok (b, t) => .ok { s with t := t, trace := s.trace ++ [.tick count b] }

/-- A step of the thread. -/
def step (v : Variant) (s : S) : Res S :=
  match s.pc with
  | .idle => .ok s
  | .run o p =>
    match p with
    | .begin => match begin s.t o with
      | .error u => .error u
      | .ok (p, some r, t) => .ok { t := t, pc := .run o p, trace := s.trace ++ [.lin o r] }
      | .ok (p, none, t) => .ok { t := t, pc := .run o p, trace := s.trace }
    | .enter x => .ok { s with pc := .run o (.body x) }
    | .body x => match work v s.t x with
      | .error u => .error u
      | .ok (r, t) => .ok { t := t, pc := .run o (.leave x r), trace := if takesEffect v x r then s.trace ++ [.lin o r] else s.trace }
    | .leave x r => .ok { s with pc := .run o (after v x r) }
    | .create i p r => .ok { t := { s.t with timers := upd s.t.timers i { period := p, id := i, repeating := r }, registered := s.t.registered + 1 }, pc := .run o (.ret (.ret (.id i))), trace := s.trace ++ [.lin o (.ret (.id i))] }
    | .finish k i => .ok { s with t := finish s.t k i, pc := .run o (.ret yes) }
    | .wipe k =>
      if k < s.t.max then .ok { s with t := { s.t with timers := upd s.t.timers k {} }, pc := .run o (.wipe (k + 1)) }
      else .ok { s with t := { s.t with registered := if v = .interrupt then s.t.registered else 0 }, pc := .run o (.ret (.ret .unit)) }
    | .ret r => .ok { s with pc := .idle, trace := s.trace ++ [.ret o r] }

/-- What happens: the thread makes a call (if it is not in one), or does a step of it, or a `tick` comes in. -/
inductive Act where
  | call (o : COp)
  | step
  | tick (count : Nat)

def act (v : Variant) (fuel : Nat) (s : S) : Act → Res S
  | .call o => match s.pc with
    | .idle => .ok { s with pc := .run o .begin, trace := s.trace ++ [.inv o] }
    | .run _ _ => .ok s
  | .step => step v s
  | .tick c => tick v fuel s c

def run (v : Variant) (fuel : Nat) : S → List Act → Res S
  | s, [] => .ok s
  | s, a :: as => match act v fuel s a with
    | .error u => .error u
    | .ok s' => run v fuel s' as

end Etl.TimerIsr
