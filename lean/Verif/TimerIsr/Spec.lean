import Verif.TimerIsr.Model
import Verif.Timer.Spec

/-!
# What timers ticked from an interrupt should do

The timers themselves are as in `Verif/Timer/Spec.lean`: deadlines, and time that passes.  Here: a thread makes calls that take time, ticks come in at any moment, and yet everything happens as if each call
were done at one moment between its beginning and its end.
-/
namespace Etl.TimerIsr
open Etl.Timer

/-- Something done at one moment: a call with its answer, or a tick with its answer. -/
inductive Item where
  | call (o : COp) (r : Resp)
  | tick (count : Nat) (answer : Bool)

/-- What it does to the timers and to the list of those that have fired. -/
inductive Does (max : Nat) : Sp → Trace → Item → Sp → Trace → Prop
  | op {s h o r s'} : SpecOp max s o r s' → Does max s h (.call (.op o) (.ret r)) s' h
  | hasActive {s h b} : (b = true ↔ ∃ i d, s.due i = some d) → Does max s h (.call .hasActive (.ret (.bool b))) s h
  | next {s h i d} : s.due i = some d → (∀ j e, s.due j = some e → d ≤ e) → Does max s h (.call .timeToNext (.time (d - s.now))) s h
  | nextNone {s h} : (∀ i, s.due i = none) → Does max s h (.call .timeToNext (.time Inactive)) s h
  | isActive {s h i b} : (b = true ↔ ∃ d, s.due i = some d) → Does max s h (.call (.isActive i) (.ret (.bool b))) s h
  /-- an accepted tick: time passes -/
  | tick {s h c s' h'} : s.enabled = true → SpecTick max (fun _ _ => []) (s.now + c) s h s' h' → Does max s h (.tick c true) s' h'
  /-- a tick that was not accepted does nothing: the time is to be counted again by the next one -/
  | missed {s h c} : Does max s h (.tick c false) s h

/-- Legal histories, from the constructor on. -/
inductive Legal (max : Nat) : List Item → Sp → Trace → Prop
  | nil : Legal max [] Sp.init []
  | snoc {l s h x s' h'} : Legal max l s h → Does max s h x s' h' → Legal max (l ++ [x]) s' h'

/-- Without the moments at which the calls take effect. -/
def visible : List Ev → List Ev
  | [] => []
  | .lin _ _ :: t => visible t
  | e :: t => e :: visible t

/-- What takes effect, in its order. -/
def items : List Ev → List Item
  | [] => []
  | .lin o r :: t => .call o r :: items t
  | .tick c b :: t => .tick c b :: items t
  | _ :: t => items t

inductive Phase where
  | out
  | before (o : COp)
  | after (o : COp) (r : Resp)

/-- The thread: a call, then it takes effect, then it returns with the same result; ticks at any time.  `Follows h ph`: the history `h` ends in phase `ph`. -/
inductive Follows : List Ev → Phase → Prop where
  | nil : Follows [] .out
  | inv {h o} : Follows h .out → Follows (h ++ [.inv o]) (.before o)
  | lin {h o r} : Follows h (.before o) → Follows (h ++ [.lin o r]) (.after o r)
  | ret {h o r} : Follows h (.after o r) → Follows (h ++ [.ret o r]) .out
  | tick {h ph c b} : Follows h ph → Follows (h ++ [.tick c b]) ph

/-- A moment can be put into the history between each call and its return, such that the calls, done at these moments with the answers they returned, and the ticks with theirs, are a legal history in which the timers `h` fire, and when. -/
def Linearizable (max : Nat) (vis : List Ev) (h : Trace) : Prop :=
  ∃ full, visible full = vis ∧ (∃ ph, Follows full ph) ∧ ∃ sp, Legal max (items full) sp h

end Etl.TimerIsr
