import Verif.Broker.Model

/-!
# Specification of message brokers

Each broker has an ordered list of subscriptions.  A subscription for a router that has one already replaces it in its place; others are added at the end.
A message goes to the subscribers in that order, and then to the successor.  A handler may change the lists: the delivery goes on with the subscription that
follows the one just served *in the list as it is then*.  Outside the contract (`none`): subscribing one subscription object at two brokers, and a delivery
whose current subscription is no longer in the broker's list when its handler returns.
-/
namespace Etl.Broker

abbrev Subs := Nat → List Nat

def Subs.init : Subs := fun _ => []

/-- Replace in place, or add at the end. -/
def specSubscribe (e : Env) (l : List Nat) (s : Nat) : List Nat :=
  if ∃ x ∈ l, e.rt x = e.rt s then l.map (fun x => if e.rt x = e.rt s then s else x) else l ++ [s]

def specUnsubscribe (e : Env) (l : List Nat) (t : Target) : List Nat := l.filter (fun x => decide (e.rt x ≠ t))

/-- The subscription that follows `s` in the list. -/
def following (s : Nat) : List Nat → Option Nat
  | [] => none
  | x :: l => if x = s then l.head? else following s l

/-- The subscription wants this message with this destination. -/
def wants (e : Env) (d m s : Nat) : Bool := decide (m ∈ e.ids s) && (decide (d = ALL) || decide (d = e.rid (e.rt s)))

def specStep (e : Env) (sp : Subs) : Task → Option (Subs × List Task × List Ev)
  | .op (.subscribe b s) =>
    if b < e.B ∧ s < e.N ∧ ∀ b' < e.B, b' ≠ b → s ∉ sp b' then some (upd sp b (specSubscribe e (sp b) s), [], []) else none
  | .op (.unsubscribe b t) => if b < e.B then some (upd sp b (specUnsubscribe e (sp b) t), [], []) else none
  | .op (.clear b) => if b < e.B then some (upd sp b [], [], []) else none
  | .op (.send t od m) => some (sp, [.recv t od m], [])
  | .recv (.user r) od m => some (sp, (e.script r od m).map .op, [.got r od m])
  | .recv (.broker b) none m => some (sp, [.recv (.broker b) (some ALL) m], [])
  | .recv (.broker b) (some d) m =>
    if sp b = [] then some (sp, [.succ b d m], []) else some (sp, [.loop b (sp b).head? d m, .succ b d m], [])
  | .loop _ none _ _ => some (sp, [], [])
  | .loop b (some s) d m => some (sp, (if wants e d m s then [.recv (e.rt s) none m] else []) ++ [.next b s d m], [])
  | .next b s d m => if s ∈ sp b then some (sp, [.loop b (following s (sp b)) d m], []) else none
  | .succ b d m => some (sp, match e.succ b with | some t => [.recv t (some d) m] | none => [], [])

structure SpecRun where
  sp : Subs
  todo : List Task
  evs : List Ev

/-- `n` steps; `none`: the program left the contract. -/
def specRun (e : Env) : Nat → SpecRun → Option SpecRun
  | 0, r => some r
  | n + 1, r =>
    match r.todo with
    | [] => some r
    | t :: k =>
      match specStep e r.sp t with
      | none => none
      | some (sp, ts, es) => specRun e n ⟨sp, ts ++ k, r.evs ++ es⟩

def specStart (prog : List Op) : SpecRun := ⟨Subs.init, prog.map .op, []⟩

end Etl.Broker
