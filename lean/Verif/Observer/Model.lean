import Verif.Common.Res

/-!
# Model of `etl::observable`

Source: `/repo/include/etl/observer.h`.

The `etl::vector<observer_item, MAX_OBSERVERS>` is modelled by the list of its items (C05 proves that refinement for `etl::vector`); an iterator into it is an
index.  Observers are identified by their address.  What an observer does to the observable inside its `notification` is a list of operations (`script`).
-/
namespace Etl.Observer

variable {ω : Type} [DecidableEq ω]

/-- `observer_item`, l.105-115. -/
structure Item (ω : Type) where
  obs : ω
  enabled : Bool
  deriving DecidableEq, Repr

structure St (ω : Type) where
  items : List (Item ω)
  max : Nat                    -- MAX_OBSERVERS

def init (max : Nat) : St ω := ⟨[], max⟩

/-- `find_observer`: `find_if` over the list, l.286-289; the loop returns the index, `size` for `end()`. -/
def find (o : ω) : List (Item ω) → Nat
  | [] => 0
  | i :: is => if o = i.obs then 0 else find o is + 1

inductive Out (ω : Type) where
  | unit | full | bool (b : Bool)
  | called (os : List ω)
  deriving DecidableEq, Repr

/-- The operations that change the observer list. -/
inductive Op (ω : Type) where
  | add (o : ω)
  | remove (o : ω)
  | enable (o : ω) (state : Bool)
  | disable (o : ω)
  | clear
  deriving Repr

/-- `add_observer` l.148-162, `remove_observer` l.169-185, `enable_observer` l.192-202, `disable_observer` l.207-217, `clear_observers` l.222-225. -/
def step (s : St ω) : Op ω → St ω × Out ω
  | .add o =>
    if find o s.items = s.items.length then
      if s.items.length = s.max then (s, .full)
      else ({ s with items := s.items ++ [⟨o, true⟩] }, .unit)
    else (s, .unit)
  | .remove o =>
    let i := find o s.items
    if i ≠ s.items.length then ({ s with items := s.items.eraseIdx i }, .bool true) else (s, .bool false)
  | .enable o b =>
    let i := find o s.items
    if i ≠ s.items.length then ({ s with items := s.items.modify i (fun x => { x with enabled := b }) }, .unit) else (s, .unit)
  | .disable o =>
    let i := find o s.items
    if i ≠ s.items.length then ({ s with items := s.items.modify i (fun x => { x with enabled := false }) }, .unit) else (s, .unit)
  | .clear => ({ s with items := [] }, .unit)

def steps (s : St ω) : List (Op ω) → St ω
  | [] => s
  | o :: os => steps (step s o).1 os

/-- `notify_observers`, l.240-272: the loop at index `i`; `end()` is evaluated every time, so the list may change while the loop runs.
Returns the observers called, in order.  An index past the end is undefined behaviour; running out of fuel means the loop does not end. -/
def notifyLoop (script : ω → List (Op ω)) : Nat → St ω → Nat → Res (St ω × List ω)
  | 0, _, _ => .error .diverge
  | fuel + 1, s, i =>
    if i = s.items.length then .ok (s, [])
    else
      match s.items[i]? with
      | none => .error .outOfBounds
      | some x =>
        if x.enabled then
          match notifyLoop script fuel (steps s (script x.obs)) (i + 1) with
          | .error u => .error u
          | .ok (s, cs) => .ok (s, x.obs :: cs)
        else notifyLoop script fuel s (i + 1)

/-- More iterations than the list can ever have. -/
def notify (script : ω → List (Op ω)) (s : St ω) : Res (St ω × List ω) := notifyLoop script (s.max + 1) s 0

/-- `number_of_observers`, l.230-233. -/
def number (s : St ω) : Nat := s.items.length

end Etl.Observer
