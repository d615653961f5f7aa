import Verif.Flat.Model

/-!
# Model of message_router_registry.h, over the model of flat_multimap

Source: `/repo/include/etl/message_router_registry.h`.

Routers are numbers (their addresses); `rid r` is what `get_message_router_id()` of the router `r` returns.
-/
namespace Etl.Registry
open Etl.Flat

/-- `flat_multimap<message_router_id_t, imessage_router*, MaxRouters>`, l.573-574. -/
abbrev Reg := St (Nat × Nat)
def idLt (a b : Nat) : Bool := decide (a < b)

/-- The default constructor, l.515-518. -/
def new (cap : Nat) (dbg triv : Bool) : Reg := Flat.init cap true true dbg triv

/-- `find(id)`, l.296-322: a null pointer if there is none. -/
def find (s : Reg) (id : Nat) : Res (Option Nat) := do
  let i ← Flat.find Prod.fst idLt s id
  if i ≠ size s then .ok (some (← readAt s i).2) else .ok none

/-- `contains(id)`, l.406-413. -/
def containsId (s : Reg) (id : Nat) : Res Bool := do .ok ((← find s id).isSome)

/-- `contains(router)`, l.434-439; with a pointer l.418-429. -/
def contains (rid : Nat → Nat) (s : Reg) (r : Nat) : Res Bool := do
  let i ← Flat.find Prod.fst idLt s (rid r)
  if i ≠ size s then .ok ((← readAt s i).2 == r) else .ok false
def containsPtr (rid : Nat → Nat) (s : Reg) : Option Nat → Res Bool
  | none => .ok false
  | some r => contains rid s r

/-- `add(router)`, l.354-367: true, or the error `message_router_registry_full`. -/
def add (rid : Nat → Nat) (s : Reg) (r : Nat) : Res (Reg × Bool) := do
  if !full s then
    if !(← contains rid s r) then
      let (s, _) ← step Prod.fst idLt s (.insert (rid r, r))
      .ok (s, true)
    else .ok (s, false)
  else .ok (s, false)
/-- `add(p_router)`, l.372-378: nothing for a null pointer. -/
def addPtr (rid : Nat → Nat) (s : Reg) : Option Nat → Res (Reg × Bool)
  | none => .ok (s, true)
  | some r => add rid s r
/-- `add(first, last)`, l.384-392, and the constructors, l.524-550; the first error ends it. -/
def addAll (rid : Nat → Nat) : Reg → List Nat → Res (Reg × Bool)
  | s, [] => .ok (s, true)
  | s, r :: rs => do
    let (s, ok) ← add rid s r
    if ok then addAll rid s rs else .ok (s, false)

/-- `remove(id)`, l.397-400. -/
def remove (s : Reg) (id : Nat) : Res Reg := do .ok (← step Prod.fst idLt s (.eraseKey id)).1

/-- `count(id)`, l.444-447. -/
def count (s : Reg) (id : Nat) : Res Nat := Flat.count Prod.fst idLt s id

/-- What the iterators from `begin()` to `end()` show, l.85-291. -/
def shown (s : Reg) : Res (List Nat) := do .ok ((← view s).map Prod.snd)

/-- What the iterators from `lower_bound(id)` to `upper_bound(id)` show, l.327-349. -/
def shownRange (s : Reg) (id : Nat) : Res (List Nat) := do
  let i ← lower Prod.fst idLt s id
  let j ← upper Prod.fst idLt s id
  .ok ((((← view s).take j).drop i).map Prod.snd)

end Etl.Registry
