import Verif.Common.Res

/-!
# Model of fsm and hfsm

Sources: `/repo/include/etl/fsm.h` (C++17 `fsm_state`, l.556-625; the C++14 versions do the same with a `switch`), `/repo/include/etl/hfsm.h`.

States are numbered by their ids; `state_list[i]` is the state with id `i` (`set_states` checks it).  The user's virtual functions act on the user's data of
type `σ`.  What happens is observed as a log of calls.  The handlers do not call the machine again.
Loops which follow pointers have fuel; running out of it is `diverge`.
-/
namespace Etl.Fsm

/-- The special ids for `uint_least8_t`, fsm.h l.193-199. -/
def No_State_Change : Nat := 255
def Pass_To_Parent : Nat := 254
def Self_Transition : Nat := 253

/-- The user's states. -/
structure Chart (σ : Type) where
  /-- `number_of_states` -/
  num : Nat
  /-- `p_parent`, `p_default_child`, as set up by `add_child_state`, fsm.h l.251-261 -/
  parent : Nat → Option Nat
  dflt : Nat → Option Nat
  /-- `on_event` of a state for a message id; `none` if it has none for it -/
  handler : Nat → Nat → σ → Option (Nat × σ)
  /-- `on_event_unknown` -/
  unknown : Nat → Nat → σ → Nat × σ
  /-- `on_enter_state` -/
  enter : Nat → σ → Nat × σ
  /-- `on_exit_state` -/
  exit : Nat → σ → σ

inductive Ev where
  | event (s m : Nat)
  | unknown (s m : Nat)
  | enter (s : Nat)
  | exit (s : Nat)
  | fail                     -- an `ETL_ASSERT` fired (then the function returns)
  deriving DecidableEq, Repr

/-- `p_state`, the `p_active_child` pointers, the user's data, and what was called so far. -/
structure St (σ : Type) where
  cur : Option Nat
  active : Nat → Option Nat
  user : σ
  log : List Ev

variable {σ : Type}

def call (c : Chart σ) (s : St σ) (x : Nat) : Nat × St σ :=
  ((c.enter x s.user).1, { s with user := (c.enter x s.user).2, log := s.log ++ [.enter x] })

def callExit (c : Chart σ) (s : St σ) (x : Nat) : St σ := { s with user := c.exit x s.user, log := s.log ++ [.exit x] }

def fail (s : St σ) : St σ := { s with log := s.log ++ [.fail] }

/-- `fsm_state::process_event`, fsm.h l.593-620. -/
def processEvent (c : Chart σ) (m : Nat) : Nat → Nat → St σ → Res (Nat × St σ)
  | 0, _, _ => .error .diverge
  | fuel + 1, x, s =>
    match c.handler x m s.user with
    | some (r, u) =>
      let s := { s with user := u, log := s.log ++ [.event x m] }
      if r = Pass_To_Parent then
        match c.parent x with
        | some p => processEvent c m fuel p s
        | none => .ok ((c.unknown x m s.user).1, { s with user := (c.unknown x m s.user).2, log := s.log ++ [.unknown x m] })
      else .ok (r, s)
    | none =>
      match c.parent x with
      | some p => processEvent c m fuel p s
      | none => .ok ((c.unknown x m s.user).1, { s with user := (c.unknown x m s.user).2, log := s.log ++ [.unknown x m] })

/-! ## fsm -/

/-- `have_changed_state`, fsm.h l.535-540. -/
def changed (cur r : Nat) : Bool := r ≠ cur && r ≠ No_State_Change && r ≠ Self_Transition

/-- The `do ... while` of `fsm::receive`, fsm.h l.428-440: from `x` to `next`. -/
def changeLoop (c : Chart σ) : Nat → Nat → Nat → St σ → Res (St σ)
  | 0, _, _, _ => .error .diverge
  | fuel + 1, x, next, s =>
    match call c { callExit c s x with cur := some next } next with
    | (r, s) =>
      if changed next r then
        if r < c.num then changeLoop c fuel next r s
        else .ok (fail s)
      else .ok s

/-- `fsm::receive`, fsm.h l.417-452. -/
def receive (c : Chart σ) (fuel : Nat) (s : St σ) (m : Nat) : Res (St σ) :=
  match s.cur with
  | some x => do
    let (r, s) ← processEvent c m fuel x s
    if changed x r then
      if r < c.num then changeLoop c fuel x r s
      else .ok (fail s)
    else if r = Self_Transition then
      .ok (call c (callExit c s x) x).2
    else .ok s
  | none => .ok (fail s)

/-- The `do ... while` of `fsm::start`, fsm.h l.400-409.  The assert throws, or with asserts off the table is indexed out of bounds. -/
def startLoop (c : Chart σ) : Nat → Nat → St σ → Res (St σ)
  | 0, _, _ => .error .diverge
  | fuel + 1, x, s =>
    match call c s x with
    | (r, s) =>
      if r = No_State_Change then .ok s
      else if r < c.num then
        if r = x then .ok { s with cur := some r } else startLoop c fuel r { s with cur := some r }
      else .ok (fail s)

/-- `fsm::start`, fsm.h l.387-412. -/
def start (c : Chart σ) (fuel : Nat) (callEnter : Bool) (s : St σ) : Res (St σ) :=
  match s.cur with
  | some _ => .ok s
  | none =>
    let s := { s with cur := some 0 }
    if callEnter then startLoop c fuel 0 s else .ok s

/-- `fsm::reset`, fsm.h l.504-512. -/
def reset (c : Chart σ) (callExit' : Bool) (s : St σ) : St σ :=
  match s.cur with
  | some x => { (if callExit' then callExit c s x else s) with cur := none }
  | none => { s with cur := none }

/-! ## hfsm -/

/-- `get_depth`, hfsm.h l.167-178. -/
def depth (c : Chart σ) : Nat → Option Nat → Res Nat
  | _, none => .ok 0
  | 0, some _ => .error .diverge
  | fuel + 1, some x => do .ok ((← depth c fuel (c.parent x)) + 1)

/-- `adjust_depth`, hfsm.h l.183-192. -/
def adjust (c : Chart σ) : Nat → Option Nat → Res (Option Nat)
  | 0, x => .ok x
  | _ + 1, none => .error .nullDeref
  | n + 1, some x => adjust c n (c.parent x)

/-- The loop of `common_ancestor`, hfsm.h l.155-159. -/
def climb (c : Chart σ) : Nat → Option Nat → Option Nat → Res (Option Nat)
  | 0, a, b => if a = b then .ok a else .error .diverge
  | fuel + 1, a, b =>
    if a = b then .ok a
    else match a, b with
      | some x, some y => climb c fuel (c.parent x) (c.parent y)
      | _, _ => .error .nullDeref

/-- `common_ancestor`, hfsm.h l.139-162. -/
def commonAncestor (c : Chart σ) (fuel : Nat) (x y : Nat) : Res (Option Nat) := do
  let d1 ← depth c fuel (some x)
  let d2 ← depth c fuel (some y)
  if d1 > d2 then climb c fuel (← adjust c (d1 - d2) (some x)) (some y)
  else climb c fuel (some x) (← adjust c (d2 - d1) (some y))

/-- Part of `do_enters`, hfsm.h l.202-214: enter the ancestors below the root and then the target.  The results of `on_enter_state` are `No_State_Change` (an assert says so). -/
def enterTo (c : Chart σ) (root : Option Nat) : Nat → Nat → St σ → Res (St σ)
  | 0, _, _ => .error .diverge
  | fuel + 1, x, s =>
    match c.parent x with
    | some p =>
      if root ≠ some x then do
        let s ← if root ≠ some p then enterTo c root fuel p s else .ok s
        .ok (call c { s with active := upd s.active p (some x) } x).2
      else .ok (call c s x).2
    | none => .ok (call c s x).2

/-- The rest of `do_enters`, hfsm.h l.218-229: the default children; gives the last state entered. -/
def enterDefaults (c : Chart σ) : Nat → Nat → St σ → Res (Nat × St σ)
  | 0, _, _ => .error .diverge
  | fuel + 1, x, s =>
    match c.dflt x with
    | some d =>
      match c.parent d with
      | some p => enterDefaults c fuel d (call c { s with active := upd s.active p (some d) } d).2
      | none => .error .nullDeref
    | none => .ok (x, s)

/-- `do_enters(root, target, true)`, hfsm.h l.197-232. -/
def doEnters (c : Chart σ) (root : Option Nat) (fuel x : Nat) (s : St σ) : Res (Nat × St σ) := do
  let s ← enterTo c root fuel x s
  enterDefaults c fuel x s

/-- First loop of `do_exits`, hfsm.h l.242-245. -/
def lowest (s : St σ) : Nat → Nat → Res Nat
  | 0, _ => .error .diverge
  | fuel + 1, x =>
    match s.active x with
    | some y => lowest s fuel y
    | none => .ok x

/-- Second loop of `do_exits`, hfsm.h l.248-252. -/
def exitUp (c : Chart σ) (root : Option Nat) : Nat → Option Nat → St σ → Res (St σ)
  | 0, x, s => if x = root then .ok s else .error .diverge
  | fuel + 1, x, s =>
    if x = root then .ok s
    else match x with
      | some y => exitUp c root fuel (c.parent y) (callExit c s y)
      | none => .error .nullDeref

/-- `do_exits`, hfsm.h l.237-253. -/
def doExits (c : Chart σ) (root : Option Nat) (fuel x : Nat) (s : St σ) : Res (St σ) := do
  let y ← lowest s fuel x
  exitUp c root fuel (some y) s

/-- `hfsm::start`, hfsm.h l.60-78. -/
def hstart (c : Chart σ) (fuel : Nat) (callEnter : Bool) (s : St σ) : Res (St σ) :=
  match s.cur with
  | some _ => .ok s
  | none =>
    let s := { s with cur := some 0 }
    if callEnter then do
      let (r, s) ← doEnters c none fuel 0 s
      .ok { s with cur := some r }
    else .ok s

/-- `hfsm::reset`, hfsm.h l.84-92. -/
def hreset (c : Chart σ) (fuel : Nat) (callExit' : Bool) (s : St σ) : Res (St σ) :=
  match s.cur with
  | some x =>
    if callExit' then do
      let s ← doExits c none fuel x s
      .ok { s with cur := none }
    else .ok { s with cur := none }
  | none => .ok { s with cur := none }

/-- `hfsm::receive`, hfsm.h l.99-132. -/
def hreceive (c : Chart σ) (fuel : Nat) (s : St σ) (m : Nat) : Res (St σ) :=
  match s.cur with
  | some x => do
    let (r, s) ← processEvent c m fuel x s
    if r = No_State_Change then .ok s
    else if ¬ r < c.num then .ok (fail s)
    else if r = x then .ok s
    else do
      let root ← commonAncestor c fuel x r
      let s ← doExits c root fuel x s
      let (n, s) ← doEnters c root fuel r { s with cur := some r }
      .ok { s with cur := some n }
  | none => .ok (fail s)

end Etl.Fsm
