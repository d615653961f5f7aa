import Verif.Common.Res

/-!
# Model of `etl::debounce`

Source: `/repo/include/etl/debounce.h`.  The `flags` byte is the record of its three disjoint bit fields: `State` (bits 0-1), `Sample` (bit 2) and `Change` (bit 3)
(enum l.105-114); `Res` errors mark a read outside a state table.
-/
namespace Etl.Debounce

structure Flags where
  state : Nat      -- Off = 0, On = 1, Held = 2, Repeating = 3
  sample : Bool
  change : Bool
  deriving DecidableEq, Repr

structure St where
  flags : Flags
  count : Nat
  deriving DecidableEq, Repr

/-- `debounce_base(bool)`, l.119-123. -/
def init (initial : Bool) : St := ⟨⟨if initial then 1 else 0, false, false⟩, 0⟩

/-- `add_sample`, l.55-65. -/
def addSample (s : St) (sample : Bool) : St :=
  let s := if sample != s.flags.sample then { s with count := 0, flags := { s.flags with sample := sample } } else s
  { s with flags := { s.flags with change := false } }

/-- `get_next`, l.135-156. -/
def getNext (s : St) (sample condSet condClear : Bool) (table : List (Nat × Nat)) : Res St :=
  let index1 := s.flags.state * 2 + (if sample then 1 else 0)
  let index2 := if sample then (if condSet then 0 else 1) else (if condClear then 0 else 1)
  match table[index1]? with
  | none => .error .outOfBounds
  | some row =>
    let next : Flags := { s.flags with state := if index2 = 0 then row.1 else row.2 }
    let next : Flags := if next ≠ s.flags then { next with change := true } else { next with change := false }
    .ok { s with flags := next }

/-- l.185-191 -/
def table2 : List (Nat × Nat) := [(0, 0), (1, 0), (0, 1), (1, 1)]
/-- l.263-271 -/
def table3 : List (Nat × Nat) := [(0, 0), (1, 0), (0, 1), (2, 1), (0, 2), (2, 2)]
/-- l.350-360 -/
def table4 : List (Nat × Nat) := [(0, 0), (1, 0), (0, 1), (2, 1), (0, 2), (3, 2), (0, 3), (3, 3)]

def UINT16_MAX : Nat := 65535

/-- The common end of the three `process` functions. -/
def finish (s : St) : St × Bool := (if s.flags.change then { s with count := 0 } else s, s.flags.change)

/-- `debounce2::process`, l.199-236. -/
def process2 (s : St) (sample : Bool) (V : Nat) : Res (St × Bool) := do
  let s := addSample s sample
  if s.count < UINT16_MAX then
    let s := { s with count := s.count + 1 }
    let valid := s.count == V
    match s.flags.state with
    | 0 => .ok (finish (← getNext s sample valid valid table2))
    | 1 => .ok (finish (← getNext s sample valid valid table2))
    | _ => .ok (finish s)
  else .ok (finish s)

/-- `debounce3::process`, l.279-323. -/
def process3 (s : St) (sample : Bool) (V H : Nat) : Res (St × Bool) := do
  let s := addSample s sample
  if s.count < UINT16_MAX then
    let s := { s with count := s.count + 1 }
    let valid := s.count == V
    let hold := s.count == H
    match s.flags.state with
    | 0 => .ok (finish (← getNext s sample valid valid table3))
    | 1 => .ok (finish (← getNext s sample hold valid table3))
    | 2 => .ok (finish (← getNext s sample hold valid table3))
    | _ => .ok (finish s)
  else .ok (finish s)

/-- `debounce4::process`, l.368-425. -/
def process4 (s : St) (sample : Bool) (V H R : Nat) : Res (St × Bool) := do
  let s := addSample s sample
  if s.count < UINT16_MAX then
    let s := { s with count := s.count + 1 }
    let valid := s.count == V
    let hold := s.count == H
    let repeat_ := s.count == R
    match s.flags.state with
    | 0 => .ok (finish (← getNext s sample valid valid table4))
    | 1 => .ok (finish (← getNext s sample hold valid table4))
    | 2 => .ok (finish (← getNext s sample repeat_ valid table4))
    | 3 => do
      let s ← getNext s sample repeat_ valid table4
      .ok (finish (if sample && repeat_ then { s with count := 0, flags := { s.flags with change := true } } else s))
    | _ => .ok (finish s)
  else .ok (finish s)

/-- The four class templates, l.433-593: which `process` is used is decided by the template arguments; `var` is `debounce<0, 0, 0>` with `set`. -/
inductive Kind where
  | k4 (V H R : Nat)   -- l.433-457
  | k3 (V H : Nat)     -- l.462-489
  | k2 (V : Nat)       -- l.494-520
  | var (V H R : Nat)  -- l.525-593
  deriving Repr

/-- A whole object.  `has_changed`, `is_set`, `is_held`, `is_repeating` l.71-101. -/
structure Obj where
  kind : Kind
  st : St
def hasChanged (o : Obj) : Bool := o.st.flags.change
def isSet (o : Obj) : Bool := o.st.flags.state > 0
def isHeld (o : Obj) : Bool := o.st.flags.state > 1
def isRepeating (o : Obj) : Bool := o.st.flags.state == 3

inductive Op where
  | add (sample : Bool)
  | set (V H R : Nat)      -- only on `debounce<0, 0, 0>`; ignored on the others, which have no such function
  deriving Repr

/-- `add`, l.452, 484, 515, 574; `set`, l.557-562. -/
def step (o : Obj) : Op → Res (Obj × Option Bool)
  | .add b => do
    let r ← match o.kind with
      | .k4 V H R => process4 o.st b V H R
      | .k3 V H => process3 o.st b V H
      | .k2 V => process2 o.st b V
      | .var V H R => process4 o.st b V H R
    .ok ({ o with st := r.1 }, some r.2)
  | .set V H R => .ok (match o.kind with | .var _ _ _ => { o with kind := .var V H R } | _ => o, none)

/-- The trace of a run: after every operation (returned value, has_changed, is_set, is_held, is_repeating). -/
def run (o : Obj) : List Op → Res (List (Option Bool × Bool × Bool × Bool × Bool))
  | [] => .ok []
  | p :: ps => do
    let (o, r) ← step o p
    let rs ← run o ps
    .ok ((r, hasChanged o, isSet o, isHeld o, isRepeating o) :: rs)

end Etl.Debounce
