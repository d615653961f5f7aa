/-
Model of etl::message_packet: /repo/include/etl/message_packet.h l.66-381 (the C++17 implementation), with `imessage` and `message` of
/repo/include/etl/message.h l.69-190, and SIZE and ALIGNMENT by `etl::largest` (/repo/include/etl/largest.h l.333-345, in `Verif.VPool.Model`).

A message type is a number; `id` gives its message id, which the user chooses and which need not be unique.  A message object is its type and a
value.  A packet is the object that lives in its storage, if any, and the flag `valid`.  Packets are variables, numbered.  What the program does not
have and the model does: it knows what lives in a storage.  Constructing on top of a living object, destroying or reading what does not live, and
casting an object to a type it does not have, are errors.  `built` and `destroyed` count the constructor and destructor calls of messages, per packet.
Copy and move constructors of messages do not throw.
-/
import Verif.VPool.Model

namespace Etl.Packet

/-- a message object -/
structure Obj where
  ty : Nat
  val : Nat
  deriving DecidableEq

/-- the template arguments, the message ids, whether messages are virtual (ETL_HAS_VIRTUAL_MESSAGES), whether a failed assertion throws, and what moving leaves behind in a message -/
structure Cfg where
  types : List Nat
  id : Nat → Nat
  virt : Bool
  throws : Bool
  moved : Obj → Nat

/-- `data` and `valid`, l.379-380 -/
structure Packet where
  data : Option Obj
  valid : Bool

inductive Err
  | dead
  | wrongType
  | leak
  | noPacket
  deriving DecidableEq

structure World where
  pk : Nat → Option Packet
  built : Nat → Nat
  destroyed : Nat → Nat

def upd {α : Type} (f : Nat → α) (i : Nat) (a : α) : Nat → α := fun k => if k = i then a else f k

/-- `accepts(id)`, l.230-233, l.274-277 -/
def accepts (c : Cfg) (id : Nat) : Bool := c.types.any fun t => decide (c.id t = id)

/-- `new (p) TType(...)` in the storage of packet `i`, l.339-342, l.352-353, l.369-370 -/
def place (w : World) (i : Nat) (p : Packet) (o : Obj) : Except Err (World × Packet) :=
  match p.data with
  | some _ => .error .leak
  | none => .ok ({ w with built := upd w.built i (w.built i + 1) }, { p with data := some o })
/-- `(add_new_message_type<TMessageTypes>(msg) || ...)`, l.321-330, l.347-377: the first type with the id of the message -/
def addNew (c : Cfg) (w : World) (i : Nat) (p : Packet) (o : Obj) : List Nat → Except Err (World × Packet)
  | [] => .ok (w, p)
  | t :: ts => if c.id t = c.id o.ty then (if t = o.ty then place w i p o else .error .wrongType) else addNew c w i p o ts
/-- the end of the message in packet `i` -/
def kill (w : World) (i : Nat) (p : Packet) : Except Err (World × Packet) :=
  match p.data with
  | none => .error .dead
  | some _ => .ok ({ w with destroyed := upd w.destroyed i (w.destroyed i + 1) }, { p with data := none })
/-- `(delete_message_type<TMessageTypes>(pmsg) || ...)`, l.298-317 -/
def deleteMessage (c : Cfg) (w : World) (i : Nat) (p : Packet) : List Nat → Except Err (World × Packet)
  | [] => .ok (w, p)
  | t :: ts => match p.data with
    | none => .error .dead
    | some o => if c.id t = c.id o.ty then (if t = o.ty then kill w i p else .error .wrongType) else deleteMessage c w i p ts
/-- `delete_current_message`, l.281-294: the virtual destructor, or by the id -/
def deleteCurrent (c : Cfg) (w : World) (i : Nat) (p : Packet) : Except Err (World × Packet) :=
  if p.valid then (if c.virt then kill w i p else deleteMessage c w i p c.types) else .ok (w, p)
/-- `get`, l.212-221 -/
def get (p : Packet) : Except Err Obj := match p.data with
  | none => .error .dead
  | some o => .ok o
/-- the packet variable `i` -/
def packet (w : World) (i : Nat) : Except Err Packet := match w.pk i with
  | none => .error .noPacket
  | some p => .ok p

/-- a user moves the message out of packet `j`, if there is one: what the move constructor of the message does to its argument -/
def takeFrom (c : Cfg) (w : World) (j : Nat) : World :=
  match w.pk j with
  | some ⟨some o, v⟩ => { w with pk := upd w.pk j (some ⟨some { o with val := c.moved o }, v⟩) }
  | _ => w

/-- `valid = other.is_valid(); if (valid) add_new_message(other.get());`, l.132-137, l.144-149, l.156-161, l.167-172, l.180-184, l.195-199; `p` is packet `i`, whose own variable `valid` is assigned before `other` is read -/
def fill (c : Cfg) (w : World) (i : Nat) (p : Packet) (j : Nat) (move : Bool) : Except Err World := do
  let other ← if i = j then pure p else packet w j
  let p := { p with valid := other.valid }
  if p.valid then
    let m ← get other
    let (w, p) ← addNew c w i p m c.types
    pure (let w := { w with pk := upd w.pk i (some p) }
          if move then takeFrom c w j else w)
  else pure { w with pk := upd w.pk i (some p) }

inductive Op
  /-- `message_packet p;`, l.90-93 -/
  | make (i : Nat)
  /-- `message_packet p(msg)` with a message of one of the types, l.122-125, l.336-343 -/
  | makeOf (i : Nat) (m : Obj)
  /-- `message_packet p(msg)` with an `imessage`, l.107-121 -/
  | makeFrom (i : Nat) (m : Obj)
  /-- the copy and the move constructor, l.130-150 -/
  | construct (i j : Nat) (move : Bool)
  /-- `copy`, l.154-173 -/
  | copy (i j : Nat) (move : Bool)
  /-- the assignments, l.177-203 -/
  | assign (i j : Nat) (move : Bool)
  /-- `~message_packet`, l.206-209 -/
  | destroy (i : Nat)
  /-- `get`, l.212-221 -/
  | get (i : Nat)
  /-- a write through the reference `get` returns -/
  | write (i v : Nat)
  /-- `is_valid`, l.224-227 -/
  | isValid (i : Nat)
  /-- `accepts(id)`, l.230-239 -/
  | accepts (id : Nat)

inductive Out
  | unit
  | msg (o : Obj)
  | bool (b : Bool)
  /-- unhandled_message_exception -/
  | unhandled
  deriving DecidableEq

/-- the storage of a packet that is about to be constructed -/
def fresh (w : World) (i : Nat) : Except Err Unit := match w.pk i with
  | none => .ok ()
  | some _ => .error .noPacket

def step (c : Cfg) (w : World) : Op → Except Err (Out × World)
  | .make i => do
    fresh w i
    pure (.unit, { w with pk := upd w.pk i (some ⟨none, false⟩) })
  | .makeOf i m => do
    fresh w i
    let (w, p) ← place w i ⟨none, true⟩ m
    pure (.unit, { w with pk := upd w.pk i (some p) })
  | .makeFrom i m => do
    fresh w i
    if accepts c (c.id m.ty) then
      let (w, p) ← addNew c w i ⟨none, true⟩ m c.types
      pure (.unit, { w with pk := upd w.pk i (some { p with valid := true }) })
    else pure (.unhandled, if c.throws then w else { w with pk := upd w.pk i (some ⟨none, false⟩) })
  | .construct i j move => do
    fresh w i
    let w ← fill c w i ⟨none, false⟩ j move
    pure (.unit, w)
  | .copy i j move => do
    let p ← packet w i
    let w ← fill c w i p j move
    pure (.unit, w)
  | .assign i j move => do
    let p ← packet w i
    let (w, p) ← deleteCurrent c w i p
    let w ← fill c w i p j move
    pure (.unit, w)
  | .destroy i => do
    let p ← packet w i
    let (w, p) ← deleteCurrent c w i p
    match p.data with
    | some _ => .error .leak
    | none => pure (.unit, { w with pk := upd w.pk i none })
  | .get i => do
    let p ← packet w i
    let o ← get p
    pure (.msg o, w)
  | .write i v => do
    let p ← packet w i
    let o ← get p
    pure (.unit, { w with pk := upd w.pk i (some { p with data := some { o with val := v } }) })
  | .isValid i => do
    let p ← packet w i
    pure (.bool p.valid, w)
  | .accepts id => pure (.bool (accepts c id), w)

def run (c : Cfg) : World → List Op → Except Err (List Out × World)
  | w, [] => .ok ([], w)
  | w, o :: os => match step c w o with
    | .error e => .error e
    | .ok (r, w) => match run c w os with
      | .error e => .error e
      | .ok (rs, w) => .ok (r :: rs, w)

/-- SIZE and ALIGNMENT, l.256-260 -/
def storageSize (t : VPool.Ty) (r : List VPool.Ty) : Nat := (VPool.largestType t r).size
def storageAlign (t : VPool.Ty) (r : List VPool.Ty) : Nat := (VPool.largestAlignment t r).align

end Etl.Packet
