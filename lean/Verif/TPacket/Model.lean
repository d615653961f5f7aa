/-!
# Model of packet.h and of the storage it uses (alignment.h)

Sources: `/repo/include/etl/packet.h` (C++11 and later, and C++03: they differ in forwarding only), `/repo/include/etl/alignment.h` l.266-369.

A packet holds an object of a type derived from `TBase` in storage of a fixed size and alignment, and reaches it through a `TBase*` that is the address of the storage.

Simplified: an object is its number, its type and one value; the address of the storage is a number divisible by its alignment.
Not modelled: the bytes; calls of member functions of the object (they go through `get`); copying of packets (the copy constructor and the copy assignment are private, l.154-155, and the templates reject a `packet` because it is not derived from `TBase`, except if it is).
-/
namespace Etl.TPacket

/-- What the compiler knows about a type: is it derived from `TBase` (or `TBase` itself), its size and alignment, and where in it the `TBase` lies. -/
structure Ty where
  derived : Bool
  size : Nat
  align : Nat
  offset : Nat

/-- The template arguments; the table of types; the type `TBase`, and is its destructor virtual. -/
structure Cfg where
  size : Nat
  align : Nat
  ty : Nat → Ty
  base : Nat
  virt : Bool

/-- An object made in the storage. -/
structure Obj where
  id : Nat
  ty : Nat
  val : Nat
  deriving DecidableEq, Repr

/-- What happens to the objects: made by a constructor of `ty`; destroyed by the destructor of its own type; or only its `TBase` part is destroyed. -/
inductive Ev where
  | made (id ty : Nat)
  | destroyed (id ty : Nat)
  | baseDestroyed (id ty : Nat)
  deriving DecidableEq, Repr

structure S where
  cell : Option Obj := none
  next : Nat := 0
  log : List Ev := []
  deriving DecidableEq, Repr

/-- The outcome of a call: it returns; an exception leaves it; the compiler rejects it; something undefined. -/
inductive Out (α : Type) where
  | ok (a : α)
  | threw (s : S)
  | rejected
  | ub
  deriving DecidableEq, Repr

/-- The source of a copy or move: an object elsewhere, whose copying may throw; or the packet's own object, as in `p = static_cast<T&>(p.get())`. -/
inductive Arg where
  | fresh (val : Nat) (throws : Bool)
  | self
  deriving DecidableEq, Repr

/-- The static assertions, packet.h l.64-66 and l.102-104, and that of the conversion of the storage to `type*`, alignment.h l.305. -/
def accepts (c : Cfg) (t : Nat) : Bool :=
  (c.ty t).derived && decide ((c.ty t).size ≤ c.size) && decide ((c.ty t).align ≤ c.align) && decide (c.align % (c.ty t).align = 0)

/-- `::new (static_cast<type*>(data)) type(forward(value))`, packet.h l.68, l.107. -/
def construct (c : Cfg) (s : S) (t : Nat) (a : Arg) : Out S :=
  if accepts c t then
    match a with
    | .fresh v thr => if thr then .threw s else .ok ⟨some ⟨s.next, t, v⟩, s.next + 1, s.log ++ [.made s.next t]⟩
    | .self =>
      match s.cell with
      | none => .ub
      | some o => if o.ty = t then .ok ⟨some ⟨s.next, t, o.val⟩, s.next + 1, s.log ++ [.made s.next t]⟩ else .ub
  else .rejected

/-- `static_cast<TBase*>(data)->~TBase()`, packet.h l.90 and l.106.  The cast does not move the pointer to where the `TBase` is. -/
def destroy (c : Cfg) (s : S) : Out S :=
  match s.cell with
  | none => .ub
  | some o =>
    if (c.ty o.ty).offset ≠ 0 then .ub
    else if c.virt || decide (o.ty = c.base) then .ok { s with cell := none, log := s.log ++ [.destroyed o.id o.ty] }
    else .ok { s with cell := none, log := s.log ++ [.baseDestroyed o.id o.ty] }

/-- `operator =(T&&)`, packet.h l.98-110. -/
def assign (c : Cfg) (s : S) (t : Nat) (a : Arg) : Out S :=
  if accepts c t then
    match destroy c s with
    | .ok s1 => construct c s1 t a
    | .threw s1 => .threw s1
    | .rejected => .rejected
    | .ub => .ub
  else .rejected

/-- `get()`, packet.h l.139-150. -/
def get (c : Cfg) (s : S) : Out Obj :=
  match s.cell with
  | none => .ub
  | some o => if (c.ty o.ty).offset ≠ 0 then .ub else .ok o

/-- What a user does with a packet. -/
inductive Op where
  | assign (t : Nat) (a : Arg)
  | get
  deriving DecidableEq, Repr

/-- The calls on a packet, and its destruction, l.88-91; the objects seen by `get`.  An exception is caught, and the packet is used on. -/
def run (c : Cfg) : S → List Op → Out (List Obj × S)
  | s, [] =>
    match destroy c s with
    | .ok s => .ok ([], s)
    | .threw s => .threw s
    | .rejected => .rejected
    | .ub => .ub
  | s, .assign t a :: ops =>
    match assign c s t a with
    | .ok s => run c s ops
    | .threw s => run c s ops
    | .rejected => .rejected
    | .ub => .ub
  | s, .get :: ops =>
    match get c s with
    | .ok o =>
      match run c s ops with
      | .ok (os, s) => .ok (o :: os, s)
      | .threw s => .threw s
      | .rejected => .rejected
      | .ub => .ub
    | .threw s => .threw s
    | .rejected => .rejected
    | .ub => .ub

/-- The life of a packet. -/
def life (c : Cfg) (t : Nat) (a : Arg) (ops : List Op) : Out (List Obj × S) :=
  match construct c {} t a with
  | .ok s => run c s ops
  | .threw s => .threw s
  | .rejected => .rejected
  | .ub => .ub

/-- `is_aligned(p, required_alignment)`, alignment.h l.74-78 and l.83-98 with `address` an unsigned number. -/
def isAligned (address required : Nat) : Bool := decide (address % required = 0)

end Etl.TPacket
