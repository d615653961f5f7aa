import Verif.Common.Res

/-!
# Model of the objects that watch the life of others

Sources: `/repo/include/etl/singleton.h`, `/repo/include/etl/singleton_base.h`, `/repo/include/etl/instance_count.h`, `/repo/include/etl/debug_count.h`.

A failed `ETL_ASSERT` is an exception (`Out.thrown`) or, when `checks` is false, nothing (`ETL_NO_CHECKS`, or a handler that returns).
Not modelled: concurrent calls (the functions of the first three are not synchronised; those of `debug_count` are one atomic access each, except for `swap`, assignment and the assertions).
-/
namespace Etl.Instance

/-- What a call gives. -/
inductive Out (β : Type) where
  | val (b : β)
  | thrown
  deriving DecidableEq

/-! ## `singleton` -/

/-- The `Data` of singleton.h l.144-153: the flag and the storage, `none` when no object lives in it. -/
structure Single (α : Type) where
  valid : Bool
  cell : Option α
  built : Nat        -- ghost: how many objects have been constructed
  killed : Nat       -- ghost: how many have been destroyed
  deriving DecidableEq

/-- `get_data`, the first time: l.158-163 -/
def single (α : Type) : Single α := ⟨false, none, 0, 0⟩
/-- `create`: l.88-98 (C++03: l.185-263).  `v`: what the constructor makes; `none`: it throws. -/
def create {α : Type} (s : Single α) (v : Option α) : Res (Single α × Out Unit) :=
  if s.valid then .ok (s, .val ())
  else match s.cell with
    | some _ => .error .constructLive
    | none => match v with
      | none => .ok (s, .thrown)
      | some a => .ok (⟨true, some a, s.built + 1, s.killed⟩, .val ())
/-- `destroy`: l.103-113, l.268-278 -/
def destroy {α : Type} (s : Single α) : Res (Single α) :=
  if s.valid then (match s.cell with
    | none => .error .deadAccess
    | some _ => .ok ⟨false, none, s.built, s.killed + 1⟩)
  else .ok s
/-- `instance`: l.120-127, l.285-292, and a use of the reference that changes the object with `f` -/
def instanceUse {α : Type} (checks : Bool) (s : Single α) (f : α → α) : Res (Single α × Out α) :=
  if s.valid = false ∧ checks then .ok (s, .thrown)
  else match s.cell with
    | none => .error .deadAccess
    | some a => .ok ({ s with cell := some (f a) }, .val (f a))
/-- `is_valid`: l.132-137, l.297-302 -/
def isValid {α : Type} (s : Single α) : Bool := s.valid

inductive SOp (α : Type) where
  | create (v : Option α)
  | destroy
  | use (f : α → α)
def sstep {α : Type} (checks : Bool) (s : Single α) : SOp α → Res (Single α × Out (Option α))
  | .create v => match create s v with
    | .error e => .error e
    | .ok (s, .val _) => .ok (s, .val none)
    | .ok (s, .thrown) => .ok (s, .thrown)
  | .destroy => match destroy s with
    | .error e => .error e
    | .ok s => .ok (s, .val none)
  | .use f => match instanceUse checks s f with
    | .error e => .error e
    | .ok (s, .val a) => .ok (s, .val (some a))
    | .ok (s, .thrown) => .ok (s, .thrown)
/-- A history of calls and their results. -/
def srun {α : Type} (checks : Bool) (s : Single α) : List (SOp α) → Res (Single α × List (Out (Option α)))
  | [] => .ok (s, [])
  | o :: os => match sstep checks s o with
    | .error e => .error e
    | .ok (s, r) => match srun checks s os with
      | .error e => .error e
      | .ok (s, rs) => .ok (s, r :: rs)

/-! ## `singleton_base`: objects are named by numbers -/

/-- `m_self`, and the ghost set of the objects that live. -/
structure Base where
  self : Option Nat
  live : Nat → Bool
/-- l.162-163 -/
def base : Base := ⟨none, fun _ => false⟩
/-- The constructor of `T`, l.145-150, with `singleton_base(*this)`.  When it throws, no object lives and the destructor of the base is not run. -/
def construct (checks : Bool) (b : Base) (i : Nat) : Base × Out Unit :=
  if b.self ≠ none ∧ checks then (b, .thrown)
  else (⟨some i, fun j => if j = i then true else b.live j⟩, .val ())
/-- The copy constructor of `T`: that of `singleton_base` is the implicit one and does nothing. -/
def copy (b : Base) (i : Nat) : Base := ⟨b.self, fun j => if j = i then true else b.live j⟩
/-- The destructor: l.155-158 -/
def destruct (b : Base) (i : Nat) : Base := ⟨none, fun j => if j = i then false else b.live j⟩
/-- The constructor of `T` throws after the one of the base: the destructor of the base is run. -/
def constructThrows (checks : Bool) (b : Base) (_ : Nat) : Base × Out Unit :=
  if b.self ≠ none ∧ checks then (b, .thrown)
  else (⟨none, b.live⟩, .thrown)
/-- `instance`: l.124-129 -/
def Base.instance (checks : Bool) (b : Base) : Res (Out Nat) := match b.self with
  | none => if checks then .ok .thrown else .error .nullDeref
  | some i => .ok (.val i)
/-- `is_valid`: l.134-137 -/
def Base.isValid (b : Base) : Bool := b.self.isSome

inductive BOp where
  | construct (i : Nat)
  | constructThrows (i : Nat)
  | destruct (i : Nat)
  | copy (i : Nat)
def bstep (checks : Bool) (b : Base) : BOp → Base
  | .construct i => (construct checks b i).1
  | .constructThrows i => (constructThrows checks b i).1
  | .destruct i => destruct b i
  | .copy i => copy b i
def brun (checks : Bool) (b : Base) (os : List BOp) : Base := os.foldl (bstep checks) b

/-! ## `instance_count` -/

/-- What happens to objects of the type. -/
inductive COp where
  | construct
  | copy
  | assign
  | destruct
  | reset
/-- l.58-85, l.98-101: the counter has `w` bits -/
def cstep {w : Nat} (c : BitVec w) : COp → BitVec w
  | .construct => c + 1
  | .copy => c + 1
  | .assign => c
  | .destruct => c - 1
  | .reset => 0
def crun {w : Nat} (c : BitVec w) (os : List COp) : BitVec w := os.foldl cstep c

/-! ## `debug_count` (with `ETL_DEBUG_COUNT`): an `int32_t`, `atomic`, so that it wraps -/

inductive DOp where
  | inc
  | dec
  | add (n : Int)
  | sub (n : Int)
  | set (n : BitVec 32)
  | clear
/-- l.78-103, l.136-144; `false`: the assertion of l.87 fails -/
def dstep (c : BitVec 32) : DOp → BitVec 32 × Bool
  | .inc => (c + 1, true)
  | .dec => (c - 1, decide (0 ≤ (c - 1).toInt))
  | .add n => (c + BitVec.ofInt 32 n, true)
  | .sub n => (c - BitVec.ofInt 32 n, true)
  | .set n => (n, true)
  | .clear => (0, true)
/-- A history: the count, and whether no assertion failed. -/
def drun (c : BitVec 32) : List DOp → BitVec 32 × Bool
  | [] => (c, true)
  | o :: os => ((drun (dstep c o).1 os).1, (dstep c o).2 && (drun (dstep c o).1 os).2)
/-- The assertion of the destructor, l.73-76 -/
def destructOk (c : BitVec 32) : Bool := c == 0
/-- `swap`: l.113-118 -/
def dswap (c d : BitVec 32) : BitVec 32 × BitVec 32 := (d, c)

end Etl.Instance
