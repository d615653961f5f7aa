import Verif.PVec.Model

/-!
# Model of `etl::indirect_vector` / `etl::indirect_vector_ext`

Source: `/repo/include/etl/indirect_vector.h`.

Any number of vectors; vector `c` keeps its lookup in a `vector<T*>` (the model of `PVec`) and its elements in the pool `pool c`, which other vectors may share
(`indirect_vector_ext`, l.1480-1612).  A pool is modelled as C05 shows it to behave: a stack of free items (ipool.h l.344-404).  An address is a pool and an item of it; `obj`
says which items hold a live object.  Arguments are values, or references to objects (perhaps elements of the very vector).

Simplifications: a failed check throws; copying does not throw; ranges passed in consist of values outside of all vectors (assignment from another vector is modelled
separately); a moved-from object is not told from the original until it is destroyed.
-/
namespace Etl.IVec

variable {α : Type}

abbrev Addr := Nat × Nat

structure Heap (α : Type) where
  pcap : Nat → Nat
  free : Nat → List Nat
  obj : Addr → Option α

structure St (α : Type) where
  h : Heap α
  look : Nat → PVec.St (Option Addr)
  pool : Nat → Nat

inductive Err where
  | full | empty | noAllocation
  deriving DecidableEq, Repr

/-- An argument `const T&`. -/
inductive Arg (α : Type) where
  | val (v : α)       -- an object outside of all vectors
  | ref (a : Addr)    -- the object at `a`

def argv (h : Heap α) : Arg α → Res α
  | .val v => .ok v
  | .ref a => match h.obj a with | none => .error .deadAccess | some v => .ok v

def setObj (f : Addr → Option α) (a : Addr) (v : Option α) : Addr → Option α := fun b => if b = a then v else f b

/-- `storage.create<T>(value)`: ipool.h l.202-213.  `none`: `pool_no_allocation` is thrown. -/
def create (h : Heap α) (q : Nat) (arg : Arg α) : Res (Heap α × Option Addr) :=
  match h.free q with
  | [] => .ok (h, none)
  | k :: r =>
    match h.obj (q, k) with
    | some _ => .error .constructLive
    | none => do
      let v ← argv h arg
      .ok ({ h with free := upd h.free q r, obj := setObj h.obj (q, k) (some v) }, some (q, k))

/-- `storage.destroy<T>(p)`: ipool.h l.221-242; releasing an item of another pool throws there, which is an error here. -/
def destroy (h : Heap α) (q : Nat) : Option Addr → Res (Heap α)
  | none => .error .nullDeref
  | some a =>
    match h.obj a with
    | none => .error .deadAccess
    | some _ => if a.1 = q then .ok { h with free := upd h.free q (a.2 :: h.free q), obj := setObj h.obj a none } else .error .outOfBounds

/-- Replacing the lookup of `c`. -/
def setLook (s : St α) (c : Nat) (l : PVec.St (Option Addr)) : St α := { s with look := upd s.look c l }

/-- `size` l.1119, `capacity` l.1128, `empty` l.1137, `full` l.1146. -/
def size (s : St α) (c : Nat) : Nat := PVec.size (s.look c)
def capacity (s : St α) (c : Nat) : Nat := (s.look c).cap
def empty (s : St α) (c : Nat) : Bool := PVec.empty (s.look c)
def full (s : St α) (c : Nat) : Bool := PVec.full (s.look c)

/-- `pool.available()`. -/
def available (s : St α) (q : Nat) : Nat := (s.h.free q).length

/-- `lookup.push_back(p)`; it may throw `vector_full`. -/
def lookPush (s : St α) (c : Nat) (p : Addr) : Res (St α × Option Err) := do
  let (l, e) ← PVec.pushBack (s.look c) (some p)
  match e with
  | some _ => .ok (s, some .full)
  | none => .ok (setLook s c l, none)

/-- `T* p = storage.create<T>(value); lookup.push_back(p);`, as in `emplace_back`, l.790-795, and the loops of `resize` and `assign`. -/
def emplaceBack (s : St α) (c : Nat) (arg : Arg α) : Res (St α × Option Err) := do
  let (h, p) ← create s.h (s.pool c) arg
  match p with
  | none => .ok (s, some .noAllocation)
  | some p => lookPush { s with h := h } c p

/-- `push_back`, l.758-780. -/
def pushBack (s : St α) (c : Nat) (arg : Arg α) : Res (St α × Option Err) :=
  if (s.look c).check && (size s c == capacity s c) then .ok (s, some .full)
  else emplaceBack s c arg

/-- The loops of `resize`, l.584-588, and `assign`, l.710-715, l.730-734. -/
def emplaceAll (s : St α) (c : Nat) : List (Arg α) → Res (St α × Option Err)
  | [] => .ok (s, none)
  | a :: as => do
    let (s, e) ← emplaceBack s c a
    match e with
    | some e => .ok (s, some e)
    | none => emplaceAll s c as

/-- `pop_back`, l.865-872. -/
def popBack (s : St α) (c : Nat) : Res (St α × Option Err) :=
  if empty s c then .ok (s, some .empty)
  else do
    let p ← PVec.back (s.look c)
    let h ← destroy s.h (s.pool c) p
    let (l, _) ← PVec.popBack (s.look c)
    .ok (setLook { s with h := h } c l, none)

/-- The loop `while (n-- != 0U) pop_back();`, l.594-597. -/
def popN (s : St α) (c : Nat) : Nat → Res (St α × Option Err)
  | 0 => .ok (s, none)
  | k + 1 => do
    let (s, _) ← popBack s c
    popN s c k

/-- `resize(new_size, value)`, l.574-600. -/
def resize (s : St α) (c k : Nat) (arg : Arg α) : Res (St α × Option Err) :=
  if k ≤ capacity s c then
    if k > size s c then emplaceAll s c (List.replicate (k - size s c) arg)
    else popN s c (size s c - k)
  else .ok (s, some .full)

/-- Destroying the objects at the indices `i .. i + k` of the lookup: the loops of `initialise`, l.1187-1191, and `erase`, l.1068-1072. -/
def destroyN (s : St α) (c i : Nat) : Nat → Res (Heap α)
  | 0 => .ok s.h
  | k + 1 => do
    let p ← PVec.rd (s.look c) i
    let h ← destroy s.h (s.pool c) p
    destroyN { s with h := h } c (i + 1) k

/-- `initialise`, l.1183-1194. -/
def initialise (s : St α) (c : Nat) : Res (St α) := do
  let h ← destroyN s c 0 (size s c)
  let (l, _) ← PVec.clear (s.look c)
  .ok (setLook { s with h := h } c l)

/-- `clear`, l.740-743. -/
def clear (s : St α) (c : Nat) : Res (St α × Option Err) := do .ok (← initialise s c, none)

/-- `assign(first, last)`, l.699-716. -/
def assignRange (s : St α) (c : Nat) (vs : List α) : Res (St α × Option Err) :=
  if (s.look c).debug && !(decide (vs.length ≤ capacity s c)) then .ok (s, some .full)
  else do
    let s ← initialise s c
    emplaceAll s c (vs.map .val)

/-- `assign(n, value)`, l.724-735. -/
def assignN (s : St α) (c k : Nat) (arg : Arg α) : Res (St α × Option Err) :=
  if k ≤ capacity s c then do
    let s ← initialise s c
    emplaceAll s c (List.replicate k arg)
  else .ok (s, some .full)

/-- `insert(position, value)`, l.880-905, and `emplace(position, args...)`, l.913-921: a temporary `T(value)` is made first. -/
def insert (s : St α) (c p : Nat) (arg : Arg α) : Res (St α × Option Err) :=
  if size s c = capacity s c then .ok (s, some .full)
  else do
    let v ← argv s.h arg
    let (h, a) ← create s.h (s.pool c) (.val v)
    match a with
    | none => .ok (s, some .noAllocation)
    | some a => do
      let (l, _) ← PVec.insert (s.look c) p (some a)
      .ok (setLook { s with h := h } c l, none)

/-- The loops `p = storage.create<T>(value); *lookup_itr++ = p;`, l.995-999, l.1022-1027. -/
def createInto (s : St α) (c i : Nat) : List (Arg α) → Res (St α × Option Err)
  | [] => .ok (s, none)
  | a :: as => do
    let (h, p) ← create s.h (s.pool c) a
    match p with
    | none => .ok (s, some .noAllocation)
    | some p => do
      let l ← PVec.wr (s.look c) i (some p)
      createInto (setLook { s with h := h } c l) c (i + 1) as

/-- `insert(position, n, value)`, l.985-1002. -/
def insertN (s : St α) (c p k : Nat) (arg : Arg α) : Res (St α × Option Err) :=
  if size s c + k ≤ capacity s c then do
    let (l, _) ← PVec.insertN (s.look c) p k none
    createInto (setLook s c l) c p (List.replicate k arg)
  else .ok (s, some .full)

/-- `insert(position, first, last)`, l.1012-1030. -/
def insertRange (s : St α) (c p : Nat) (vs : List α) : Res (St α × Option Err) :=
  if size s c + vs.length ≤ capacity s c then do
    let (l, _) ← PVec.insertN (s.look c) p vs.length none
    createInto (setLook s c l) c p (vs.map .val)
  else .ok (s, some .full)

/-- `erase(i_element)`, l.1037-1054. -/
def erase (s : St α) (c p : Nat) : Res (St α × Option Err) := do
  let h ← destroyN s c p 1
  let (l, _) ← PVec.erase (s.look c) p
  .ok (setLook { s with h := h } c l, none)

/-- `erase(first, last)`, l.1064-1077. -/
def eraseRange (s : St α) (c a b : Nat) : Res (St α × Option Err) := do
  let h ← destroyN s c a (b - a)
  let (l, _) ← PVec.eraseRange (s.look c) a b
  .ok (setLook { s with h := h } c l, none)

/-- The index of the iterator `erase(first, last)` returns, l.1076: `to_iterator(last)`. -/
def eraseRangeResult (_a b : Nat) : Nat := b

/-- A write through a reference to element `i`, or through an iterator. -/
def setAt (s : St α) (c i : Nat) (v : α) : Res (St α × Option Err) := do
  match ← PVec.index (s.look c) i with
  | none => .error .nullDeref
  | some a =>
    match s.h.obj a with
    | none => .error .deadAccess
    | some _ => .ok ({ s with h := { s.h with obj := setObj s.h.obj a (some v) } }, none)

/-- The elements `i .. i + k`, through their iterators: `**lookup_itr`. -/
def readN (s : St α) (c i : Nat) : Nat → Res (List α)
  | 0 => .ok []
  | k + 1 => do
    match ← PVec.rd (s.look c) i with
    | none => .error .nullDeref
    | some a => do
      let v ← argv s.h (.ref a)
      let vs ← readN s c (i + 1) k
      .ok (v :: vs)

/-- The contents, as iterating from `begin()` to `end()` shows them. -/
def contents (s : St α) (c : Nat) : Res (List α) := readN s c 0 (size s c)

/-- The addresses of the elements, `&*itr`. -/
def addresses (s : St α) (c : Nat) : Res (List (Option Addr)) := PVec.contents (s.look c)

/-- The pointers of a lookup as references; a null pointer may not be dereferenced. -/
def refs : List (Option Addr) → Res (List (Arg α))
  | [] => .ok []
  | none :: _ => .error .nullDeref
  | some a :: l => do .ok (.ref a :: (← refs l))

/-- `operator=(const iindirect_vector&)`, l.1082-1090: `assign(rhs.cbegin(), rhs.cend())`.  The lookup of `d` does not change meanwhile (`c` is not `d`). -/
def copyAssign (s : St α) (c d : Nat) : Res (St α × Option Err) :=
  if (s.look c).debug && !(decide (size s d ≤ capacity s c)) then .ok (s, some .full)
  else do
    let s ← initialise s c
    let as ← refs (← addresses s d)
    emplaceAll s c as

/-- The loop `push_back(etl::move(*itr))`, l.1102-1106. -/
def pushAll (s : St α) (c : Nat) : List (Arg α) → Res (St α × Option Err)
  | [] => .ok (s, none)
  | a :: as => do
    let (s, e) ← pushBack s c a
    match e with
    | some e => .ok (s, some e)
    | none => pushAll s c as

/-- `operator=(iindirect_vector&&)`, l.1096-1113, and `move_container`, l.1200-1216. -/
def moveAssign (s : St α) (c d : Nat) : Res (St α × Option Err) := do
  let s ← initialise s c
  let as ← refs (← addresses s d)
  let (s, e) ← pushAll s c as
  match e with
  | some e => .ok (s, some e)
  | none => do .ok (← initialise s d, none)

inductive Op (α : Type) where
  | pushBack (c : Nat) (a : Arg α) | emplaceBack (c : Nat) (a : Arg α) | popBack (c : Nat) | resize (c k : Nat) (a : Arg α) | clear (c : Nat)
  | assignRange (c : Nat) (vs : List α) | assignN (c k : Nat) (a : Arg α) | insert (c p : Nat) (a : Arg α) | insertN (c p k : Nat) (a : Arg α)
  | insertRange (c p : Nat) (vs : List α) | erase (c p : Nat) | eraseRange (c a b : Nat) | setAt (c i : Nat) (v : α)
  | copyAssign (c d : Nat) | moveAssign (c d : Nat)

def step (s : St α) : Op α → Res (St α × Option Err)
  | .pushBack c a => pushBack s c a
  | .emplaceBack c a => emplaceBack s c a
  | .popBack c => popBack s c
  | .resize c k a => resize s c k a
  | .clear c => clear s c
  | .assignRange c vs => assignRange s c vs
  | .assignN c k a => assignN s c k a
  | .insert c p a => insert s c p a
  | .insertN c p k a => insertN s c p k a
  | .insertRange c p vs => insertRange s c p vs
  | .erase c p => erase s c p
  | .eraseRange c a b => eraseRange s c a b
  | .setAt c i v => setAt s c i v
  | .copyAssign c d => copyAssign s c d
  | .moveAssign c d => moveAssign s c d

/-- Vectors over their pools: the free items in the order in which they are handed out. -/
def init (pcap cap pool : Nat → Nat) (check debug : Bool) (junk : Nat → Nat → Option Addr) : St α :=
  { h := { pcap, free := fun q => List.range (pcap q), obj := fun _ => none }
    look := fun c => PVec.init (junk c) (cap c) check debug true
    pool }

end Etl.IVec
