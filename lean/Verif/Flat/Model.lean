import Verif.Common.Mem
import Verif.Algo.Partition

/-!
# Model of flat_set, flat_map, flat_multiset, flat_multimap

Sources: `/repo/include/etl/flat_set.h`, `flat_map.h`, `flat_multiset.h`, `flat_multimap.h` over `reference_flat_set.h`, `reference_flat_map.h`, `reference_flat_multiset.h`, `reference_flat_multimap.h`.

The elements live in a pool (property C05), `free` is its stack of free items; `lookup` is the `etl::vector<value_type*, MAX_SIZE>` of pointers (properties C09, C10), here a list of at most `cap` item numbers: a `push_back` beyond that is
undefined (pvoidvector.h does not check it).  An iterator is an index into `lookup`, `end()` is its length.  An element type `α` has a key: for the sets the key is the element itself, for the maps it is `first`.
`multi`: the multi containers.  `map`: `flat_map`, whose `emplace` returns another iterator than the one of `flat_set`.  `dbg` = `ETL_IS_DEBUG_BUILD`, `triv` = `is_trivially_destructible<value_type>`.
Simplifications: a failed `ETL_ASSERT` throws; copying, moving and comparing does not throw; a search reads all of the elements, so that a dead element anywhere is an error.
-/
namespace Etl.Flat
open Etl.Algo

variable {α κ : Type}

structure St (α : Type) where
  lookup : List Nat
  val : Nat → Cell α
  free : List Nat
  cap : Nat
  multi : Bool
  map : Bool
  dbg : Bool
  triv : Bool

/-- `flat_map_full` and the others; `flat_map_out_of_bounds` -/
inductive Err where
  | full | bounds
  deriving DecidableEq, Repr

/-- What a call returns: nothing, an error, `pair<iterator, bool>`, an iterator, a number. -/
inductive Out where
  | ok | err (e : Err) | pair (i : Nat) (b : Bool) | it (i : Nat) | num (n : Nat)
  deriving DecidableEq, Repr

/-- The items of a fresh pool. -/
def items (cap : Nat) : List Nat := List.range cap

/-- the constructors, flat_set.h l.1018-1021, flat_map.h l.1137-1140 -/
def init (cap : Nat) (multi map dbg triv : Bool) : St α := { lookup := [], val := fun _ => .raw, free := items cap, cap, multi, map, dbg, triv }

/-- `size`, `empty`, `full`, `available`, reference_flat_set.h l.807-856 -/
def size (s : St α) : Nat := s.lookup.length
def empty (s : St α) : Bool := s.lookup.length == 0
def full (s : St α) : Bool := s.lookup.length == s.cap
def available (s : St α) : Nat := s.cap - s.lookup.length

/-- The elements in iteration order: `*(*ilookup)` for every position, reference_flat_set.h l.161-164. -/
def viewL (val : Nat → Cell α) : List Nat → Res (List α)
  | [] => .ok []
  | p :: ps => match val p with
    | .live v => (match viewL val ps with
      | .error u => .error u
      | .ok l => .ok (v :: l))
    | _ => .error .deadAccess
def view (s : St α) : Res (List α) := viewL s.val s.lookup

variable (key : α → κ) (lt : κ → κ → Bool)

/-- `lower_bound`, reference_flat_set.h l.675-678, reference_flat_map.h l.781-784 -/
def lower (s : St α) (k : κ) : Res Nat := match view s with
  | .error u => .error u
  | .ok l => lowerBound l 0 l.length k (fun x k => lt (key x) k)
/-- `upper_bound`, reference_flat_set.h l.713-716, reference_flat_map.h l.819-822 -/
def upper (s : St α) (k : κ) : Res Nat := match view s with
  | .error u => .error u
  | .ok l => upperBound l 0 l.length k (fun k x => lt k (key x))
/-- `equal_range`, reference_flat_set.h l.751-754, reference_flat_map.h l.857-863.  The `const` overloads of the sets return an `upper_bound` iterator where a pair is wanted (flat_set.h l.799-802) and do not compile. -/
def equalRange (s : St α) (k : κ) : Res (Nat × Nat) := match lower key lt s k with
  | .error u => .error u
  | .ok i => match upper key lt s k with
    | .error u => .error u
    | .ok j => .ok (i, j)
/-- `*i` -/
def readAt (s : St α) (i : Nat) : Res α := match s.lookup[i]? with
  | none => .error .outOfBounds
  | some p => match s.val p with
    | .live v => .ok v
    | _ => .error .deadAccess
/-- `keys_are_equal`, reference_flat_map.h l.1018-1021 -/
def same (a b : κ) : Bool := !lt a b && !lt b a
/-- `find`, reference_flat_set.h l.562-579, reference_flat_map.h l.668-685 -/
def find (s : St α) (k : κ) : Res Nat := match lower key lt s k with
  | .error u => .error u
  | .ok i => if i = size s then .ok (size s) else match readAt s i with
    | .error u => .error u
    | .ok x => .ok (if same lt (key x) k then i else size s)
/-- `contains`, reference_flat_set.h l.787-790 -/
def contains (s : St α) (k : κ) : Res Bool := match find key lt s k with
  | .error u => .error u
  | .ok i => .ok (i != size s)
/-- `count`, reference_flat_set.h l.656-659, reference_flat_multiset.h l.675-680 -/
def count (s : St α) (k : κ) : Res Nat :=
  if s.multi then (match equalRange key lt s k with
    | .error u => .error u
    | .ok (i, j) => .ok (j - i)) else match find key lt s k with
    | .error u => .error u
    | .ok i => .ok (if i = size s then 0 else 1)
/-- `flat_map::at`, reference_flat_map.h l.470-477: the element, or `flat_map_out_of_bounds` -/
def at? (s : St α) (k : κ) : Res (Except Err α) := match lower key lt s k with
  | .error u => .error u
  | .ok i => if i = size s then .ok (.error .bounds) else match readAt s i with
    | .error u => .error u
    | .ok x => .ok (if same lt (key x) k then .ok x else .error .bounds)

/-- `storage.allocate` and the placement new, flat_set.h l.241-242 -/
def allocate (s : St α) (v : α) : Res (St α × Nat) := match s.free with
  | [] => .error .nullDeref
  | p :: f => match s.val p with
    | .raw => .ok ({ s with val := upd s.val p (.live v), free := f }, p)
    | _ => .error .constructLive
/-- the destructor and `storage.release`, flat_set.h l.540-541 -/
def destroy (s : St α) (p : Nat) : Res (St α) :=
  if p ∈ s.free then .error .deadAccess else match s.val p with
    | .raw => .error .deadAccess
    | _ => .ok { s with val := upd s.val p .raw, free := p :: s.free }
/-- `lookup.push_back(&value)` / `lookup.insert(i, &value)`, private/pvoidvector.h l.401-407, l.443-466 -/
def place (s : St α) (i p : Nat) : Res (St α) :=
  if s.lookup.length < s.cap then .ok { s with lookup := s.lookup.take i ++ p :: s.lookup.drop i } else .error .outOfBounds
/-- `insert_at`, reference_flat_set.h l.873-901, reference_flat_map.h l.984-1013; reference_flat_multiset.h l.884-909 has no comparison. -/
def insertAt (s : St α) (i p : Nat) : Res (St α × Out) :=
  if i = size s then (if full s then .ok (s, .err .full) else match place s i p with
    | .error u => .error u
    | .ok s => .ok (s, .pair (size s - 1) true))
  else match readAt s i with
    | .error u => .error u
    | .ok x => match s.val p with
      | .live v => if s.multi || !same lt (key x) (key v) then (if full s then .ok (s, .err .full) else match place s i p with
        | .error u => .error u
        | .ok s => .ok (s, .pair i true)) else .ok (s, .pair i false)
      | _ => .error .deadAccess

/-- The test "doesn't already exist?", flat_set.h l.237, flat_map.h l.346. -/
def absent (s : St α) (i : Nat) (k : κ) : Res Bool :=
  if i = size s then .ok true else match readAt s i with
    | .error u => .error u
    | .ok x => .ok (lt k (key x))
/-- Allocate, construct, `insert_at`: flat_set.h l.239-244, `insert_value`, `insert_default_value` in flat_map.h l.1027-1076. -/
def insertValue (s : St α) (i : Nat) (v : α) : Res (St α × Out) :=
  if full s then .ok (s, .err .full) else match allocate s v with
    | .error u => .error u
    | .ok (s, p) => insertAt key lt s i p
/-- `insert(value)`, flat_set.h l.230-249, flat_map.h l.339-352. -/
def insertUnique (s : St α) (v : α) : Res (St α × Out) := match lower key lt s (key v) with
  | .error u => .error u
  | .ok i => match absent key lt s i (key v) with
    | .error u => .error u
    | .ok b => if b then insertValue key lt s i v else .ok (s, .pair i false)
/-- `insert(value)`, flat_multiset.h l.230-244, flat_multimap.h l.260-274. -/
def insertMulti (s : St α) (v : α) : Res (St α × Out) :=
  if full s then .ok (s, .err .full) else match upper key lt s (key v) with
    | .error u => .error u
    | .ok i => insertValue key lt s i v
def insert (s : St α) (v : α) : Res (St α × Out) := if s.multi then insertMulti key lt s v else insertUnique key lt s v
/-- `emplace`, flat_set.h l.331-358, flat_map.h l.431-459; flat_multiset.h l.324-336, flat_multimap.h l.370-382. -/
def emplace (s : St α) (v : α) : Res (St α × Out) :=
  if full s then .ok (s, .err .full) else match allocate s v with
    | .error u => .error u
    | .ok (s, p) => if s.multi then (match upper key lt s (key v) with
        | .error u => .error u
        | .ok i => insertAt key lt s i p) else match lower key lt s (key v) with
      | .error u => .error u
      | .ok i => match absent key lt s i (key v) with
        | .error u => .error u
        | .ok b => if b then insertAt key lt s i p else match destroy s p with
          | .error u => .error u
          | .ok s => .ok (s, .pair (if s.map then i else size s) false)
/-- `flat_map::operator []`, flat_map.h l.257-268: the value `v` is the key with a default constructed mapped value; the result is the iterator whose `second` is returned. -/
def index (s : St α) (v : α) : Res (St α × Out) := match lower key lt s (key v) with
  | .error u => .error u
  | .ok i => match absent key lt s i (key v) with
    | .error u => .error u
    | .ok b => if b then (match insertValue key lt s i v with
        | .error u => .error u
        | .ok (s, .err e) => .ok (s, .err e)
        | .ok (s, _) => .ok (s, .it i)) else .ok (s, .it i)
/-- assignment through an iterator, `i->second = …`: the element `v` has the key of the old one -/
def write (s : St α) (i : Nat) (v : α) : Res (St α × Out) := match s.lookup[i]? with
  | none => .error .outOfBounds
  | some p => match s.val p with
    | .raw => .error .deadAccess
    | _ => .ok ({ s with val := upd s.val p (.live v) }, .ok)
/-- `erase(iterator)`, flat_set.h l.574-580, flat_map.h l.640-646 -/
def eraseAt (s : St α) (i : Nat) : Res (St α × Out) := match s.lookup[i]? with
  | none => .error .outOfBounds
  | some p => match destroy s p with
    | .error u => .error u
    | .ok s => .ok ({ s with lookup := s.lookup.eraseIdx i }, .it i)
/-- The loop of `erase(first, last)` and of `clear`, flat_set.h l.605-611, l.629-635. -/
def destroyAll (s : St α) : List Nat → Res (St α)
  | [] => .ok s
  | p :: ps => match destroy s p with
    | .error u => .error u
    | .ok s => destroyAll s ps
/-- `erase(first, last)`, flat_set.h l.601-614, flat_map.h l.667-680 -/
def eraseRange (s : St α) (i j : Nat) : Res (St α × Out) :=
  if i ≤ j ∧ j ≤ s.lookup.length then (match destroyAll s ((s.lookup.take j).drop i) with
    | .error u => .error u
    | .ok s => .ok ({ s with lookup := s.lookup.take i ++ s.lookup.drop j }, .it i)) else .error .outOfBounds
/-- `erase(key)`, flat_set.h l.530-546, flat_map.h l.596-612 -/
def eraseUnique (s : St α) (k : κ) : Res (St α × Out) := match find key lt s k with
  | .error u => .error u
  | .ok i => if i = size s then .ok (s, .num 0) else match eraseAt s i with
    | .error u => .error u
    | .ok (s, _) => .ok (s, .num 1)
/-- `erase(key)`, flat_multiset.h l.433-447, flat_multimap.h l.464-478 -/
def eraseMulti (s : St α) (k : κ) : Res (St α × Out) := match equalRange key lt s k with
  | .error u => .error u
  | .ok (i, j) => if i = size s then .ok (s, .num 0) else match eraseRange s i j with
    | .error u => .error u
    | .ok (s, _) => .ok (s, .num (j - i))
def eraseKey (s : St α) (k : κ) : Res (St α × Out) := if s.multi then eraseMulti key lt s k else eraseUnique key lt s k
/-- `clear`, flat_set.h l.619-640, flat_map.h l.685-705; `pool::release_all`, ipool.h l.248-253. -/
def clear (s : St α) : Res (St α) :=
  if s.triv then .ok { s with val := fun _ => .raw, free := items s.cap, lookup := [] } else match destroyAll s s.lookup with
    | .error u => .error u
    | .ok s => .ok { s with lookup := [] }
/-- `insert(first, last)`, flat_set.h l.309-316 -/
def insertRange (s : St α) : List α → Res (St α × Out)
  | [] => .ok (s, .ok)
  | v :: vs => match insert key lt s v with
    | .error u => .error u
    | .ok (s, .err e) => .ok (s, .err e)
    | .ok (s, _) => insertRange s vs
/-- `assign(first, last)`, flat_set.h l.209-223, flat_map.h l.318-332; the constructors from a range, the copy constructors and the copy assignments call it. -/
def assign (s : St α) (vs : List α) : Res (St α × Out) :=
  if s.dbg && decide (s.cap < vs.length) then .ok (s, .err .full) else match clear s with
    | .error u => .error u
    | .ok s => insertRange key lt s vs

/-- The loop of `move_container`, flat_set.h l.934-943, flat_map.h l.999-1008: `insert(etl::move(*first))`.  If the insertion constructs a new element the source element is moved from. -/
def moveLoop (s r : St α) : List Nat → Res (St α × St α × Out)
  | [] => .ok (s, r, .ok)
  | p :: ps => match r.val p with
    | .live v => (match insert key lt s v with
      | .error u => .error u
      | .ok (s, .err e) => .ok (s, r, .err e)
      | .ok (s, .pair _ true) => moveLoop s { r with val := upd r.val p .moved } ps
      | .ok (s, _) => moveLoop s r ps)
    | _ => .error .deadAccess
/-- `operator =(flat_set&&)` between different objects, flat_set.h l.925-945 -/
def moveAssign (s r : St α) : Res (St α × St α × Out) := match clear s with
  | .error u => .error u
  | .ok s => moveLoop key lt s r r.lookup

/-! ## Calls -/

inductive Op (α κ : Type) where
  | insert (v : α) | emplace (v : α) | index (v : α) | write (i : Nat) (v : α) | eraseKey (k : κ) | eraseAt (i : Nat) | eraseRange (i j : Nat) | clear | insertRange (vs : List α) | assign (vs : List α)

def step (s : St α) : Op α κ → Res (St α × Out)
  | .insert v => insert key lt s v
  | .emplace v => emplace key lt s v
  | .index v => index key lt s v
  | .write i v => write s i v
  | .eraseKey k => eraseKey key lt s k
  | .eraseAt i => eraseAt s i
  | .eraseRange i j => eraseRange s i j
  | .clear => match clear s with
    | .error u => .error u
    | .ok s => .ok (s, .ok)
  | .insertRange vs => insertRange key lt s vs
  | .assign vs => assign key lt s vs

def run (s : St α) : List (Op α κ) → Res (St α × List Out)
  | [] => .ok (s, [])
  | o :: os => match step key lt s o with
    | .error u => .error u
    | .ok (s, r) => match run s os with
      | .error u => .error u
      | .ok (s, rs) => .ok (s, r :: rs)

end Etl.Flat
