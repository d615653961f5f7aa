import Verif.Common.LinkSort
import Verif.Common.Mem

/-!
# Model of lists that share one node pool: `etl::list_ext`

Source: `/repo/include/etl/list.h`, `list_ext` l.2240-2408 over `ilist` with `pool_is_shared` set.  `k` lists use one pool of `cap` items.  Node `i + 1` is the
`terminal_node` of list `i`; the items of the pool are the nodes `k+1 .. k+cap`.  The pool is a stack of free items (property C05): `allocate` takes the top,
`release` pushes the item and writes the link to the next free item into the first word of the item, the member `previous` (l.179-180, ipool.h l.394).
Iterators are node numbers.  `check` = `ETL_CHECK_PUSH_POP`, `dbg` = `ETL_IS_DEBUG_BUILD`.
Simplifications: every list is attached to the pool for the whole history (`set_pool` before, no second pool); a failed `ETL_ASSERT` throws; copying `T` does not
throw; values passed in live outside the lists.
-/
namespace Etl.SList
open Links

variable {α : Type}

structure St (α : Type) where
  h : Links
  val : Nat → Cell α
  free : List Nat
  k : Nat
  cap : Nat
  check : Bool
  dbg : Bool

inductive Err where
  | full | empty | noAlloc
  deriving DecidableEq, Repr

inductive Out where
  | ok | err (e : Err) | at (i : Nat)
  deriving DecidableEq, Repr

/-- `&terminal_node` of list `i` -/
abbrev term (i : Nat) : Nat := i + 1

/-- The free items of a fresh pool, in the order they are handed out (ipool.h l.352-372). -/
def items (k cap : Nat) : List Nat := List.range' (k + 1) cap

/-- `list_ext(pool)`, l.2263-2266 (`ilist(node_pool, max_size, true)`: `join(terminal_node, terminal_node)`), for each of the `k` lists. -/
def init (k cap : Nat) (check dbg : Bool) (junk : Nat → Nat × Nat) : St α :=
  { h := { lim := k + cap, nx := fun p => if p ≤ k then p else (junk p).2, pv := fun p => if p ≤ k then p else (junk p).1 }, val := fun _ => .raw, free := items k cap, k, cap, check, dbg }

/-- `full`, l.272-276, and `available`, l.282-286: they ask the pool, not the list. -/
def full (s : St α) : Bool := s.cap - s.free.length == s.cap
def available (s : St α) : Nat := s.cap - (s.cap - s.free.length)
/-- `max_size`, l.223 (`MAX_SIZE` is the size of the pool, l.2265). -/
def maxSize (s : St α) : Nat := s.cap
/-- `empty`, l.264 -/
def empty (s : St α) (i : Nat) : Res Bool := do .ok ((← s.h.next (term i)) == term i)

/-- `size()` of a list with a shared pool, l.240-253: the own nodes are counted. -/
def countLoop (h : Links) (t p count : Nat) : Nat → Res Nat
  | 0 => if p ≠ t then .error .diverge else .ok count
  | f + 1 => if p ≠ t then do countLoop h t (← h.next p) (count + 1) f else .ok count
def size (s : St α) (i : Nat) : Res Nat := do countLoop s.h (term i) (← s.h.next (term i)) 0 (s.cap + 1)

/-- `*iterator`: any item of the pool that holds a value; not a terminal node. -/
def read (s : St α) (p : Nat) : Res α :=
  if s.h.valid p ∧ s.k < p then match s.val p with
    | .live v => .ok v
    | _ => .error .deadAccess
  else .error .nullDeref

/-- `allocate_data_node(value)`, l.1995-2029. -/
def allocate (s : St α) (v : α) : Res (Option (Nat × St α)) :=
  match s.free with
  | [] => .ok none
  | n :: f => match s.val n with
    | .raw => .ok (some (n, { s with val := upd s.val n (.live v), free := f }))
    | _ => .error .constructLive

/-- `destroy_data_node`, l.2034-2041; `ipool::release_item`, ipool.h l.391-403. -/
def destroyNode (s : St α) (n : Nat) : Res (St α) :=
  if s.h.valid n ∧ s.k < n ∧ n ∉ s.free then match s.val n with
    | .raw => .error .deadAccess
    | _ => .ok { s with val := upd s.val n .raw, free := n :: s.free, h := { s.h with pv := upd s.h.pv n (s.free.headD 0) } }
  else .error .nullDeref

/-- `insert_node(position, node)`, l.333-338. -/
def insertNode (s : St α) (pos n : Nat) : Res (St α) := do
  let p ← s.h.prev pos
  let h ← s.h.join p n
  let h ← h.join n pos
  .ok { s with h := h }

/-- `insert_node(position, allocate_data_node(value))`. -/
def addAt (s : St α) (pos : Nat) (v : α) : Res (St α × Option Nat) := do
  match ← allocate s v with
  | none => .ok (s, none)
  | some (n, s) => do
    let s ← insertNode s pos n
    .ok (s, some n)

/-- `remove_node`, l.1983-1990. -/
def removeNode (s : St α) (n : Nat) : Res (St α) := do
  let p ← s.h.prev n
  let q ← s.h.next n
  let h ← s.h.join p q
  destroyNode { s with h := h } n

def pushOut : Option Nat → Out
  | none => .err .noAlloc
  | some _ => .ok

/-- `push_front`, l.838-857, `emplace_front`. -/
def pushFront (s : St α) (i : Nat) (v : α) : Res (St α × Out) :=
  if s.check && full s then .ok (s, .err .full) else do
    let (s, o) ← addAt s (← s.h.next (term i)) v
    .ok (s, pushOut o)

/-- `push_back`, l.983-1002, `emplace_back`. -/
def pushBack (s : St α) (i : Nat) (v : α) : Res (St α × Out) :=
  if s.check && full s then .ok (s, .err .full) else do
    let (s, o) ← addAt s (term i) v
    .ok (s, pushOut o)

/-- `pop_front`, l.971-978. -/
def popFront (s : St α) (i : Nat) : Res (St α × Out) := do
  if s.check && (← empty s i) then .ok (s, .err .empty) else do
    .ok (← removeNode s (← s.h.next (term i)), .ok)

/-- `pop_back`, l.1101-1108. -/
def popBack (s : St α) (i : Nat) : Res (St α × Out) := do
  if s.check && (← empty s i) then .ok (s, .err .empty) else do
    .ok (← removeNode s (← s.h.prev (term i)), .ok)

/-- `insert(position, value)`, l.1113-1135. -/
def insert (s : St α) (pos : Nat) (v : α) : Res (St α × Option Nat) :=
  if full s then .ok (s, none) else addAt s pos v

/-- `insert(position, n, value)`, l.1229-1238 and `insert(position, first, last)`, l.1244-1254. -/
def insertAll (s : St α) (pos : Nat) : List α → Res (St α × Out)
  | [] => .ok (s, .ok)
  | v :: vs => if full s then .ok (s, .err .full) else do
    let (s, o) ← addAt s pos v
    match o with
    | none => .ok (s, .err .noAlloc)
    | some _ => insertAll s pos vs

/-- `erase(position)`, l.1259-1266. -/
def erase (s : St α) (p : Nat) : Res (St α × Nat) := do
  let q ← s.h.next p
  let s ← removeNode s (← s.h.prev q)
  .ok (s, q)

/-- The loop of `erase(first, last)`, l.1284-1290 (`next` is read before the node is destroyed). -/
def eraseLoop (s : St α) (p last : Nat) : Nat → Res (St α)
  | 0 => if p ≠ last then .error .diverge else .ok s
  | f + 1 => if p ≠ last then do
      let q ← s.h.next p
      let s ← destroyNode s p
      eraseLoop s q last f
    else .ok s

/-- `erase(first, last)`, l.1271-1293. -/
def eraseRange (s : St α) (first last : Nat) : Res (St α) := do
  let p ← s.h.prev first
  let h ← s.h.join p last
  eraseLoop { s with h := h } first last (s.cap + 1)

/-- The loop of `initialise`, l.1863-1871: the node is destroyed first, then its `next` is read. -/
def clearLoop (s : St α) (t p : Nat) : Nat → Res (St α)
  | 0 => if p ≠ t then .error .diverge else .ok s
  | f + 1 => if p ≠ t then do
      let s ← destroyNode s p
      let q ← s.h.next p
      clearLoop s t q f
    else .ok s

/-- `initialise`, l.1849-1876, with `has_shared_pool()`; `clear` l.1331; `~list_ext` l.2271. -/
def initialise (s : St α) (i : Nat) : Res (St α) := do
  let s ← (do if ← empty s i then .ok s else clearLoop s (term i) (← s.h.next (term i)) (s.cap + 1) : Res (St α))
  let h ← s.h.join (term i) (term i)
  .ok { s with h := h }

/-- The loop of `assign(first, last)`, l.806-812, and of `assign(n, value)`, l.827-832. -/
def appendAll (s : St α) (i : Nat) : List α → Res (St α × Out)
  | [] => .ok (s, .ok)
  | v :: vs => do
    match ← allocate s v with
    | none => .ok (s, .err .noAlloc)
    | some (n, s) => do
      let tail ← s.h.prev (term i)
      let h ← s.h.join tail n
      let h ← h.join n (term i)
      appendAll { s with h := h } i vs

/-- `assign`, l.796-834: the debug check compares with `MAX_SIZE`, the size of the whole pool. -/
def assign (s : St α) (i : Nat) (vs : List α) : Res (St α × Out) :=
  if s.dbg && decide (vs.length > s.cap) then .ok (s, .err .full) else do
    let s ← initialise s i
    appendAll s i vs

/-- `etl::advance(i, -n)` and `etl::advance(begin(), n)`. -/
def back (h : Links) (p : Nat) : Nat → Res Nat
  | 0 => .ok p
  | n + 1 => do back h (← h.prev p) n
def fwd (h : Links) (p : Nat) : Nat → Res Nat
  | 0 => .ok p
  | n + 1 => do fwd h (← h.next p) n

/-- `resize(n, value)`, l.1305-1326. -/
def resize (s : St α) (i n : Nat) (v : α) : Res (St α × Out) :=
  if n ≤ s.cap then
    if n = 0 then do .ok (← initialise s i, .ok)
    else do
      let sz ← size s i
      if n < sz then do
        let p ← back s.h (term i) (sz - n)
        .ok (← eraseRange s p (term i), .ok)
      else if n > sz then insertAll s (term i) (List.replicate (n - sz) v)
      else .ok (s, .ok)
  else .ok (s, .err .full)

/-- `remove(value)`, `remove_if(predicate)`, l.1339-1376. -/
def removeLoop (f : α → Bool) (s : St α) (t p : Nat) : Nat → Res (St α)
  | 0 => if p ≠ t then .error .diverge else .ok s
  | m + 1 => if p ≠ t then do
      let v ← read s p
      if f v then do
        let (s, q) ← erase s p
        removeLoop f s t q m
      else do
        let q ← s.h.next p
        removeLoop f s t q m
    else .ok s
def removeIf (f : α → Bool) (s : St α) (i : Nat) : Res (St α × Out) := do
  .ok (← removeLoop f s (term i) (← s.h.next (term i)) (s.cap + 1), .ok)

/-- `compare(*a, *b)`. -/
def cmpNodes (lt : α → α → Bool) (s : St α) (a b : Nat) : Res Bool := do
  let x ← read s a
  let y ← read s b
  .ok (lt x y)

/-- `sort(compare)`, l.1684-1789; `is_trivial_list`, l.294-297. -/
def sort (lt : α → α → Bool) (s : St α) (i : Nat) : Res (St α × Out) := do
  if (← size s i) < 2 then .ok (s, .ok) else do
    .ok ({ s with h := ← sortLinks (cmpNodes lt s) (term i) s.h }, .ok)

/-- iterator at position `p` of list `i`: `begin()` advanced `p` times -/
def iter (s : St α) (i p : Nat) : Res Nat := do fwd s.h (← s.h.next (term i)) p

/-- position of an iterator, counted from `begin()` -/
def posOf (h : Links) (n p : Nat) : Nat → Res Nat
  | 0 => .error .diverge
  | f + 1 => if p = n then .ok 0 else do
    let i ← posOf h n (← h.next p) f
    .ok (i + 1)
def position (s : St α) (i n : Nat) : Res Nat := do posOf s.h n (← s.h.next (term i)) (s.cap + 1)

/-- the values of list `i`, by iteration from `begin()` to `end()` -/
def values (s : St α) (i : Nat) : Res (List α) := do
  let ns ← s.h.walk (term i) (← s.h.next (term i)) (s.cap + 1)
  ns.mapM (read s)

/-- `operator =(const list_ext&)`, l.2368-2376; copy construction l.2296-2317 when list `i` is the (empty) new list. -/
def copyAssign (s : St α) (i j : Nat) : Res (St α × Out) :=
  if i = j then .ok (s, .ok) else do
    let vs ← values s j
    assign s i vs

/-- `operator =(list_ext&&)`, l.2382-2387, `move_container`, l.1882-1900: the pools are the same, so the nodes are linked into the other list. -/
def moveAssign (s : St α) (i j : Nat) : Res (St α × Out) :=
  if i = j then .ok (s, .ok) else do
    let s ← initialise s i
    if ← empty s j then .ok (s, .ok) else do
      let hd ← s.h.next (term j)
      let h ← s.h.join (term i) hd
      let tl ← h.prev (term j)
      let h ← h.join tl (term i)
      let h ← h.join (term j) (term j)
      .ok ({ s with h := h }, .ok)

/-- `splice(to, other, first, last)` with `&other != this`, l.1496-1501: `insert(to, first, last); other.erase(first, last)` - also when the pool is the same. -/
def spliceRange (s : St α) (to first last : Nat) : Res (St α × Out) := do
  let ns ← s.h.walk last first (s.cap + 1)
  let vs ← ns.mapM (read s)
  let (s, o) ← insertAll s to vs
  match o with
  | .ok => do .ok (← eraseRange s first last, .ok)
  | o => .ok (s, o)

/-- `splice(to, other)`, l.1419-1426. -/
def splice (s : St α) (to j : Nat) : Res (St α × Out) := do
  spliceRange s to (← s.h.next (term j)) (term j)

/-- `splice(to, other, from)` with `&other != this`, l.1458-1462. -/
def spliceOne (s : St α) (to from_ : Nat) : Res (St α × Out) := do
  let v ← read s from_
  let (s, o) ← insert s to v
  match o with
  | none => .ok (s, .err .full)
  | some _ => do
    let (s, _) ← erase s from_
    .ok (s, .ok)

/-- Operations; lists are given by number, iterators by list and position. -/
inductive Op (α : Type) where
  | assign (i : Nat) (vs : List α) | clear (i : Nat) | resize (i n : Nat) (v : α)
  | pushFront (i : Nat) (v : α) | pushBack (i : Nat) (v : α) | popFront (i : Nat) | popBack (i : Nat)
  | insert (i p : Nat) (v : α) | insertAll (i p : Nat) (vs : List α)
  | erase (i p : Nat) | eraseRange (i p q : Nat)
  | removeIf (i : Nat) (f : α → Bool) | sort (i : Nat) (lt : α → α → Bool)
  | copyAssign (i j : Nat) | moveAssign (i j : Nat)
  | splice (i p j : Nat) | spliceRange (i p j a b : Nat) | spliceOne (i p j a : Nat)

def step (s : St α) : Op α → Res (St α × Out)
  | .assign i vs => assign s i vs
  | .clear i => do .ok (← initialise s i, .ok)
  | .resize i n v => resize s i n v
  | .pushFront i v => pushFront s i v
  | .pushBack i v => pushBack s i v
  | .popFront i => popFront s i
  | .popBack i => popBack s i
  | .insert i p v => do
    let (s, o) ← insert s (← iter s i p) v
    match o with
    | none => .ok (s, .err .full)
    | some n => .ok (s, .at (← position s i n))
  | .insertAll i p vs => do insertAll s (← iter s i p) vs
  | .erase i p => do
    let (s, q) ← erase s (← iter s i p)
    .ok (s, .at (← position s i q))
  | .eraseRange i p q => do
    let last ← iter s i q
    let s ← eraseRange s (← iter s i p) last
    .ok (s, .at (← position s i last))
  | .removeIf i f => removeIf f s i
  | .sort i lt => sort lt s i
  | .copyAssign i j => copyAssign s i j
  | .moveAssign i j => moveAssign s i j
  | .splice i p j => do splice s (← iter s i p) j
  | .spliceRange i p j a b => do
    let first ← iter s j a
    let last ← iter s j b
    spliceRange s (← iter s i p) first last
  | .spliceOne i p j a => do
    let from_ ← iter s j a
    spliceOne s (← iter s i p) from_

def run (s : St α) : List (Op α) → Res (St α × List Out)
  | [] => .ok (s, [])
  | o :: os => do
    let (s, r) ← step s o
    let (s, rs) ← run s os
    .ok (s, r :: rs)

end Etl.SList
