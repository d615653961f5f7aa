import Verif.Common.LinkSort
import Verif.Common.Mem

/-!
# Model of `etl::list` / `etl::ilist`

Source: `/repo/include/etl/list.h`.  Node 1 is `terminal_node`, nodes `2 .. MAX_SIZE+1` are the items of the list's own pool (`list`, l.2064; a pool shared between
several lists, `pool_is_shared`, is not modelled).  The pool is a stack of free items (see the `Pool` model, property C05): `allocate` takes the top, `release`
pushes the item and writes the link to the next free item into the first word of the item - which is the member `previous` (l.179-180, ipool.h l.394).
Iterators are node numbers.  `check` = `ETL_CHECK_PUSH_POP`, `dbg` = `ETL_IS_DEBUG_BUILD`, `triv` = `is_trivially_destructible<T>`.
Simplifications: a failed `ETL_ASSERT` throws; copying, moving and comparing `T` does not throw; values passed in live outside the list.
-/
namespace Etl.DList
open Links

variable {α : Type}

structure St (α : Type) where
  h : Links
  val : Nat → Cell α
  free : List Nat
  cap : Nat
  check : Bool
  dbg : Bool
  triv : Bool

inductive Err where
  | full | empty | noAlloc | iterator | unsorted
  deriving DecidableEq, Repr

/-- Outcome of a call: nothing, the error thrown, or the iterator returned. -/
inductive Out where
  | ok | err (e : Err) | at (i : Nat)
  deriving DecidableEq, Repr

/-- `&terminal_node` -/
def T : Nat := 1

/-- The free items of a fresh pool, in the order they are handed out (ipool.h l.352-372). -/
def items (cap : Nat) : List Nat := List.range' 2 cap

/-- `list()`, l.2095-2098: `join(terminal_node, terminal_node)` over an empty pool.  The links of the items are arbitrary (`junk`). -/
def init (cap : Nat) (check dbg triv : Bool) (junk : Nat → Nat × Nat) : St α :=
  { h := { lim := cap + 1, nx := upd (fun p => (junk p).2) T T, pv := upd (fun p => (junk p).1) T T }, val := fun _ => .raw, free := items cap, cap, check, dbg, triv }

/-- `size()`, l.238-258 (`p_node_pool->size()`); `full` l.272; `available` l.282; `empty` l.264. -/
def size (s : St α) : Nat := s.cap - s.free.length
def full (s : St α) : Bool := size s == s.cap
def available (s : St α) : Nat := s.cap - size s
def empty (s : St α) : Res Bool := do .ok ((← s.h.next T) == T)

/-- `*iterator`. -/
def read (s : St α) (p : Nat) : Res α :=
  if s.h.valid p ∧ p ≠ T then match s.val p with
    | .live v => .ok v
    | _ => .error .deadAccess
  else .error .nullDeref

/-- `etl::move(*iterator)`. -/
def take (s : St α) (p : Nat) : Res (α × St α) := do
  let v ← read s p
  .ok (v, { s with val := upd s.val p .moved })

/-- `allocate_data_node(value)`, l.1995-2029. `none`: the pool is empty and throws `pool_no_allocation`. -/
def allocate (s : St α) (v : α) : Res (Option (Nat × St α)) :=
  match s.free with
  | [] => .ok none
  | n :: f => match s.val n with
    | .raw => .ok (some (n, { s with val := upd s.val n (.live v), free := f }))
    | _ => .error .constructLive

/-- `destroy_data_node`, l.2034-2041; `ipool::release_item`, ipool.h l.391-403. -/
def destroyNode (s : St α) (n : Nat) : Res (St α) :=
  if s.h.valid n ∧ n ≠ T ∧ n ∉ s.free then match s.val n with
    | .raw => .error .deadAccess
    | _ => .ok { s with val := upd s.val n .raw, free := n :: s.free, h := { s.h with pv := upd s.h.pv n (s.free.headD 0) } }
  else .error .nullDeref

/-- `insert_node(position, node)`, l.333-338. -/
def insertNode (s : St α) (pos n : Nat) : Res (St α) := do
  let p ← s.h.prev pos
  let h ← s.h.join p n
  let h ← h.join n pos
  .ok { s with h := h }

/-- `insert_node(position, allocate_data_node(value))`. -/
def addAt (s : St α) (pos : Nat) (v : α) : Res (St α × Option Nat) := do
  match ← allocate s v with
  | none => .ok (s, none)
  | some (n, s) => do
    let s ← insertNode s pos n
    .ok (s, some n)

/-- `remove_node`, l.1983-1990. -/
def removeNode (s : St α) (n : Nat) : Res (St α) := do
  let p ← s.h.prev n
  let q ← s.h.next n
  let h ← s.h.join p q
  destroyNode { s with h := h } n

/-- `push_front`, l.838-857, `emplace_front`. -/
def pushFront (s : St α) (v : α) : Res (St α × Out) :=
  if s.check && full s then .ok (s, .err .full) else do
    let (s, o) ← addAt s (← s.h.next T) v
    .ok (s, match o with | none => .err .noAlloc | some _ => .ok)

/-- `push_back`, l.983-1002, `emplace_back`. -/
def pushBack (s : St α) (v : α) : Res (St α × Out) :=
  if s.check && full s then .ok (s, .err .full) else do
    let (s, o) ← addAt s T v
    .ok (s, match o with | none => .err .noAlloc | some _ => .ok)

/-- `pop_front`, l.971-978. -/
def popFront (s : St α) : Res (St α × Out) := do
  if s.check && (← empty s) then .ok (s, .err .empty) else do
    .ok (← removeNode s (← s.h.next T), .ok)

/-- `pop_back`, l.1101-1108. -/
def popBack (s : St α) : Res (St α × Out) := do
  if s.check && (← empty s) then .ok (s, .err .empty) else do
    .ok (← removeNode s (← s.h.prev T), .ok)

/-- `insert(position, value)`, l.1113-1135, `emplace` l.1142-1155: returns the new node. -/
def insert (s : St α) (pos : Nat) (v : α) : Res (St α × Option Nat) :=
  if full s then .ok (s, none) else addAt s pos v

/-- `insert(position, n, value)`, l.1229-1238 and `insert(position, first, last)`, l.1244-1254. -/
def insertAll (s : St α) (pos : Nat) : List α → Res (St α × Out)
  | [] => .ok (s, .ok)
  | v :: vs => if full s then .ok (s, .err .full) else do
    let (s, o) ← addAt s pos v
    match o with
    | none => .ok (s, .err .noAlloc)
    | some _ => insertAll s pos vs

/-- `erase(position)`, l.1259-1266: `++position; remove_node(*position->previous)`. -/
def erase (s : St α) (p : Nat) : Res (St α × Nat) := do
  let q ← s.h.next p
  let s ← removeNode s (← s.h.prev q)
  .ok (s, q)

/-- The loop of `erase(first, last)`, l.1284-1290 (`next` is read before the node is destroyed). -/
def eraseLoop (s : St α) (p last : Nat) : Nat → Res (St α)
  | 0 => if p ≠ last then .error .diverge else .ok s
  | k + 1 => if p ≠ last then do
      let q ← s.h.next p
      let s ← destroyNode s p
      eraseLoop s q last k
    else .ok s

/-- `erase(first, last)`, l.1271-1293. -/
def eraseRange (s : St α) (first last : Nat) : Res (St α) := do
  let p ← s.h.prev first
  let h ← s.h.join p last
  eraseLoop { s with h := h } first last (s.cap + 1)

/-- The loop of `initialise`, l.1863-1871: the node is destroyed first, then its `next` is read. -/
def clearLoop (s : St α) (p : Nat) : Nat → Res (St α)
  | 0 => if p ≠ T then .error .diverge else .ok s
  | k + 1 => if p ≠ T then do
      let s ← destroyNode s p
      let q ← s.h.next p
      clearLoop s q k
    else .ok s

/-- The part of `initialise` that gives the nodes back, l.1851-1873.  For a trivially destructible `T` the whole pool is released. -/
def releaseAll (s : St α) : Res (St α) := do
  if ← empty s then .ok s
  else if s.triv then .ok { s with val := fun _ => .raw, free := items s.cap }
  else clearLoop s (← s.h.next T) (s.cap + 1)

/-- `initialise`, l.1849-1876; `clear` l.1331; destructor l.2103. -/
def initialise (s : St α) : Res (St α) := do
  let s ← releaseAll s
  let h ← s.h.join T T
  .ok { s with h := h }

def clear (s : St α) : Res (St α × Out) := do .ok (← initialise s, .ok)

/-- The loop of `assign(first, last)`, l.806-812, and of `assign(n, value)`, l.827-832: nodes are appended one by one. -/
def appendAll (s : St α) : List α → Res (St α × Out)
  | [] => .ok (s, .ok)
  | v :: vs => do
    match ← allocate s v with
    | none => .ok (s, .err .noAlloc)
    | some (n, s) => do
      let tail ← s.h.prev T
      let h ← s.h.join tail n
      let h ← h.join n T
      appendAll { s with h := h } vs

/-- `assign`, l.796-834; copy construction and assignment l.2138, l.2190. -/
def assign (s : St α) (vs : List α) : Res (St α × Out) :=
  if s.dbg && decide (vs.length > s.cap) then .ok (s, .err .full) else do
    let s ← initialise s
    appendAll s vs

/-- `etl::advance(i, -k)`. -/
def back (h : Links) (p : Nat) : Nat → Res Nat
  | 0 => .ok p
  | k + 1 => do back h (← h.prev p) k

/-- `begin()` advanced `k` times: how a caller obtains an iterator. -/
def fwd (h : Links) (p : Nat) : Nat → Res Nat
  | 0 => .ok p
  | k + 1 => do fwd h (← h.next p) k

/-- `resize(n, value)`, l.1305-1326. -/
def resize (s : St α) (n : Nat) (v : α) : Res (St α × Out) :=
  if n ≤ s.cap then
    if n = 0 then clear s
    else if n < size s then do
      let i ← back s.h T (size s - n)
      .ok (← eraseRange s i T, .ok)
    else if n > size s then insertAll s T (List.replicate (n - size s) v)
    else .ok (s, .ok)
  else .ok (s, .err .full)

/-- `remove(value)`, `remove_if(predicate)`, l.1339-1376. -/
def removeLoop (f : α → Bool) (s : St α) (p : Nat) : Nat → Res (St α)
  | 0 => if p ≠ T then .error .diverge else .ok s
  | k + 1 => if p ≠ T then do
      let v ← read s p
      if f v then do
        let (s, q) ← erase s p
        removeLoop f s q k
      else do
        let q ← s.h.next p
        removeLoop f s q k
    else .ok s

def removeIf (f : α → Bool) (s : St α) : Res (St α × Out) := do
  .ok (← removeLoop f s (← s.h.next T) (s.cap + 1), .ok)

/-- `unique(isEqual)`, l.1391-1414. -/
def uniqueLoop (eq : α → α → Bool) (s : St α) (prev p : Nat) : Nat → Res (St α)
  | 0 => if p ≠ T then .error .diverge else .ok s
  | k + 1 => if p ≠ T then do
      let a ← read s prev
      let b ← read s p
      if eq a b then do
        let (s, q) ← erase s p
        uniqueLoop eq s prev q k
      else do
        let q ← s.h.next p
        uniqueLoop eq s p q k
    else .ok s

def unique (eq : α → α → Bool) (s : St α) : Res (St α × Out) := do
  if ← empty s then .ok (s, .ok) else do
    let b ← s.h.next T
    .ok (← uniqueLoop eq s b (← s.h.next b) (s.cap + 1), .ok)

/-- The loop of `reverse`, l.203-217. -/
def reverseLoop (h : Links) (p : Nat) : Nat → Res Links
  | 0 => .error .diverge
  | k + 1 => do
    let q ← h.next p
    let r ← h.prev p
    let h : Links := { h with pv := upd h.pv p q, nx := upd h.nx p r }
    if p ≠ T then reverseLoop h q k else .ok h

/-- `reverse`, l.196-218. -/
def reverse (s : St α) : Res (St α × Out) :=
  if size s < 2 then .ok (s, .ok) else do
    let p ← s.h.next T
    .ok ({ s with h := ← reverseLoop s.h p (s.cap + 2) }, .ok)

/-- `compare(*a, *b)`. -/
def cmpNodes (lt : α → α → Bool) (s : St α) (a b : Nat) : Res Bool := do
  let x ← read s a
  let y ← read s b
  .ok (lt x y)

/-- `sort(compare)`, l.1684-1789. -/
def sort (lt : α → α → Bool) (s : St α) : Res (St α × Out) :=
  if size s < 2 then .ok (s, .ok) else do
    .ok ({ s with h := ← sortLinks (cmpNodes lt s) T s.h }, .ok)

/-- `move(to, from)`, l.1930-1946: `splice(to, *this, from)` l.1451. -/
def moveOne (s : St α) (to from_ : Nat) : Res (St α) :=
  if from_ = to then .ok s else do
    let p ← s.h.prev from_
    let q ← s.h.next from_
    let h ← s.h.join p q
    let r ← h.prev to
    let h ← h.join r from_
    let h ← h.join from_ to
    .ok { s with h := h }

/-- The debug check of `move(to, first, last)`, l.1961-1965: is `to` in `[first, last)`? -/
def inRange (h : Links) (to p last : Nat) : Nat → Res Bool
  | 0 => if p ≠ last then .error .diverge else .ok false
  | k + 1 => if p ≠ last then (if p = to then .ok true else do inRange h to (← h.next p) last k) else .ok false

/-- The relinking of `move(to, first, last)`, l.1968-1979. -/
def moveLinks (h : Links) (to first last : Nat) : Res Links := do
  let final ← h.prev last
  let p ← h.prev first
  let h ← h.join p last
  let r ← h.prev to
  let h ← h.join r first
  h.join final to

/-- `move(to, first, last)`, l.1952-1980: `splice(to, *this, first, last)` l.1489. -/
def moveRange (s : St α) (to first last : Nat) : Res (St α × Out) :=
  if first = to ∨ last = to then .ok (s, .ok) else do
    let bad ← (if s.dbg then inRange s.h to first last (s.cap + 1) else .ok false)
    if bad then .ok (s, .err .iterator) else do
      .ok ({ s with h := ← moveLinks s.h to first last }, .ok)

/-- Operations on one list; iterators are given as positions counted from `begin()`. -/
inductive Op (α : Type) where
  | assign (vs : List α) | clear | resize (k : Nat) (v : α)
  | pushFront (v : α) | pushBack (v : α) | popFront | popBack
  | insert (i : Nat) (v : α) | insertAll (i : Nat) (vs : List α)
  | erase (i : Nat) | eraseRange (i j : Nat)
  | removeIf (f : α → Bool) | unique (eq : α → α → Bool) | reverse | sort (lt : α → α → Bool)
  | moveOne (i j : Nat) | moveRange (i j k : Nat)

/-- iterator at position `i` -/
def iter (s : St α) (i : Nat) : Res Nat := do fwd s.h (← s.h.next T) i

/-- position of a node: number of `++` from `begin()` -/
def posOf (s : St α) (n p : Nat) : Nat → Res Nat
  | 0 => .error .diverge
  | k + 1 => if p = n then .ok 0 else do
    let i ← posOf s n (← s.h.next p) k
    .ok (i + 1)

/-- position of an iterator, counted from `begin()` -/
def position (s : St α) (n : Nat) : Res Nat := do posOf s n (← s.h.next T) (s.cap + 1)

def step (s : St α) : Op α → Res (St α × Out)
  | .assign vs => assign s vs
  | .clear => clear s
  | .resize k v => resize s k v
  | .pushFront v => pushFront s v
  | .pushBack v => pushBack s v
  | .popFront => popFront s
  | .popBack => popBack s
  | .insert i v => do
    let (s, o) ← insert s (← iter s i) v
    match o with
    | none => .ok (s, .err .full)
    | some n => .ok (s, .at (← position s n))
  | .insertAll i vs => do insertAll s (← iter s i) vs
  | .erase i => do
    let (s, q) ← erase s (← iter s i)
    .ok (s, .at (← position s q))
  | .eraseRange i j => do
    let last ← iter s j
    let s ← eraseRange s (← iter s i) last
    .ok (s, .at (← position s last))
  | .removeIf f => removeIf f s
  | .unique eq => unique eq s
  | .reverse => reverse s
  | .sort lt => sort lt s
  | .moveOne i j => do .ok (← moveOne s (← iter s i) (← iter s j), .ok)
  | .moveRange i j k => do moveRange s (← iter s i) (← iter s j) (← iter s k)

/-! ## Operations on two lists -/

/-- `splice(to, other, first, last)` with `&other != this`, l.1496-1501: `insert(to, first, last); other.erase(first, last)`. -/
def spliceRange (a : St α) (to : Nat) (b : St α) (first last : Nat) : Res (St α × St α × Out) := do
  let ns ← b.h.walk last first (b.cap + 1)
  let vs ← ns.mapM (read b)
  let (a, o) ← insertAll a to vs
  match o with
  | .ok => do .ok (a, ← eraseRange b first last, .ok)
  | o => .ok (a, b, o)

/-- `splice(to, other)`, l.1419-1426. -/
def splice (a : St α) (to : Nat) (b : St α) : Res (St α × St α × Out) := do
  spliceRange a to b (← b.h.next T) T

/-- The loop of `splice(to, ilist&&)`, l.1436-1441: `to = insert(to, etl::move(*itr)); ++itr`. -/
def spliceMoveLoop (a : St α) (to : Nat) (b : St α) (itr : Nat) : Nat → Res (St α × St α × Out)
  | 0 => if itr ≠ T then .error .diverge else .ok (a, b, .ok)
  | k + 1 => if itr ≠ T then do
      if full a then .ok (a, b, .err .full) else do
      let (v, b) ← take b itr
      let (a, o) ← addAt a to v
      match o with
      | none => .ok (a, b, .err .noAlloc)
      | some n => do
        let itr ← b.h.next itr
        spliceMoveLoop a n b itr k
    else .ok (a, b, .ok)

/-- `splice(to, ilist&& other)`, l.1432-1445. -/
def spliceMove (a : St α) (to : Nat) (b : St α) : Res (St α × St α × Out) := do
  let (a, b, o) ← spliceMoveLoop a to b (← b.h.next T) (b.cap + 1)
  match o with
  | .ok => do .ok (a, ← eraseRange b (← b.h.next T) T, .ok)
  | o => .ok (a, b, o)

/-- `splice(to, other, from)` with `&other != this`, l.1458-1462. -/
def spliceOne (a : St α) (to : Nat) (b : St α) (from_ : Nat) : Res (St α × St α × Out) := do
  let v ← read b from_
  let (a, o) ← insert a to v
  match o with
  | none => .ok (a, b, .err .full)
  | some _ => do
    let (b, _) ← erase b from_
    .ok (a, b, .ok)

/-- "Find the place to insert", l.1563-1567. -/
def mergeSkip (lt : α → α → Bool) (a b : St α) (x y : Nat) : Nat → Res Nat
  | 0 => .error .diverge
  | k + 1 => if x ≠ T then do
      let vy ← read b y
      let vx ← read a x
      if !lt vy vx then mergeSkip lt a b (← a.h.next x) y k else .ok x
    else .ok x

/-- "Insert", l.1570-1577. -/
def mergeIns (lt : α → α → Bool) (a b : St α) (x y : Nat) : Nat → Res (St α × Nat × Out)
  | 0 => .error .diverge
  | k + 1 => if y ≠ T then do
      let vy ← read b y
      let vx ← read a x
      if lt vy vx then do
        let (a, o) ← insert a x vy
        match o with
        | none => .ok (a, y, .err .full)
        | some _ => mergeIns lt a b x (← b.h.next y) k
      else .ok (a, y, .ok)
    else .ok (a, y, .ok)

/-- The outer loop, l.1560-1579. -/
def mergeLoop (lt : α → α → Bool) (a b : St α) (x y : Nat) : Nat → Res (St α × Nat × Nat × Out)
  | 0 => .error .diverge
  | k + 1 => if x ≠ T ∧ y ≠ T then do
      let x ← mergeSkip lt a b x y (a.cap + 1)
      if x ≠ T then do
        let (a, y, o) ← mergeIns lt a b x y (b.cap + 1)
        match o with
        | .ok => mergeLoop lt a b x y k
        | o => .ok (a, x, y, o)
      else mergeLoop lt a b x y k
    else .ok (a, x, y, .ok)

/-- `etl::is_sorted(begin(), end(), compare)` (algorithm.h): no element is less than its predecessor. -/
def isSorted (lt : α → α → Bool) : List α → Bool
  | [] => true
  | [_] => true
  | x :: y :: l => !lt y x && isSorted lt (y :: l)

/-- the values of a list, by iteration -/
def values (s : St α) : Res (List α) := do
  let ns ← s.h.walk T (← s.h.next T) (s.cap + 1)
  ns.mapM (read s)

/-- "Any left over?", l.1582-1585. -/
def mergeRest (a b : St α) (x y : Nat) : Res (St α × Out) :=
  if x = T ∧ y ≠ T then do
    let ns ← b.h.walk T y (b.cap + 1)
    let vs ← ns.mapM (read b)
    insertAll a T vs
  else .ok (a, .ok)

/-- `merge(other, compare)`, l.1543-1589 (`this != &other`). -/
def merge (lt : α → α → Bool) (a b : St α) : Res (St α × St α × Out) := do
  if ← empty b then .ok (a, b, .ok) else do
    let va ← values a
    let vb ← values b
    if a.dbg && !(isSorted lt vb && isSorted lt va) then .ok (a, b, .err .unsorted) else do
      let (a, x, y, o) ← mergeLoop lt a b (← a.h.next T) (← b.h.next T) (a.cap + b.cap + 2)
      match o with
      | .ok => do
        let (a, o) ← mergeRest a b x y
        match o with
        | .ok => do .ok (a, ← initialise b, .ok)
        | o => .ok (a, b, o)
      | o => .ok (a, b, o)

/-- The loop of move assignment, l.1907-1915 (pools differ), and move construction l.2157-2161. -/
def moveAll (a b : St α) (itr : Nat) : Nat → Res (St α × St α × Out)
  | 0 => if itr ≠ T then .error .diverge else .ok (a, b, .ok)
  | k + 1 => if itr ≠ T then do
      if full a then .ok (a, b, .err .full) else do
      let (v, b) ← take b itr
      let (a, o) ← addAt a T v
      match o with
      | none => .ok (a, b, .err .noAlloc)
      | some _ => moveAll a b (← b.h.next itr) k
    else .ok (a, b, .ok)

/-- `operator =(list&&)` / `move_container`, l.1882-1921, l.2205. -/
def moveAssign (a b : St α) : Res (St α × St α × Out) := do
  let a ← initialise a
  if ← empty b then .ok (a, b, .ok) else do
    let (a, b, o) ← moveAll a b (← b.h.next T) (b.cap + 1)
    match o with
    | .ok => do .ok (a, ← initialise b, .ok)
    | o => .ok (a, b, o)

/-- Histories over two lists. -/
inductive Op2 (α : Type) where
  | fst (o : Op α) | snd (o : Op α)
  | copy                                  -- first = second
  | splice (i : Nat)                      -- first.splice(begin()+i, second)
  | spliceRange (i j k : Nat)             -- first.splice(begin()+i, second, second.begin()+j, second.begin()+k)
  | spliceOne (i j : Nat)                 -- first.splice(begin()+i, second, second.begin()+j)
  | merge (lt : α → α → Bool)             -- first.merge(second, lt)
  | moveAssign                            -- first = move(second)

def step2 (s : St α × St α) : Op2 α → Res ((St α × St α) × Out)
  | .fst o => do
    let (a, r) ← step s.1 o
    .ok ((a, s.2), r)
  | .snd o => do
    let (b, r) ← step s.2 o
    .ok ((s.1, b), r)
  | .copy => do
    let vs ← values s.2
    let (a, r) ← assign s.1 vs
    .ok ((a, s.2), r)
  | .splice i => do
    let (a, b, r) ← splice s.1 (← iter s.1 i) s.2
    .ok ((a, b), r)
  | .spliceRange i j k => do
    let (a, b, r) ← spliceRange s.1 (← iter s.1 i) s.2 (← iter s.2 j) (← iter s.2 k)
    .ok ((a, b), r)
  | .spliceOne i j => do
    let (a, b, r) ← spliceOne s.1 (← iter s.1 i) s.2 (← iter s.2 j)
    .ok ((a, b), r)
  | .merge lt => do
    let (a, b, r) ← merge lt s.1 s.2
    .ok ((a, b), r)
  | .moveAssign => do
    let (a, b, r) ← moveAssign s.1 s.2
    .ok ((a, b), r)

def run2 (s : St α × St α) : List (Op2 α) → Res ((St α × St α) × List Out)
  | [] => .ok (s, [])
  | o :: os => do
    let (s, r) ← step2 s o
    let (s, rs) ← run2 s os
    .ok (s, r :: rs)

end Etl.DList
