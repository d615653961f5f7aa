import Verif.Common.FwSort
import Verif.Common.Mem

/-!
# Model of `etl::forward_list` / `etl::iforward_list`

Source: `/repo/include/etl/forward_list.h`.  Node 1 is `start_node`, nodes `2 .. MAX_SIZE+1` are the items of the list's own pool (`forward_list`, l.1659; a pool
shared between several lists, `pool_is_shared`, is not modelled).  The pool is a stack of free items (see the `Pool` model, property C05): `allocate` takes the
top, `release` pushes the item and writes the link to the next free item into the first word of the item - which is the member `next` (l.140-148, ipool.h l.394).
Iterators are node numbers; `end()` is the null pointer 0 (l.588).  `check` = `ETL_CHECK_PUSH_POP`, `dbg` = `ETL_IS_DEBUG_BUILD`,
`triv` = `is_trivially_destructible<T>`.
Simplifications: a failed `ETL_ASSERT` throws; copying, moving and comparing `T` does not throw; values passed in live outside the list.
-/
namespace Etl.FList
open FLinks

variable {α : Type}

structure St (α : Type) where
  h : FLinks
  val : Nat → Cell α
  free : List Nat
  cap : Nat
  check : Bool
  dbg : Bool
  triv : Bool

inductive Err where
  | full | empty | noAlloc | iterator
  deriving DecidableEq, Repr

/-- Outcome of a call: nothing, the error thrown, or the iterator returned. -/
inductive Out where
  | ok | err (e : Err) | at (i : Nat)
  deriving DecidableEq, Repr

/-- `&start_node` -/
def S : Nat := 1

/-- The free items of a fresh pool, in the order they are handed out (ipool.h l.352-372). -/
def items (cap : Nat) : List Nat := List.range' 2 cap

/-- `forward_list()`, l.1684-1688: `start_node.next = nullptr` over an empty pool.  The links of the items are arbitrary (`junk`). -/
def init (cap : Nat) (check dbg triv : Bool) (junk : Nat → Nat) : St α :=
  { h := { lim := cap + 1, nx := upd junk S 0 }, val := fun _ => .raw, free := items cap, cap, check, dbg, triv }

/-- `size()`, l.185-206 (`p_node_pool->size()`); `full` l.219; `available` l.229; `empty` l.211. -/
def size (s : St α) : Nat := s.cap - s.free.length
def full (s : St α) : Bool := size s == s.cap
def available (s : St α) : Nat := s.cap - size s
def empty (s : St α) : Res Bool := do .ok ((← s.h.next S) == 0)

/-- `*iterator`, l.438. -/
def read (s : St α) (p : Nat) : Res α :=
  if s.h.valid p ∧ p ≠ S then match s.val p with
    | .live v => .ok v
    | _ => .error .deadAccess
  else .error .nullDeref

/-- `etl::move(*iterator)`. -/
def take (s : St α) (p : Nat) : Res (α × St α) := do
  let v ← read s p
  .ok (v, { s with val := upd s.val p .moved })

/-- `allocate_data_node(value)`, l.1488-1509, l.1615-1619. `none`: the pool is empty and throws `pool_no_allocation`. -/
def allocate (s : St α) (v : α) : Res (Option (Nat × St α)) :=
  match s.free with
  | [] => .ok none
  | n :: f => match s.val n with
    | .raw => .ok (some (n, { s with val := upd s.val n (.live v), free := f }))
    | _ => .error .constructLive

/-- `destroy_data_node`, l.1624-1629; `ipool::release_item`, ipool.h l.391-403: overwrites `next`. -/
def destroyNode (s : St α) (n : Nat) : Res (St α) :=
  if s.h.valid n ∧ n ≠ S ∧ n ∉ s.free then match s.val n with
    | .raw => .error .deadAccess
    | _ => .ok { s with val := upd s.val n .raw, free := n :: s.free, h := s.h.linked n (s.free.headD 0) }
  else .error .nullDeref

/-- `insert_node_after(position, allocate_data_node(value))`, l.311-316. -/
def addAfter (s : St α) (pos : Nat) (v : α) : Res (St α × Option Nat) := do
  match ← allocate s v with
  | none => .ok (s, none)
  | some (n, s) => do
    let q ← s.h.next pos
    let h ← s.h.join n q
    let h ← h.join pos n
    .ok ({ s with h := h }, some n)

/-- `remove_node_after`, l.1597-1610. -/
def removeNodeAfter (s : St α) (p : Nat) : Res (St α) := do
  let q ← s.h.next p
  if q ≠ 0 then do
    let r ← s.h.next q
    let h ← s.h.join p r
    destroyNode { s with h := h } q
  else .ok s

/-- `push_front`, l.695-717, `emplace_front` l.725-734. -/
def pushFront (s : St α) (v : α) : Res (St α × Out) :=
  if s.check && full s then .ok (s, .err .full) else do
    let (s, o) ← addAfter s S v
    .ok (s, match o with | none => .err .noAlloc | some _ => .ok)

/-- `pop_front`, l.820-826. -/
def popFront (s : St α) : Res (St α × Out) := do
  if s.check && (← empty s) then .ok (s, .err .empty) else do
    .ok (← removeNodeAfter s S, .ok)

/-- The loop of `initialise`, l.1472-1477, and of `erase_after(first, last)`, l.1096-1101: `next` is read before the node is destroyed. -/
def eraseLoop (s : St α) (p last : Nat) : Nat → Res (St α)
  | 0 => if p ≠ last then .error .diverge else .ok s
  | k + 1 => if p ≠ last then do
      let q ← s.h.next p
      let s ← destroyNode s p
      eraseLoop s q last k
    else .ok s

/-- The part of `initialise` that gives the nodes back, l.1459-1479.  For a trivially destructible `T` the whole pool is released. -/
def releaseAll (s : St α) : Res (St α) := do
  if ← empty s then .ok s
  else if s.triv then .ok { s with val := fun _ => .raw, free := items s.cap }
  else eraseLoop s (← s.h.next S) 0 (s.cap + 1)

/-- `initialise`, l.1457-1482; `clear` l.620; destructor. -/
def initialise (s : St α) : Res (St α) := do
  let s ← releaseAll s
  let h ← s.h.join S 0
  .ok { s with h := h }

def clear (s : St α) : Res (St α × Out) := do .ok (← initialise s, .ok)

/-- `allocate_data_node(v); join(p_last_node, &data_node); data_node.next = nullptr`, l.663-666, l.685-687. -/
def append (s : St α) (last : Nat) (v : α) : Res (St α × Option Nat) := do
  match ← allocate s v with
  | none => .ok (s, none)
  | some (n, s) => do
    let h ← s.h.join last n
    let h ← h.join n 0
    .ok ({ s with h := h }, some n)

/-- The loop of `assign(first, last)`, l.659-668. -/
def assignLoop (s : St α) (last : Nat) : List α → Res (St α × Out)
  | [] => .ok (s, .ok)
  | v :: vs => if full s then .ok (s, .err .full) else do
    let (s, o) ← append s last v
    match o with
    | none => .ok (s, .err .noAlloc)
    | some n => assignLoop s n vs

/-- `assign(first, last)`, l.647-669; copy construction and assignment l.1703, l.1414. -/
def assign (s : St α) (vs : List α) : Res (St α × Out) := do
  let s ← initialise s
  assignLoop s S vs

/-- The loop of `assign(n, value)`: `while (size() < n)`, l.683-689. -/
def fillLoop (s : St α) (last n : Nat) (v : α) : Nat → Res (St α × Out)
  | 0 => if size s < n then .error .diverge else .ok (s, .ok)
  | k + 1 => if size s < n then do
      let (s, o) ← append s last v
      match o with
      | none => .ok (s, .err .noAlloc)
      | some m => fillLoop s m n v k
    else .ok (s, .ok)

/-- `assign(n, value)`, l.674-690. -/
def assignN (s : St α) (n : Nat) (v : α) : Res (St α × Out) :=
  if n ≤ s.cap then do
    let s ← initialise s
    fillLoop s S n v n
  else .ok (s, .err .full)

/-- `insert_after(position, value)`, l.887-895, `emplace_after` l.902-912: returns the new node. -/
def insertAfter (s : St α) (pos : Nat) (v : α) : Res (St α × Option Nat) :=
  if full s then .ok (s, none) else addAfter s pos v

/-- The loop of `insert_after(position, n, value)`, l.1001-1006: every copy goes directly after `position`; the loop stops silently when the list is full. -/
def insertNLoop (s : St α) (pos : Nat) (v : α) : Nat → Res (St α × Out)
  | 0 => .ok (s, .ok)
  | k + 1 => if full s then .ok (s, .ok) else do
    let (s, o) ← addAfter s pos v
    match o with
    | none => .ok (s, .err .noAlloc)
    | some _ => insertNLoop s pos v k

/-- `insert_after(position, n, value)`, l.997-1014: the resulting iterator is `position` or its successor. -/
def insertN (s : St α) (pos n : Nat) (v : α) : Res (St α × Nat × Out) :=
  if full s then .ok (s, pos, .err .full) else do
    let (s, o) ← insertNLoop s pos v n
    match o with
    | .ok => if n > 0 then do .ok (s, ← s.h.next pos, .ok) else .ok (s, pos, .ok)
    | o => .ok (s, pos, o)

/-- The loop of `insert_after(position, first, last)`, l.1027-1035. -/
def insertRangeLoop (s : St α) (pos : Nat) : List α → Res (St α × Nat × Out)
  | [] => .ok (s, pos, .ok)
  | v :: vs => do
    let (s, o) ← addAfter s pos v
    match o with
    | none => .ok (s, pos, .err .noAlloc)
    | some _ => insertRangeLoop s (← s.h.next pos) vs

/-- `insert_after(position, first, last)`, l.1020-1038. -/
def insertRange (s : St α) (pos : Nat) (vs : List α) : Res (St α × Nat × Out) :=
  if s.dbg && !decide (vs.length + size s ≤ s.cap) then .ok (s, pos, .err .full) else insertRangeLoop s pos vs

/-- `erase_after(position)`, l.1042-1075. -/
def eraseAfter (s : St α) (p : Nat) : Res (St α × Nat) := do
  if p ≠ 0 then do
    let q ← s.h.next p
    if q ≠ 0 then do
      let r ← s.h.next q
      let s ← removeNodeAfter s p
      .ok (s, r)
    else .ok (s, q)
  else .ok (s, p)

/-- `erase_after(first, last)`, l.1080-1114.  After the loop `p_next` is `last` if the loop ran, and the old successor of `first` if not. -/
def eraseRange (s : St α) (first last : Nat) : Res (St α × Nat) := do
  if first ≠ 0 ∧ first ≠ last then do
    let q ← s.h.next first
    let h ← s.h.join first last
    let s ← eraseLoop { s with h := h } q last (s.cap + 1)
    .ok (s, if (if q = last then q else last) = 0 then 0 else last)
  else .ok (s, 0)

/-- "Find where we're currently at.", l.858-863: returns `i`, `i_node`, `i_last_node`. -/
def findLoop (h : FLinks) (n : Nat) : Nat → (i node last : Nat) → Res (Nat × Nat × Nat)
  | 0, i, node, last => if i < n ∧ node ≠ 0 then .error .diverge else .ok (i, node, last)
  | k + 1, i, node, last => if i < n ∧ node ≠ 0 then do findLoop h n k (i + 1) (← h.next node) node else .ok (i, node, last)

/-- "Increase.", l.873-877. -/
def growLoop (s : St α) (v : α) (last : Nat) : Nat → Res (St α × Out)
  | 0 => .ok (s, .ok)
  | k + 1 => do
    let (s, o) ← insertAfter s last v
    match o with
    | none => .ok (s, .err .full)
    | some n => growLoop s v n k

/-- `resize(n, value)`, l.841-881. -/
def resize (s : St α) (n : Nat) (v : α) : Res (St α × Out) :=
  if n ≤ s.cap then
    if n = 0 then clear s
    else do
      if ← empty s then assignN s n v
      else do
        let (i, node, last) ← findLoop s.h n (s.cap + 1) 0 (← s.h.next S) 0
        if node ≠ 0 then do
          let (s, _) ← eraseRange s last 0
          .ok (s, .ok)
        else growLoop s v last (n - i)
  else .ok (s, .err .full)

/-- `move_after(from_before, to_before)`, l.1120-1139. -/
def moveAfter (s : St α) (from_before to_before : Nat) : Res (St α) :=
  if from_before = to_before then .ok s else do
    let f ← s.h.next from_before
    let fn ← s.h.next f
    let h ← s.h.join from_before fn
    let tn ← h.next to_before
    let h ← h.join f tn
    let h ← h.join to_before f
    .ok { s with h := h }

/-- "Check that we are not doing an illegal move!", l.1153-1156. -/
def checkLoop (h : FLinks) (last to_before item : Nat) : Nat → Res Bool
  | 0 => if item ≠ last then .error .diverge else .ok true
  | k + 1 => if item ≠ last then
      if item = to_before then .ok false else do checkLoop h last to_before (← h.next item) k
    else .ok true

/-- "Find the last node that will be moved.", l.1166-1169. -/
def finalLoop (h : FLinks) (last p : Nat) : Nat → Res Nat
  | 0 => .error .diverge
  | k + 1 => do
    let q ← h.next p
    if q ≠ last then finalLoop h last q k else .ok p

/-- `move_after(first_before, last, to_before)`, l.1144-1177. -/
def moveRange (s : St α) (first_before last to_before : Nat) : Res (St α × Out) :=
  if first_before = to_before ∨ last = to_before then .ok (s, .ok) else do
    if ← checkLoop s.h last to_before first_before (s.cap + 2) then do
      let f ← s.h.next first_before
      let e ← finalLoop s.h last first_before (s.cap + 2)
      let h ← s.h.join first_before (← s.h.next e)
      let h ← h.join e (← h.next to_before)
      let h ← h.join to_before f
      .ok ({ s with h := h }, .ok)
    else .ok (s, .err .iterator)

/-- `unique(isEqual)`, l.1193-1218: `isEqual(current, last)`. -/
def uniqueLoop (eq : α → α → Bool) (s : St α) (last current : Nat) : Nat → Res (St α)
  | 0 => if current ≠ 0 then .error .diverge else .ok s
  | k + 1 => if current ≠ 0 then do
      let c ← read s current
      let a ← read s last
      if eq c a then do
        let s ← removeNodeAfter s last
        uniqueLoop eq s last (← s.h.next last) k
      else do uniqueLoop eq s current (← s.h.next current) k
    else .ok s

def unique (eq : α → α → Bool) (s : St α) : Res (St α × Out) := do
  if ← empty s then .ok (s, .ok) else do
    let last ← s.h.next S
    .ok (← uniqueLoop eq s last (← s.h.next last) (s.cap + 1), .ok)

/-- `remove(value)`, `remove_if(predicate)`, l.1369-1408. -/
def removeLoop (f : α → Bool) (s : St α) (item last : Nat) : Nat → Res (St α)
  | 0 => if item ≠ 0 then .error .diverge else .ok s
  | k + 1 => if item ≠ 0 then do
      let v ← read s item
      if f v then do
        let (s, q) ← eraseAfter s last
        removeLoop f s q last k
      else do removeLoop f s (← s.h.next item) (← s.h.next last) k
    else .ok s

def removeIf (f : α → Bool) (s : St α) : Res (St α × Out) := do
  .ok (← removeLoop f s (← s.h.next S) S (s.cap + 1), .ok)

/-- `remove(value)` where `value` is a reference to the element in node `p` of this list, l.1369-1387. -/
def removeOwnLoop [DecidableEq α] (s : St α) (p item last : Nat) : Nat → Res (St α)
  | 0 => if item ≠ 0 then .error .diverge else .ok s
  | k + 1 => if item ≠ 0 then do
      let v ← read s item
      let w ← read s p
      if v = w then do
        let (s, q) ← eraseAfter s last
        removeOwnLoop s p q last k
      else do removeOwnLoop s p (← s.h.next item) (← s.h.next last) k
    else .ok s

/-- `reverse`, l.238-262. -/
def reverse (s : St α) : Res (St α × Out) :=
  if size s < 2 then .ok (s, .ok) else do
    let cur ← s.h.next S
    let nxt ← s.h.next cur
    let h ← s.h.join cur 0
    let (h, p) ← revLoop h 0 cur nxt (s.cap + 1)
    let h ← h.join S p
    .ok ({ s with h := h }, .ok)

/-- `sort(compare)`, l.1255-1364. -/
def sort (lt : α → α → Bool) (s : St α) : Res (St α × Out) :=
  if size s < 2 then .ok (s, .ok) else do
    let h ← sortLinks (fun a b => do .ok (lt (← read s a) (← read s b))) S 0 s.h
    .ok ({ s with h := h }, .ok)

/-! ## Histories

Positions are counted from `before_begin()`: 0 is `before_begin()`, `i+1` is element `i`, `size()+1` is `end()`. -/

/-- `before_begin()` advanced `i` times. -/
def iter (s : St α) (i : Nat) : Res Nat := s.h.fwd S i

/-- How many times `before_begin()` must be advanced to reach `p`. -/
def posOf (s : St α) (p q : Nat) : Nat → Res Nat
  | 0 => .error .diverge
  | k + 1 => if q = p then .ok 0 else do .ok ((← posOf s p (← s.h.next q) k) + 1)
def position (s : St α) (p : Nat) : Res Nat := posOf s p S (s.cap + 2)

inductive Op (α : Type) where
  | assign (vs : List α) | assignN (n : Nat) (v : α) | clear | resize (n : Nat) (v : α) | pushFront (v : α) | popFront
  | insertAfter (i : Nat) (v : α) | insertN (i n : Nat) (v : α) | insertRange (i : Nat) (vs : List α)
  | eraseAfter (i : Nat) | eraseRange (i j : Nat) | moveAfter (i j : Nat) | moveRange (i j k : Nat)
  | removeIf (f : α → Bool) | unique (eq : α → α → Bool) | reverse | sort (lt : α → α → Bool)

def step (s : St α) : Op α → Res (St α × Out)
  | .assign vs => assign s vs
  | .assignN n v => assignN s n v
  | .clear => clear s
  | .resize n v => resize s n v
  | .pushFront v => pushFront s v
  | .popFront => popFront s
  | .insertAfter i v => do
    let (s, o) ← insertAfter s (← iter s i) v
    match o with
    | none => .ok (s, .err .full)
    | some n => do .ok (s, .at (← position s n))
  | .insertN i n v => do
    let (s, p, o) ← insertN s (← iter s i) n v
    match o with
    | .ok => do .ok (s, .at (← position s p))
    | o => .ok (s, o)
  | .insertRange i vs => do
    let (s, p, o) ← insertRange s (← iter s i) vs
    match o with
    | .ok => do .ok (s, .at (← position s p))
    | o => .ok (s, o)
  | .eraseAfter i => do
    let (s, p) ← eraseAfter s (← iter s i)
    .ok (s, .at (← position s p))
  | .eraseRange i j => do
    let (s, p) ← eraseRange s (← iter s i) (← iter s j)
    .ok (s, .at (← position s p))
  | .moveAfter i j => do .ok (← moveAfter s (← iter s i) (← iter s j), .ok)
  | .moveRange i j k => do moveRange s (← iter s i) (← iter s j) (← iter s k)
  | .removeIf f => removeIf f s
  | .unique eq => unique eq s
  | .reverse => reverse s
  | .sort lt => sort lt s

/-! ## Operations on two lists -/

/-- All values, by iteration from `begin()` to `end()`. -/
def values (s : St α) : Res (List α) := do
  let ns ← s.h.walk 0 (← s.h.next S) (s.cap + 1)
  ns.mapM (read s)

/-- The loop of `move_container`, l.1542-1552. -/
def moveAll (a b : St α) (last itr : Nat) : Nat → Res (St α × St α × Out)
  | 0 => if itr ≠ 0 then .error .diverge else .ok (a, b, .ok)
  | k + 1 => if itr ≠ 0 then do
      if full a then .ok (a, b, .err .full) else do
      let (v, b) ← take b itr
      let (a, o) ← append a last v
      match o with
      | none => .ok (a, b, .err .noAlloc)
      | some n => moveAll a b n (← b.h.next itr) k
    else .ok (a, b, .ok)

/-- `operator =(forward_list&&)` / `move_container`, l.1515-1558, l.1766 (the pools differ). -/
def moveAssign (a b : St α) : Res (St α × St α × Out) := do
  let a ← initialise a
  if ← empty b then .ok (a, b, .ok) else do
    let (a, b, o) ← moveAll a b S (← b.h.next S) (b.cap + 1)
    match o with
    | .ok => do .ok (a, ← initialise b, .ok)
    | o => .ok (a, b, o)

/-- `operator ==`, l.1978-1983. -/
def equal [DecidableEq α] (a b : St α) : Res Bool := do
  if size a = size b then do
    let va ← values a
    let vb ← values b
    .ok (va == vb)
  else .ok false

/-- Histories over two lists. -/
inductive Op2 (α : Type) where
  | fst (o : Op α) | snd (o : Op α)
  | copy                                  -- first = second
  | moveAssign                            -- first = move(second)

def step2 (s : St α × St α) : Op2 α → Res ((St α × St α) × Out)
  | .fst o => do
    let (a, r) ← step s.1 o
    .ok ((a, s.2), r)
  | .snd o => do
    let (b, r) ← step s.2 o
    .ok ((s.1, b), r)
  | .copy => do
    let vs ← values s.2
    let (a, r) ← assign s.1 vs
    .ok ((a, s.2), r)
  | .moveAssign => do
    let (a, b, r) ← moveAssign s.1 s.2
    .ok ((a, b), r)

def run2 (s : St α × St α) : List (Op2 α) → Res ((St α × St α) × List Out)
  | [] => .ok (s, [])
  | o :: os => do
    let (s, r) ← step2 s o
    let (s, rs) ← run2 s os
    .ok (s, r :: rs)

end Etl.FList
