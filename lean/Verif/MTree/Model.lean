import Verif.Tree.Model

/-!
# Model of `etl::multimap` / `etl::imultimap` and `etl::multiset` / `etl::imultiset`

Source: `/repo/include/etl/multimap.h`, line numbers below; `/repo/include/etl/multiset.h` has the same text with `value` in the place of `value.first`.
A node has the members of the nodes of `etl::map` (`Verif/Tree/Heap.lean`) and a pointer to its parent, which is its first word: releasing the node to the pool
overwrites it (ipool.h l.394).
Conventions as for `etl::map`: nodes are numbered `1 .. lim`, 0 is null, iterators are node numbers, `end()` is 0, an element is an `α` with a key, `lt` is the comparator.
Simplifications: a failed `ETL_ASSERT` throws; copying, moving and comparing elements does not throw; elements and keys passed in live outside the container; a pool shared between
several containers is not modelled; the overloads for other key types (transparent comparators) have the same text.
-/
namespace Etl.MTree
open Etl.Tree (TH Loc Err)

/-- The nodes: `children`, `weight`, `dir`, `root_node` as for `map`, and `parent`; l.191-222, l.614. -/
structure MH where
  t : TH
  par : Nat → Nat

namespace MH

/-- Member accesses through a pointer; undefined if it does not point to a node. -/
def setChild (h : MH) (p : Nat) (d : Bool) (v : Nat) : Res MH := do .ok { h with t := ← h.t.setChild p d v }
def setWeight (h : MH) (p : Nat) (w : Option Bool) : Res MH := do .ok { h with t := ← h.t.setWeight p w }
def setDir (h : MH) (p : Nat) (w : Option Bool) : Res MH := do .ok { h with t := ← h.t.setDir p w }
def setL (h : MH) (L : Loc) (v : Nat) : Res MH := do .ok { h with t := ← h.t.setL L v }
def parent (h : MH) (p : Nat) : Res Nat := if h.t.valid p then .ok (h.par p) else .error .nullDeref
def setParent (h : MH) (p v : Nat) : Res MH := if h.t.valid p then .ok { h with par := upd h.par p v } else .error .nullDeref
/-- `if (p) { p->parent = v; }` -/
def setParentIf (h : MH) (p v : Nat) : Res MH := if p ≠ 0 then h.setParent p v else .ok h

/-- `rotate_2node(position, dir)`, l.305-341. -/
def rotate2 (h : MH) (L : Loc) (d : Bool) : Res MH := do
  let p ← h.t.getL L
  let r ← h.t.child p d
  let h ← h.setChild p d (← h.t.child r (!d))
  let h ← h.setParentIf (← h.t.child p d) p
  let h ← h.setParent r (← h.parent p)
  let h ← h.setChild r (!d) p
  let h ← h.setDir r (some !d)
  let h ← h.setWeight p none
  let h ← h.setParent p r
  let h ← h.setL L r
  h.setWeight r none

/-- `rotate_3node(position, dir, third)`, l.346-398. -/
def rotate3 (h : MH) (L : Loc) (d : Bool) (third : Option Bool) : Res MH := do
  let p ← h.t.getL L
  let b ← h.t.child p d
  let r ← h.t.child b (!d)
  let h ← h.setWeight b (if third ≠ none ∧ third ≠ some d then some d else none)
  let h ← h.setChild b (!d) (← h.t.child r d)
  let h ← h.setParentIf (← h.t.child r d) b
  let h ← h.setChild r d b
  let h ← h.setParent b r
  let h ← h.setWeight p (if third ≠ none ∧ third = some d then some (!d) else none)
  let h ← h.setChild p d (← h.t.child r (!d))
  let h ← h.setParentIf (← h.t.child r (!d)) p
  let h ← h.setParent r (← h.parent p)
  let h ← h.setChild r (!d) p
  let h ← h.setDir r (some !d)
  let h ← h.setParent p r
  let h ← h.setL L r
  h.setWeight r none

/-- `balance_node(critical_node)`, l.243-300; its step 1 is the loop of `map.h` (`TH.weightLoop`). -/
def balanceNode (h : MH) (L : Loc) (fuel : Nat) : Res MH := do
  let c ← h.t.getL L
  let d ← h.t.dirIx c
  let t ← h.t.weightLoop (← h.t.child c d) fuel
  let h := { h with t := t }
  let w ← h.t.weight c
  if w = none then h.setWeight c (some d)
  else if some d ≠ w then h.setWeight c none
  else do
    let b ← h.t.child c d
    if w = (← h.t.dir b) then h.rotate2 L d
    else do
      let e ← h.t.child b (!d)
      h.rotate3 L d (← h.t.dir e)

/-- `mark_as_leaf`, l.209-216. -/
def markAsLeaf (h : MH) (n : Nat) : Res MH := do
  let h ← h.setWeight n none
  let h ← h.setDir n none
  let h ← h.setParent n 0
  let h ← h.setChild n false 0
  h.setChild n true 0

/-- `detach_node(position, replacement)`, l.578-610. -/
def detachNode (h : MH) (P R : Loc) : Res MH := do
  let detached ← h.t.getL P
  let swap ← h.t.getL R
  let h ← h.setL P swap
  let d ← h.t.dirIx swap
  let h ← h.setL R (← h.t.child swap (!d))
  let h ← (do if (← h.t.getL R) ≠ 0 then h.setParent (← h.t.getL R) (← h.parent swap) else .ok h)
  let h ← h.setParent swap (← h.parent detached)
  let h ← h.setChild swap false (← h.t.child detached false)
  let h ← h.setChild swap true (← h.t.child detached true)
  let h ← h.setParentIf (← h.t.child swap false) swap
  let h ← h.setParentIf (← h.t.child swap true) swap
  h.setWeight swap (← h.t.weight detached)

/-- The `do .. while` of `next_node` (`d = kRight`), l.419-426, and `prev_node` (`d = kLeft`), l.488-495. -/
def climbLoop (h : MH) (d : Bool) (p : Nat) : Nat → Res Nat
  | 0 => .error .diverge
  | f + 1 => do
    let q ← h.parent p
    if q ≠ 0 then do
      if (← h.t.child q d) = p then climbLoop h d q f else .ok q
    else .ok q

end MH

/-- A multimap or multiset: nodes, values, pool (`free`), `CAPACITY`, `current_size`; l.612-614. -/
structure St (α : Type) where
  h : MH
  val : Nat → Option α
  free : List Nat
  cap : Nat
  size : Nat

variable {α K : Type}

/-- The members that a `map` has too. -/
def St.b (s : St α) : Tree.St α := ⟨s.h.t, s.val, s.free, s.cap, s.size⟩

/-- `multimap()`, l.2325-2329 with `multimap_base(max_size)`, l.226-231.  The contents of the items are arbitrary (`junk`). -/
def init (cap : Nat) (junk : MH) : St α :=
  { h := { junk with t := { junk.t with lim := cap, root := 0 } }, val := fun _ => none, free := Tree.items cap, cap, size := 0 }

/-- `size`, `empty`, `full`, `available`, l.135-176. -/
def empty (s : St α) : Bool := s.size == 0
def full (s : St α) : Bool := s.size == s.cap
def available (s : St α) : Nat := s.cap - s.size

/-- `data_cast(*p).value`. -/
def read (s : St α) (p : Nat) : Res α := Tree.read s.b p

/-- `allocate_data_node(value)`, l.1543-1570.  `none`: the pool is empty and throws. -/
def allocate (s : St α) (v : α) : Res (Option (Nat × St α)) :=
  match s.free with
  | [] => .ok none
  | n :: f => match s.val n with
    | none => .ok (some (n, { s with val := upd s.val n (some v), free := f }))
    | some _ => .error .constructLive

/-- `destroy_data_node`, l.1575-1580; `ipool::release_item`, ipool.h l.391-403, overwrites `parent`. -/
def destroyNode (s : St α) (n : Nat) : Res (St α) :=
  if s.h.t.valid n ∧ n ∉ s.free then match s.val n with
    | none => .error .deadAccess
    | some _ => .ok { s with val := upd s.val n none, free := n :: s.free, h := { s.h with par := upd s.h.par n (s.free.headD 0) } }
  else .error .nullDeref

/-- `attach_node(parent, position, node)`, l.560-573. -/
def attachNode (s : St α) (parent : Nat) (L : Loc) (n : Nat) : Res (St α) := do
  let h ← s.h.markAsLeaf n
  let h ← h.setParent n parent
  let h ← h.setL L n
  .ok { s with h := h, size := s.size + 1 }

/-- `next_node`, l.403-429; `++iterator`, l.781. -/
def next (s : St α) (p : Nat) : Res Nat :=
  if p ≠ 0 then do
    let r ← s.h.t.child p true
    if r ≠ 0 then s.h.t.limitLoop false r (s.cap + 1) else s.h.climbLoop true p (s.cap + 1)
  else .ok p

/-- `prev_node`, l.467-500; `--iterator`, l.794. -/
def prev (s : St α) (p : Nat) : Res Nat :=
  if p = 0 then s.h.t.limitLoop true s.h.t.root (s.cap + 1)
  else do
    let l ← s.h.t.child p false
    if l ≠ 0 then s.h.t.limitLoop true l (s.cap + 1) else s.h.climbLoop false p (s.cap + 1)

/-- `begin()`, l.968-971. -/
def begin (s : St α) : Res Nat := s.h.t.limitLoop false s.h.t.root (s.cap + 1)

section
variable (key : α → K) (lt : K → K → Bool)

/-- `find_node(position, key)`, l.1651-1680: the first of the equivalent nodes. -/
def findLoop (s : St α) (k : K) (p found : Nat) : Nat → Res Nat
  | 0 => .error .diverge
  | f + 1 => if p ≠ 0 then do
      let v ← read s p
      if lt k (key v) then do findLoop s k (← s.h.t.child p false) found f
      else if lt (key v) k then do findLoop s k (← s.h.t.child p true) found f
      else do findLoop s k (← s.h.t.child p false) p f
    else .ok found

/-- `find_lower_node`, l.1787-1822. -/
def lowerLoop (s : St α) (k : K) (p best : Nat) : Nat → Res Nat
  | 0 => .error .diverge
  | f + 1 => if p ≠ 0 then do
      let v ← read s p
      if lt k (key v) then do
        let l ← s.h.t.child p false
        if l ≠ 0 then lowerLoop s k l p f else .ok p
      else if lt (key v) k then do lowerLoop s k (← s.h.t.child p true) best f
      else do lowerLoop s k (← s.h.t.child p false) p f
    else .ok best

/-- `find_upper_node`, l.1870-1910.  `seen`: an equivalent node has been found; from then on the nodes are visited one after the other. -/
def upperLoop (s : St α) (k : K) (seen : Bool) (p best : Nat) : Nat → Res Nat
  | 0 => .error .diverge
  | f + 1 => if p ≠ 0 then do
      let v ← read s p
      if lt (key v) k then do upperLoop s k seen (← s.h.t.child p true) best f
      else if lt k (key v) then do
        let l ← s.h.t.child p false
        if seen = false ∧ l ≠ 0 then upperLoop s k seen l p f else .ok p
      else do upperLoop s k true (← next s p) best f
    else .ok best

/-- `find(key)`, l.1245; `lower_bound`, l.1366; `upper_bound`, l.1406; `equal_range` is the pair, l.1117. -/
def find (s : St α) (k : K) : Res Nat := findLoop key lt s k s.h.t.root 0 (s.cap + 1)
def lowerBound (s : St α) (k : K) : Res Nat := lowerLoop key lt s k s.h.t.root 0 (s.cap + 1)
def upperBound (s : St α) (k : K) : Res Nat := upperLoop key lt s k false s.h.t.root 0 (2 * s.cap + 2)

/-- `contains(key)`, l.1497-1500. -/
def contains (s : St α) (k : K) : Res Bool := do .ok ((← find key lt s k) != 0)

/-- The loop of `count_nodes`, l.1596-1610. -/
def countLoop (s : St α) (k : K) (p last n : Nat) : Nat → Res Nat
  | 0 => if p ≠ last then .error .diverge else .ok n
  | f + 1 => if p ≠ last then do
      let v ← read s p
      countLoop s k (← next s p) last (if lt k (key v) = false ∧ lt (key v) k = false then n + 1 else n) f
    else .ok n

/-- `count(key)`, l.1099 and l.1586-1614. -/
def count (s : St α) (k : K) : Res Nat := do
  let lower ← lowerBound key lt s k
  countLoop key lt s k lower (← upperBound key lt s k) 0 (s.cap + 1)

/-- The search loop of `insert_node`, l.1969-2022, up to the node without a child in the direction taken; an equivalent node is passed on its right. -/
def insLoop (s : St α) (k : K) (found crit cp : Nat) : Nat → Res (St α × Nat × Nat × Nat)
  | 0 => .error .diverge
  | f + 1 => if found ≠ 0 then do
      let crit := if (← s.h.t.weight found) ≠ none then found else crit
      let v ← read s found
      let d : Bool := if lt k (key v) then false else if lt (key v) k then true else true
      let h ← s.h.setDir found (some d)
      let s := { s with h := h }
      let c ← s.h.t.child found d
      if c ≠ 0 then do
        let cp := if (← s.h.t.weight c) ≠ none then found else cp
        insLoop s k c crit cp f
      else .ok (s, found, crit, cp)
    else .ok (s, found, crit, cp)

/-- `insert_node(root_node, node)`, l.1957-2057 (`position` is always `root_node`). -/
def insertNode (s : St α) (n : Nat) : Res (St α × Nat) :=
  if s.h.t.root ≠ 0 then do
    let k := key (← read s n)
    let (s, found, crit, cp) ← insLoop key lt s k s.h.t.root s.h.t.root 0 (s.cap + 1)
    let L ← s.h.t.locDir found
    let s ← attachNode s found L n
    let found ← s.h.t.getL L
    if crit ≠ 0 then do
      if cp = 0 ∧ crit = s.h.t.root then do
        let h ← s.h.balanceNode .root (s.cap + 1)
        .ok ({ s with h := h }, found)
      else if cp ≠ 0 then do
        let h ← s.h.balanceNode (← s.h.t.locDir cp) (s.cap + 1)
        .ok ({ s with h := h }, found)
      else .ok (s, found)
    else .ok (s, found)
  else do
    let s ← attachNode s 0 .root n
    .ok (s, s.h.t.root)

/-- `insert(value)`, l.1274-1293, l.1302-1318; with a hint (which is ignored) l.1326-1346. -/
def insert (s : St α) (v : α) : Res (St α × Except Err Nat) :=
  if full s then .ok (s, .error .full) else do
    match ← allocate s v with
    | none => .ok (s, .error .noAlloc)
    | some (n, s) => do
      let (s, r) ← insertNode key lt s n
      .ok (s, .ok r)

/-- `insert(first, last)`, l.1355-1363. -/
def insertRange (s : St α) : List α → Res (St α × Except Err Unit)
  | [] => .ok (s, .ok ())
  | v :: vs => do
    match ← insert key lt s v with
    | (s, .ok _) => insertRange s vs
    | (s, .error e) => .ok (s, .error e)

end

/-- Step 1 of `remove_node`, l.2078-2096: marks the path from the root to `node`, and returns the root. -/
def markLoop (h : MH) (node : Nat) : Nat → Res (MH × Nat)
  | 0 => .error .diverge
  | f + 1 => if node ≠ 0 then do
      let p ← h.parent node
      if p ≠ 0 then do
        let h ← h.setDir p (some (decide ((← h.t.child p false) ≠ node)))
        markLoop h p f
      else .ok (h, node)
    else .ok (h, node)

/-- The condition for a new balance node, l.2119-2121 and l.2149-2151. -/
def stopsHere (h : MH) (node : Nat) : Res Bool := do
  let w ← h.t.weight node
  let d ← h.t.dirIx node
  if w = none then .ok true
  else if w = some (!d) then do .ok (decide ((← h.t.weight (← h.t.child node (!d))) = none))
  else .ok false

/-- Step 2 of `remove_node`, l.2098-2129: from the root to `found`. -/
def seekLoop (h : MH) (found node balance : Nat) : Nat → Res (MH × Nat × Nat)
  | 0 => .error .diverge
  | f + 1 => if node ≠ 0 then do
      if node = found then do
        let h ← h.setDir node (some (decide ((← h.t.child node false) = 0)))
        .ok (h, node, balance)
      else do
        let balance := if ← stopsHere h node then node else balance
        seekLoop h found (← h.t.child node (← h.t.dirIx node)) balance f
    else .ok (h, node, balance)

section
variable (key : α → K) (lt : K → K → Bool)

/-- Step 3 of `remove_node`, l.2134-2180: the replacement.  `k` is the key of the node to be removed. -/
def replLoop (s : St α) (k : K) (node balance : Nat) : Nat → Res (St α × Nat × Nat)
  | 0 => .error .diverge
  | f + 1 => if node ≠ 0 then do
      let c ← s.h.t.child node (← s.h.t.dirIx node)
      if c = 0 then .ok (s, node, balance) else do
        let balance := if ← stopsHere s.h node then node else balance
        let v ← read s c
        let l ← s.h.t.child c false
        let d : Bool := if lt k (key v) then false else if lt (key v) k then true else if l ≠ 0 then false else true
        let h ← s.h.setDir c (some d)
        replLoop { s with h := h } k c balance f
    else .ok (s, node, balance)

/-- The reference that holds the node: `root_node`, or `parent->children[parent->dir]`. -/
def refOf (h : MH) (parent : Nat) : Res Loc := if parent = 0 then .ok .root else h.t.locDir parent

/-- Step 4 of `remove_node`, l.2182-2261. -/
def rebalLoop (h : MH) (b : Nat) : Nat → Res MH
  | 0 => .error .diverge
  | f + 1 => if b ≠ 0 then do
      let d ← h.t.dirIx b
      if (← h.t.child b d) = 0 then .ok h else do
        let w ← h.t.weight b
        if w = none then do
          let h ← h.setWeight b (some !d)
          rebalLoop h (← h.t.child b d) f
        else if w = some d then do
          let h ← h.setWeight b none
          rebalLoop h (← h.t.child b d) f
        else do
          let sib ← h.t.child b (!d)
          let ws ← h.t.weight sib
          let L ← refOf h (← h.parent b)
          let h ← (if ws = some d then do
              h.rotate3 L (!d) (← h.t.weight (← h.t.child sib d))
            else if ws = none then do
              let h ← h.rotate2 L (!d)
              let h ← h.setWeight (← h.t.getL L) (some d)
              h.setWeight b (some !d)
            else h.rotate2 L (!d) : Res MH)
          rebalLoop h (← h.t.child b d) f
    else .ok h

/-- `remove_node(node)`, l.2063-2292. -/
def removeNode (s : St α) (found : Nat) : Res (St α) :=
  if found ≠ 0 then do
    let k := key (← read s found)
    let (h, root) ← markLoop s.h found (s.cap + 1)
    let (h, node, balance) ← seekLoop h found root h.t.root (s.cap + 1)
    let (s, node, balance) ← replLoop key lt { s with h := h } k node balance (s.cap + 1)
    let h ← rebalLoop s.h balance (s.cap + 1)
    let fp ← h.parent found
    let np ← h.parent node
    let h ← (if fp ≠ 0 then do h.detachNode (← h.t.locDir fp) (← h.t.locDir np)
      else if np ≠ 0 then do h.detachNode .root (← h.t.locDir np)
      else h.detachNode .root .root : Res MH)
    destroyNode { s with h := h, size := s.size - 1 } found
  else .ok s

/-- `erase(const_iterator)`, l.1166-1180. -/
def eraseAt (s : St α) (p : Nat) : Res (St α × Nat) := do
  let nxt ← next s p
  let s ← removeNode key lt s p
  .ok (s, nxt)

/-- The loops of `erase(key)`, l.1191-1197, `erase(first, last)`, l.1230-1238, and `initialise()`, l.1527-1535; `n` counts the elements removed. -/
def eraseLoop (s : St α) (p last n : Nat) : Nat → Res (St α × Nat)
  | 0 => if p ≠ last then .error .diverge else .ok (s, n)
  | f + 1 => if p ≠ last then do
      let (s, q) ← eraseAt key lt s p
      eraseLoop s q last (n + 1) f
    else .ok (s, n)

/-- `erase(key)`, l.1185-1201. -/
def eraseKey (s : St α) (k : K) : Res (St α × Nat) := do
  let lower ← lowerBound key lt s k
  let upper ← upperBound key lt s k
  eraseLoop key lt s lower upper 0 (s.cap + 1)

/-- `erase(first, last)`, l.1228-1238. -/
def eraseRange (s : St α) (first last : Nat) : Res (St α × Nat) := do
  let (s, _) ← eraseLoop key lt s first last 0 (s.cap + 1)
  .ok (s, last)

/-- `initialise()`, l.1525-1535; `clear()`, l.1089; destructor l.2393. -/
def clear (s : St α) : Res (St α) := do
  let (s, _) ← eraseLoop key lt s (← begin s) 0 0 (s.cap + 1)
  .ok s

/-- `assign(first, last)`, l.1079-1083; copy construction and assignment (l.2334, l.1448, l.2401) pass the elements of the other container. -/
def assign (s : St α) (vs : List α) : Res (St α × Except Err Unit) := do
  insertRange key lt (← clear key lt s) vs

end

/-- The elements from `p` to the end: `for (it = p; it != end(); ++it) *it`. -/
def listLoop (s : St α) (p : Nat) : Nat → Res (List α)
  | 0 => if p ≠ 0 then .error .diverge else .ok []
  | f + 1 => if p ≠ 0 then do
      let v ← read s p
      .ok (v :: (← listLoop s (← next s p) f))
    else .ok []

/-- Iteration from `begin()` to `end()`. -/
def toList (s : St α) : Res (List α) := do listLoop s (← begin s) (s.cap + 1)

/-- Iteration from `end()` back to `begin()` (`reverse_iterator`, l.1026-1058): `--it; *it` until `it == begin()`. -/
def rlistLoop (s : St α) (b p : Nat) : Nat → Res (List α)
  | 0 => if p ≠ b then .error .diverge else .ok []
  | f + 1 => if p ≠ b then do
      let q ← prev s p
      let v ← read s q
      .ok (v :: (← rlistLoop s b q f))
    else .ok []

def toListRev (s : St α) : Res (List α) := do rlistLoop s (← begin s) 0 (s.cap + 1)

section
variable (key : α → K) (lt : K → K → Bool)

/-- The loop of the move operations: elements move one by one, `mv` is what is left of a moved-from element (l.1469-1475, l.2350-2357, l.2420-2428). -/
def moveLoop (mv : α → α) (s o : St α) (p : Nat) : Nat → Res (St α × St α × Except Err Unit)
  | 0 => if p ≠ 0 then .error .diverge else .ok (s, o, .ok ())
  | f + 1 => if p ≠ 0 then do
      let v ← read o p
      match ← insert key lt s v with
      | (s, .ok _) => do
        let o := { o with val := upd o.val p (some (mv v)) }
        moveLoop mv s o (← next o p) f
      | (s, .error e) => .ok (s, o, .error e)
    else .ok (s, o, .ok ())

/-- `imultimap::operator=(imultimap&&)`, l.1461-1480; multiset.h l.2398-2414: the old elements go first (`clears`).
`multimap::operator=(multimap&&)`, multimap.h l.2414-2432, does not clear; nor does the move constructor, whose container is empty. -/
def moveFrom (clears : Bool) (mv : α → α) (s o : St α) : Res (St α × St α × Except Err Unit) := do
  let s ← (if clears then clear key lt s else .ok s : Res (St α))
  moveLoop key lt mv s o (← begin o) (o.cap + 1)

end

/-- Assignment through an iterator: `iterator->second = x` (`g` is what it does to the element). -/
def write (s : St α) (p : Nat) (g : α → α) : Res (St α) := do
  let e ← read s p
  .ok { s with val := upd s.val p (some (g e)) }

end Etl.MTree
