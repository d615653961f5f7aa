import Verif.Tree.Heap

/-!
# Model of `etl::map` / `etl::imap` and `etl::set` / `etl::iset`

Source: `/repo/include/etl/map.h`, line numbers below; `/repo/include/etl/set.h` has the same text with `value` in the place of `value.first`
(the differences, `insert` on a full set and the absence of `operator[]` and `at`, are modelled below).
An element is an `α` with a key (`map`: `pair<const TKey, TMapped>` with `first`; `set`: the element itself); `lt` is the comparator.
The pool is a stack of free items (see the `Pool` model, property C05): `allocate` takes the top, `release` pushes the item and writes the link to the next free
item into its first word, which is `children[0]` (ipool.h l.394).
Iterators are node numbers; `end()` is the null pointer.  A pool shared between several maps is not modelled.
Simplifications: a failed `ETL_ASSERT` throws; copying, moving and comparing elements does not throw; elements passed in live outside the map, except the key
that `erase(iterator)` reads from the node it removes.
-/
namespace Etl.Tree

variable {α K : Type}

structure St (α : Type) where
  h : TH
  val : Nat → Option α
  free : List Nat
  cap : Nat
  size : Nat

inductive Err where
  | full | outOfBounds | noAlloc
  deriving DecidableEq, Repr

/-- The free items of a fresh pool, in the order they are handed out (ipool.h l.352-372). -/
def items (cap : Nat) : List Nat := List.range' 1 cap

/-- `map()`, l.2680-2684 with `map_base(max_size)`, l.228-234.  The contents of the items are arbitrary (`junk`). -/
def init (cap : Nat) (junk : TH) : St α :=
  { h := { junk with lim := cap, root := 0 }, val := fun _ => none, free := items cap, cap, size := 0 }

/-- `size`, `empty`, `full`, `available`, l.133-178. -/
def empty (s : St α) : Bool := s.size == 0
def full (s : St α) : Bool := s.size == s.cap
def available (s : St α) : Nat := s.cap - s.size

/-- `data_cast(*p).value`. -/
def read (s : St α) (p : Nat) : Res α :=
  if s.h.valid p then match s.val p with
    | some v => .ok v
    | none => .error .deadAccess
  else .error .nullDeref

/-- `allocate_data_node(value)`, l.1497-1550. `none`: the pool is empty and throws. -/
def allocate (s : St α) (v : α) : Res (Option (Nat × St α)) :=
  match s.free with
  | [] => .ok none
  | n :: f => match s.val n with
    | none => .ok (some (n, { s with val := upd s.val n (some v), free := f }))
    | some _ => .error .constructLive

/-- `destroy_data_node`, l.1557-1562; `ipool::release_item`, ipool.h l.391-403, overwrites `children[0]`. -/
def destroyNode (s : St α) (n : Nat) : Res (St α) :=
  if s.h.valid n ∧ n ∉ s.free then match s.val n with
    | none => .error .deadAccess
    | some _ => .ok { s with val := upd s.val n none, free := n :: s.free, h := s.h.sc n false (s.free.headD 0) }
  else .error .nullDeref

/-- `attach_node(position, node)`, l.414-424. -/
def attachNode (s : St α) (L : Loc) (n : Nat) : Res (St α) := do
  let h ← s.h.markAsLeaf n
  let h ← h.setL L n
  .ok { s with h := h, size := s.size + 1 }

section
variable (key : α → K) (lt : K → K → Bool)

/-- `find_node(position, key)`, l.1567-1595. -/
def findLoop (s : St α) (k : K) (p : Nat) : Nat → Res Nat
  | 0 => .error .diverge
  | f + 1 => if p ≠ 0 then do
      let v ← read s p
      if lt k (key v) then do findLoop s k (← s.h.child p false) f
      else if lt (key v) k then do findLoop s k (← s.h.child p true) f
      else .ok p
    else .ok p

/-- `find_node(position, node)`, l.1701-1740: the reference that holds `node`; `position` is `root_node` (l.1123). -/
def findRefLoop (s : St α) (n : Nat) (p : Nat) : Nat → Res Loc
  | 0 => .error .diverge
  | f + 1 => if p ≠ 0 then do
      if (← s.h.child p false) = n then .ok (.child p false)
      else if (← s.h.child p true) = n then .ok (.child p true)
      else do
        let v ← read s p
        let w ← read s n
        if lt (key w) (key v) then do findRefLoop s n (← s.h.child p false) f
        else if lt (key v) (key w) then do findRefLoop s n (← s.h.child p true) f
        else .ok .root
    else .ok .root

/-- The loop of `find_parent_node`, l.1755-1784: with two equivalent keys it never ends. -/
def parentLoop (s : St α) (n : Nat) (p : Nat) : Nat → Res Nat
  | 0 => .error .diverge
  | f + 1 => if p ≠ 0 then do
      if (← s.h.child p false) ≠ n ∧ (← s.h.child p true) ≠ n then do
        let w ← read s n
        let v ← read s p
        if lt (key w) (key v) then do parentLoop s n (← s.h.child p false) f
        else if lt (key v) (key w) then do parentLoop s n (← s.h.child p true) f
        else parentLoop s n p f
      else .ok p
    else .ok 0

/-- `find_parent_node(root_node, node)`, l.1747-1790. -/
def findParent (s : St α) (n : Nat) : Res Nat :=
  if s.h.root ≠ 0 ∧ n ≠ 0 ∧ s.h.root ≠ n then parentLoop key lt s n s.h.root (s.cap + 1) else .ok 0

/-- The `do .. while` of `next_node` (`d = kRight`), l.2131-2138, and `prev_node` (`d = kLeft`), l.2200-2207. -/
def climbLoop (s : St α) (d : Bool) (p : Nat) : Nat → Res Nat
  | 0 => .error .diverge
  | f + 1 => do
    let q ← findParent key lt s p
    if q ≠ 0 then do
      if (← s.h.child q d) = p then climbLoop s d q f else .ok q
    else .ok q

/-- `next_node`, l.2115-2142; `++iterator`, l.636-641. -/
def next (s : St α) (p : Nat) : Res Nat :=
  if p ≠ 0 then do
    let r ← s.h.child p true
    if r ≠ 0 then s.h.limitLoop false r (s.cap + 1) else climbLoop key lt s true p (s.cap + 1)
  else .ok p

/-- `prev_node`, l.2179-2212; `--iterator`, l.649-654. -/
def prev (s : St α) (p : Nat) : Res Nat :=
  if p = 0 then s.h.limitLoop true s.h.root (s.cap + 1)
  else do
    let l ← s.h.child p false
    if l ≠ 0 then s.h.limitLoop true l (s.cap + 1) else climbLoop key lt s false p (s.cap + 1)

/-- `begin()`, l.827-830. -/
def begin (s : St α) : Res Nat := s.h.limitLoop false s.h.root (s.cap + 1)

/-- `find_lower_node`, l.1842-1878. -/
def lowerLoop (s : St α) (k : K) (p best : Nat) : Nat → Res Nat
  | 0 => .error .diverge
  | f + 1 => if p ≠ 0 then do
      let v ← read s p
      if lt k (key v) then do
        let l ← s.h.child p false
        if l ≠ 0 then lowerLoop s k l p f else .ok p
      else if lt (key v) k then do lowerLoop s k (← s.h.child p true) best f
      else do lowerLoop s k (← s.h.child p false) p f
    else .ok best

/-- `find_upper_node`, l.1925-1958. -/
def upperLoop (s : St α) (k : K) (p best : Nat) : Nat → Res Nat
  | 0 => .error .diverge
  | f + 1 => if p ≠ 0 then do
      let v ← read s p
      if lt k (key v) then do upperLoop s k (← s.h.child p false) p f
      else if lt (key v) k then do upperLoop s k (← s.h.child p true) best f
      else do
        let r ← s.h.child p true
        if r ≠ 0 then s.h.limitLoop false r (s.cap + 1) else .ok best
    else .ok best

/-- `find(key)`, l.1169; `lower_bound`, l.1323; `upper_bound`, l.1363; `equal_range` is the pair, l.1081. -/
def find (s : St α) (k : K) : Res Nat := findLoop key lt s k s.h.root (s.cap + 1)
def lowerBound (s : St α) (k : K) : Res Nat := lowerLoop key lt s k s.h.root 0 (s.cap + 1)
def upperBound (s : St α) (k : K) : Res Nat := upperLoop key lt s k s.h.root 0 (s.cap + 1)

/-- `contains(key)`, l.1454-1457; `count(key)`, l.1063-1066. -/
def contains (s : St α) (k : K) : Res Bool := do .ok ((← find key lt s k) != 0)
def count (s : St α) (k : K) : Res Nat := do .ok (if (← find key lt s k) ≠ 0 then 1 else 0)

/-- How the search loop of `insert_node` ends: at an equivalent node, at a node without a child in the direction taken, or at null. -/
inductive Stop where
  | dup | slot | null
  deriving DecidableEq

/-- The search loop of `insert_node`, l.2014-2071; `k` is the key of the new node; what l.2043-2051 and l.2065-2071 do to the new node is in `insertNode`. -/
def insLoop (s : St α) (k : K) (found crit cp : Nat) : Nat → Res (St α × Nat × Nat × Nat × Stop)
  | 0 => .error .diverge
  | f + 1 => if found ≠ 0 then do
      let crit := if (← s.h.weight found) ≠ none then found else crit
      let v ← read s found
      if lt k (key v) ∨ lt (key v) k then do
        let d := !(lt k (key v))
        let h ← s.h.setDir found (some d)
        let s := { s with h := h }
        let c ← s.h.child found d
        if c ≠ 0 then do
          let cp := if (← s.h.weight c) ≠ none then found else cp
          insLoop s k c crit cp f
        else .ok (s, found, crit, cp, .slot)
      else do
        let h ← s.h.setDir found none
        .ok ({ s with h := h }, found, crit, cp, .dup)
    else .ok (s, found, crit, cp, .null)

/-- `insert_node(root_node, node)`, l.2002-2110 (`position` is always `root_node`). -/
def insertNode (s : St α) (n : Nat) : Res (St α × Nat) :=
  if s.h.root ≠ 0 then do
    let k := key (← read s n)
    let (s, found, crit, cp, stop) ← insLoop key lt s k s.h.root s.h.root 0 (s.cap + 1)
    let (s, found, crit) ← (match stop with
      | .dup => do
        let s ← destroyNode s n
        .ok (s, found, 0)
      | .slot => do
        let L ← s.h.locDir found
        let s ← attachNode s L n
        .ok (s, ← s.h.getL L, crit)
      | .null => .ok (s, found, crit) : Res (St α × Nat × Nat))
    if crit ≠ 0 then do
      if cp = 0 ∧ crit = s.h.root then do
        let h ← s.h.balanceNode .root (s.cap + 1)
        .ok ({ s with h := h }, found)
      else if cp ≠ 0 then do
        let h ← s.h.balanceNode (← s.h.locDir cp) (s.cap + 1)
        .ok ({ s with h := h }, found)
      else .ok (s, found)
    else .ok (s, found)
  else do
    let s ← attachNode s .root n
    .ok (s, s.h.root)

/-- `imap::insert(value)`, l.1207-1249; with a hint l.1258-1299: the map is asked whether it is full first. -/
def insertMap (s : St α) (v : α) : Res (St α × Except Err (Nat × Bool)) :=
  if full s then .ok (s, .error .full) else do
    match ← allocate s v with
    | none => .ok (s, .error .noAlloc)
    | some (n, s) => do
      let (s, r) ← insertNode key lt s n
      .ok (s, .ok (r, r == n))

/-- `iset::insert(value)`, set.h l.1112-1141: on a full set an equivalent element is looked up. -/
def insertSet (s : St α) (v : α) : Res (St α × Except Err (Nat × Bool)) := do
  if full s then do
    let p ← find key lt s (key v)
    if p = 0 then .ok (s, .error .full) else .ok (s, .ok (p, false))
  else insertMap key lt s v

/-- The insertion of the container: `map` or `set`. -/
def insert (isSet : Bool) (s : St α) (v : α) : Res (St α × Except Err (Nat × Bool)) :=
  if isSet then insertSet key lt s v else insertMap key lt s v

/-- `insert(first, last)`, l.1308-1315. -/
def insertRange (isSet : Bool) (s : St α) : List α → Res (St α × Except Err Unit)
  | [] => .ok (s, .ok ())
  | v :: vs => do
    match ← insert key lt isSet s v with
    | (s, .ok _) => insertRange isSet s vs
    | (s, .error e) => .ok (s, .error e)

/-- The local variables of `remove_node`, l.2261-2266. -/
structure Rm where
  foundParent : Nat
  found : Nat
  replaceParent : Nat
  replace : Nat
  balanceParent : Nat
  balance : Nat

/-- The search loop of `remove_node`, l.2267-2320. -/
def remLoop (s : St α) (k : K) (r : Rm) : Nat → Res (St α × Rm)
  | 0 => .error .diverge
  | f + 1 => if r.replace ≠ 0 then do
      let v ← read s r.replace
      let l ← s.h.child r.replace false
      let d : Bool := if lt k (key v) then false else if lt (key v) k then true else if l ≠ 0 then false else true
      let r := if lt k (key v) ∨ lt (key v) k then r else { r with foundParent := r.replaceParent, found := r.replace }
      let h ← s.h.setDir r.replace (some d)
      let s := { s with h := h }
      let c ← s.h.child r.replace d
      if c = 0 then .ok (s, r) else do
        let w ← s.h.weight r.replace
        let b ← (if w = none then .ok true
          else if w = some (!d) then do .ok (decide ((← s.h.weight (← s.h.child r.replace (!d))) = none))
          else .ok false : Res Bool)
        let r := if b then { r with balanceParent := r.replaceParent, balance := r.replace } else r
        remLoop s k { r with replaceParent := r.replace, replace := c } f
    else .ok (s, r)

/-- The reference `root_node` if there is no parent, else `parent->children[parent->dir]`, l.2346-2353 and others. -/
def refOf (h : TH) (parent : Nat) : Res Loc := if parent = 0 then .ok .root else h.locDir parent

/-- Step 2 of `remove_node`, l.2326-2412: returns the heap and `found_parent`. -/
def rebalLoop (h : TH) (found fp bp b : Nat) : Nat → Res (TH × Nat)
  | 0 => .error .diverge
  | f + 1 => if b ≠ 0 then do
      let d ← h.dirIx b
      if (← h.child b d) = 0 then .ok (h, fp) else do
        let w ← h.weight b
        if w = none then do
          let h ← h.setWeight b (some !d)
          rebalLoop h found fp b (← h.child b d) f
        else if w = some d then do
          let h ← h.setWeight b none
          rebalLoop h found fp b (← h.child b d) f
        else do
          let L ← refOf h bp
          let sib ← h.child b (!d)
          let ws ← h.weight sib
          let h ← (if ws = some d then do
              h.rotate3 L (!d) (← h.weight (← h.child sib d))
            else if ws = none then do
              let h ← h.rotate2 L (!d)
              let h ← h.setWeight (← h.getL L) (some d)
              h.setWeight b (some !d)
            else h.rotate2 L (!d) : Res TH)
          if b = found then do
            let fp ← h.getL L
            let h ← h.setDir fp (some (decide ((← h.child fp false) ≠ found)))
            rebalLoop h found fp b (← h.child b d) f
          else rebalLoop h found fp b (← h.child b d) f
    else .ok (h, fp)

/-- `remove_node(root_node, key)`, l.2256-2445. -/
def removeNode (s : St α) (k : K) : Res (St α × Nat) := do
  let (s, r) ← remLoop key lt s k ⟨0, 0, 0, s.h.root, 0, s.h.root⟩ (s.cap + 1)
  if r.found ≠ 0 then do
    let (h, fp) ← rebalLoop s.h r.found r.foundParent r.balanceParent r.balance (s.cap + 1)
    let P ← refOf h fp
    let R ← (if fp ≠ 0 then h.locDir r.replaceParent else refOf h r.replaceParent : Res Loc)
    let h ← h.detachNode P R
    let s ← destroyNode { s with h := h, size := s.size - 1 } r.found
    .ok (s, r.found)
  else .ok (s, r.found)

/-- `erase(key)`, l.1135-1139: the number of elements removed. -/
def eraseKey (s : St α) (k : K) : Res (St α × Nat) := do
  let (s, n) ← removeNode key lt s k
  .ok (s, if n ≠ 0 then 1 else 0)

/-- `erase(const_iterator)`, l.1120-1130. -/
def eraseAt (s : St α) (p : Nat) : Res (St α × Nat) := do
  let L ← findRefLoop key lt s p s.h.root (s.cap + 1)
  let nxt ← next key lt s (← s.h.getL L)
  let (s, _) ← removeNode key lt s (key (← read s p))
  .ok (s, nxt)

/-- `erase(first, last)`, l.1154-1162, and the loop of `initialise()`, l.1482-1490 (`last` = `end()`). -/
def eraseLoop (s : St α) (p last : Nat) : Nat → Res (St α)
  | 0 => if p ≠ last then .error .diverge else .ok s
  | f + 1 => if p ≠ last then do
      let (s, q) ← eraseAt key lt s p
      eraseLoop s q last f
    else .ok s

def eraseRange (s : St α) (first last : Nat) : Res (St α × Nat) := do
  .ok (← eraseLoop key lt s first last (s.cap + 1), last)

/-- `initialise()`, l.1482-1490; `clear()`, l.1053; destructor l.2749. -/
def clear (s : St α) : Res (St α) := do eraseLoop key lt s (← begin s) 0 (s.cap + 1)

/-- `assign(first, last)`, l.1044-1048; copy construction and assignment (l.2689, l.1400, l.2757) pass the elements of the other container. -/
def assign (isSet : Bool) (s : St α) (vs : List α) : Res (St α × Except Err Unit) := do
  insertRange key lt isSet (← clear key lt s) vs

/-- The elements from `p` to the end: `for (it = p; it != end(); ++it) *it`. -/
def listLoop (s : St α) (p : Nat) : Nat → Res (List α)
  | 0 => if p ≠ 0 then .error .diverge else .ok []
  | f + 1 => if p ≠ 0 then do
      let v ← read s p
      .ok (v :: (← listLoop s (← next key lt s p) f))
    else .ok []

/-- Iteration from `begin()` to `end()`. -/
def toList (s : St α) : Res (List α) := do listLoop key lt s (← begin s) (s.cap + 1)

/-- Iteration from `end()` back to `begin()` (`reverse_iterator`, l.895-949): `--it; *it` until `it == begin()`. -/
def rlistLoop (s : St α) (b p : Nat) : Nat → Res (List α)
  | 0 => if p ≠ b then .error .diverge else .ok []
  | f + 1 => if p ≠ b then do
      let q ← prev key lt s p
      let v ← read s q
      .ok (v :: (← rlistLoop s b q f))
    else .ok []

def toListRev (s : St α) : Res (List α) := do rlistLoop key lt s (← begin s) 0 (s.cap + 1)

/-- The loop of the move operations: elements move one by one, `mv` is what is left of a moved-from element (the key of a map element is `const`, so it is copied;
a set element may change).  The iterator is advanced before the element is moved (map.h l.2703-2711, l.2774-2782; set.h l.822-829, l.2585-2592, l.2656-2663),
or after (`late`: map.h l.1424-1428). -/
def moveLoop (isSet late : Bool) (mv : α → α) (s o : St α) (p : Nat) : Nat → Res (St α × St α × Except Err Unit)
  | 0 => if p ≠ 0 then .error .diverge else .ok (s, o, .ok ())
  | f + 1 => if p ≠ 0 then do
      let v ← read o p
      let q ← next key lt o p
      match ← insert key lt isSet s v with
      | (s, .ok (_, b)) => do
        let o := if b then { o with val := upd o.val p (some (mv v)) } else o
        let q ← (if late then next key lt o p else .ok q : Res Nat)
        moveLoop isSet late mv s o q f
      | (s, .error e) => .ok (s, o, .error e)
    else .ok (s, o, .ok ())

/-- `operator=(map&&)`, l.1415-1433, l.2763-2788, and the move constructor l.2696-2714 (the new map is empty). -/
def moveFrom (isSet late : Bool) (mv : α → α) (s o : St α) : Res (St α × St α × Except Err Unit) := do
  let s ← clear key lt s
  moveLoop key lt isSet late mv s o (← begin o) (o.cap + 1)

/-- `operator[](key)`, map.h l.922-979: the node whose mapped value is referenced; `mk k` is the element `(k, mapped_type())`. -/
def index (mk : K → α) (s : St α) (k : K) : Res (St α × Except Err Nat) := do
  let p ← find key lt s k
  if p = 0 then
    if full s then .ok (s, .error .full) else do
      match ← allocate s (mk k) with
      | none => .ok (s, .error .noAlloc)
      | some (n, s) => do
        let (s, r) ← insertNode key lt s n
        .ok (s, .ok r)
  else .ok (s, .ok p)

/-- `at(key)`, map.h l.986-1034: the element whose mapped value is referenced. -/
def atKey (s : St α) (k : K) : Res (Except Err α) := do
  let p ← find key lt s k
  if p ≠ 0 then do .ok (.ok (← read s p)) else .ok (.error .outOfBounds)

end

/-- Assignment through an iterator or a reference to the mapped value: `iterator->second = x`, `map[key] = x`, `map.at(key) = x` (`g` is what it does to the element). -/
def write (s : St α) (p : Nat) (g : α → α) : Res (St α) := do
  let e ← read s p
  .ok { s with val := upd s.val p (some (g e)) }

end Etl.Tree
