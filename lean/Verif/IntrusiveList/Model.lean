import Verif.Common.LinkSort

/-!
# Model of `etl::intrusive_list` with `etl::bidirectional_link`

Sources: `/repo/include/etl/intrusive_list.h`, `/repo/include/etl/intrusive_links.h`.

One heap of link objects (`Links`) holds the terminal link of every list and all user-owned nodes; a list is named by the address of its `terminal_link`,
so any number of lists and nodes is modelled.  Null is 0.  Because the container never copies or destroys a value, predicates and comparisons are functions of the node.
`check` = `ETL_CHECK_PUSH_POP`, `dbg` = `ETL_IS_DEBUG_BUILD`.  Iterator arguments are given as positions counted from `begin()`.
Simplification: a failed `ETL_ASSERT` throws.
-/
namespace Etl.IList
open Links

structure St where
  h : Links
  sz : Nat → Nat
  check : Bool
  dbg : Bool

inductive Err where
  | empty | unsorted | linked
  deriving DecidableEq, Repr

/-- nothing, an error, or the node an iterator or pointer result refers to (0: null) -/
inductive Out where
  | ok | err (e : Err) | at (n : Nat)
  deriving DecidableEq, Repr

/-- `link.clear()`, intrusive_links.h l.448-452. -/
def clearLink (h : Links) (n : Nat) : Links := { h with nx := upd h.nx n 0, pv := upd h.pv n 0 }

/-- `is_linked()`, intrusive_links.h l.456-459. -/
def isLinked (h : Links) (n : Nat) : Bool := h.pv n != 0 || h.nx n != 0

/-- `link_splice(lhs, rhs)`, intrusive_links.h l.610-624. -/
def linkSplice (h : Links) (l r : Nat) : Res Links :=
  if h.valid l ∧ h.valid r then do
    let h : Links := { h with nx := upd h.nx r (h.nx l), pv := upd h.pv r l }
    let q := h.nx l
    let h ← (if q ≠ 0 then (if h.valid q then .ok { h with pv := upd h.pv q r } else .error .nullDeref) else .ok h : Res Links)
    .ok { h with nx := upd h.nx l r }
  else .error .nullDeref

/-- `link_splice(lhs, first, last)`, intrusive_links.h l.704-717. -/
def linkSplice3 (h : Links) (l first last : Nat) : Res Links :=
  if h.valid l ∧ h.valid first ∧ h.valid last then do
    let h : Links := { h with nx := upd h.nx last (h.nx l), pv := upd h.pv first l }
    let q := h.nx last
    let h ← (if q ≠ 0 then (if h.valid q then .ok { h with pv := upd h.pv q last } else .error .nullDeref) else .ok h : Res Links)
    .ok { h with nx := upd h.nx l first }
  else .error .nullDeref

/-- `unlink(node)` = `node.unlink()`, intrusive_links.h l.522-537. -/
def unlink (h : Links) (n : Nat) : Res Links :=
  if h.valid n then do
    let p := h.pv n
    let q := h.nx n
    let h ← (if p ≠ 0 then (if h.valid p then .ok { h with nx := upd h.nx p q } else .error .nullDeref) else .ok h : Res Links)
    let h ← (if q ≠ 0 then (if h.valid q then .ok { h with pv := upd h.pv q p } else .error .nullDeref) else .ok h : Res Links)
    .ok (clearLink h n)
  else .error .nullDeref

/-- `unlink(first, last)`, intrusive_links.h l.763-788. -/
def unlinkRange (h : Links) (first last : Nat) : Res Links :=
  if first = last then unlink h first
  else if h.valid first ∧ h.valid last then do
    let q := h.nx last
    let h ← (if q ≠ 0 then (if h.valid q then .ok { h with pv := upd h.pv q (h.pv first) } else .error .nullDeref) else .ok h : Res Links)
    let p := h.pv first
    let h ← (if p ≠ 0 then (if h.valid p then .ok (clearLink { h with nx := upd h.nx p (h.nx last) } last) else .error .nullDeref) else .ok h : Res Links)
    .ok { h with pv := upd h.pv first 0, nx := upd h.nx last 0 }
  else .error .nullDeref

/-- `initialise()`, intrusive_list.h l.370-374. -/
def initialise (s : St) (t : Nat) : Res St := do
  let h ← s.h.join t t
  .ok { s with h := h, sz := upd s.sz t 0 }

/-- `insert_link(previous, new_link)`, l.297-331. -/
def insertLink (s : St) (t p n : Nat) : Res St := do
  let h ← linkSplice s.h p n
  .ok { s with h := h, sz := upd s.sz t (s.sz t + 1) }

/-- `disconnect_link`, l.336-349. -/
def disconnect (s : St) (t n : Nat) : Res St := do
  let h ← unlink s.h n
  .ok { s with h := h, sz := upd s.sz t (s.sz t - 1) }

/-- `empty`, l.258. -/
def empty (h : Links) (t : Nat) : Res Bool := do .ok ((← h.next t) == t)

/-- `is_trivial_list`, l.289-292. -/
def isTrivial (h : Links) (t : Nat) : Res Bool := do
  let p ← h.next t
  if p = t then .ok true else do .ok ((← h.next p) == t)

/-- `assign(first, last)`, l.145-166. -/
def assignLoop (s : St) (t p : Nat) : List Nat → Res St
  | [] => .ok s
  | n :: ns => do assignLoop (← insertLink s t p n) t n ns
def assign (s : St) (t : Nat) (ns : List Nat) : Res St := do assignLoop (← initialise s t) t t ns

/-- `push_front`, l.171-176. -/
def pushFront (s : St) (t n : Nat) : Res (St × Out) :=
  if isLinked s.h n then .ok (s, .err .linked) else do .ok (← insertLink s t t n, .ok)
/-- `push_back`, l.192-197. -/
def pushBack (s : St) (t n : Nat) : Res (St × Out) :=
  if isLinked s.h n then .ok (s, .err .linked) else do .ok (← insertLink s t (← s.h.prev t) n, .ok)
/-- `pop_front`, l.181-187. -/
def popFront (s : St) (t : Nat) : Res (St × Out) := do
  if s.check && (← empty s.h t) then .ok (s, .err .empty) else do .ok (← disconnect s t (← s.h.next t), .ok)
/-- `pop_back`, l.202-208. -/
def popBack (s : St) (t : Nat) : Res (St × Out) := do
  if s.check && (← empty s.h t) then .ok (s, .err .empty) else do .ok (← disconnect s t (← s.h.prev t), .ok)

/-- The loop of `clear` (l.218-223, `last` = `&terminal_link`) and of `remove_link_range` (l.430-435). -/
def clearLoop (h : Links) (p last : Nat) : Nat → Res Links
  | 0 => if p ≠ last then .error .diverge else .ok h
  | k + 1 => if p ≠ last then do
      let q ← h.next p
      clearLoop (clearLink h p) q last k
    else .ok h

/-- `clear`, l.213-226, and the destructor l.671-674. -/
def clear (s : St) (t : Nat) : Res (St × Out) := do
  let h ← clearLoop s.h (← s.h.next t) t (s.h.lim + 1)
  .ok (← initialise { s with h := h } t, .ok)

/-- The loop of `reverse`, l.242-249: `pnode->reverse(); pnode = pnode->etl_previous` and finally the terminal link. -/
def reverseLoop (h : Links) (t p : Nat) : Nat → Res Links
  | 0 => .error .diverge
  | k + 1 => do
    let q ← h.next p
    let r ← h.prev p
    let h : Links := { h with pv := upd h.pv p q, nx := upd h.nx p r }
    if p ≠ t then reverseLoop h t (h.pv p) k else .ok h
/-- `reverse`, l.231-250. -/
def reverse (s : St) (t : Nat) : Res (St × Out) := do
  if ← isTrivial s.h t then .ok (s, .ok) else do
    let h ← reverseLoop s.h t (← s.h.next t) (s.h.lim + 1)
    .ok ({ s with h := h }, .ok)

/-- `begin()` advanced `k` times. -/
def fwd (h : Links) (p : Nat) : Nat → Res Nat
  | 0 => .ok p
  | k + 1 => do fwd h (← h.next p) k
def iter (s : St) (t i : Nat) : Res Nat := do fwd s.h (← s.h.next t) i

/-- `insert(position, value)`, l.771-775. -/
def insert (s : St) (t pos n : Nat) : Res (St × Out) := do .ok (← insertLink s t (← s.h.prev pos) n, .at n)
/-- `insert(position, first, last)`, l.780-789. -/
def insertRange (s : St) (t pos : Nat) : List Nat → Res St
  | [] => .ok s
  | n :: ns => do insertRange (← insertLink s t (← s.h.prev pos) n) t pos ns

/-- `erase(position)`, l.794-815. -/
def erase (s : St) (t p : Nat) : Res (St × Nat) := do
  let q ← s.h.next p
  .ok (← disconnect s t p, q)

/-- `etl::distance(first, last)`. -/
def distance (h : Links) (p last : Nat) : Nat → Res Nat
  | 0 => .error .diverge
  | k + 1 => if p = last then .ok 0 else do
    let d ← distance h (← h.next p) last k
    .ok (d + 1)

/-- `erase(first, last)`, l.821-843 with `remove_link_range`, l.425-445. -/
def eraseRange (s : St) (t first last : Nat) : Res (St × Out) := do
  let d ← distance s.h first last (s.h.lim + 1)
  let p ← s.h.prev first
  let h ← s.h.join p last
  let h ← clearLoop h first last (s.h.lim + 1)
  .ok ({ s with h := h, sz := upd s.sz t (s.sz t - d) }, .at last)

/-- `is_link_in_list`, l.379-395. -/
def inList (h : Links) (t n p : Nat) : Nat → Res Bool
  | 0 => .error .diverge
  | k + 1 => if p ≠ t then (if n = p then .ok true else do inList h t n (← h.next p) k) else .ok false

/-- `erase(node)` = `remove_link`, l.848-851, l.400-420. -/
def eraseNode (s : St) (t n : Nat) : Res (St × Out) := do
  if ← inList s.h t n (← s.h.next t) (s.h.lim + 1) then do
    let q ← s.h.next n
    .ok (← disconnect s t n, .at (if q ≠ t then q else 0))
  else .ok (s, .at 0)

/-- `*iterator` handed to a user function: must not be the terminal link. -/
def user {β : Type} (t n : Nat) (v : β) : Res β := if n = t then .error .deadAccess else .ok v

/-- `remove`, `remove_if`, l.1025-1061. -/
def removeLoop (f : Nat → Bool) (t : Nat) (s : St) (p : Nat) : Nat → Res St
  | 0 => if p ≠ t then .error .diverge else .ok s
  | k + 1 => if p ≠ t then do
      if ← user t p (f p) then do
        let (s, q) ← erase s t p
        removeLoop f t s q k
      else do removeLoop f t s (← s.h.next p) k
    else .ok s
def removeIf (s : St) (t : Nat) (f : Nat → Bool) : Res (St × Out) := do
  .ok (← removeLoop f t s (← s.h.next t) (s.h.lim + 1), .ok)

/-- `unique`, l.857-881. -/
def uniqueLoop (eq : Nat → Nat → Bool) (t : Nat) (s : St) (prev p : Nat) : Nat → Res St
  | 0 => if p ≠ t then .error .diverge else .ok s
  | k + 1 => if p ≠ t then do
      if ← user t prev (eq prev p) then do
        let (s, q) ← erase s t p
        uniqueLoop eq t s prev q k
      else do uniqueLoop eq t s p (← s.h.next p) k
    else .ok s
def unique (s : St) (t : Nat) (eq : Nat → Nat → Bool) : Res (St × Out) := do
  if ← empty s.h t then .ok (s, .ok) else do
    let b ← s.h.next t
    .ok (← uniqueLoop eq t s b (← s.h.next b) (s.h.lim + 1), .ok)

/-- comparison of two elements -/
def cmpNodes (lt : Nat → Nat → Bool) (t a b : Nat) : Res Bool := if a = t ∨ b = t then .error .deadAccess else .ok (lt a b)

/-- `sort(compare)`, l.918-1020 (the same algorithm as `list::sort`, modelled in `LinkSort`). -/
def sort (s : St) (t : Nat) (lt : Nat → Nat → Bool) : Res (St × Out) := do
  if ← isTrivial s.h t then .ok (s, .ok) else do
    let h ← sortLinks (cmpNodes lt t) t s.h
    .ok ({ s with h := h }, .ok)

/-- `splice(position, other)`, l.1066-1091. -/
def splice (s : St) (t pos u : Nat) : Res St :=
  if u = t then .ok s else do
    if ← empty s.h u then .ok s else do
      let first ← s.h.next u
      let last ← s.h.prev u
      let sz := upd s.sz t (s.sz t + s.sz u)
      let before ← s.h.prev pos
      let h ← s.h.join before first
      let h ← h.join last pos
      initialise { s with h := h, sz := sz } u

/-- `splice(position, other, isource)`, l.1096-1108. -/
def spliceOne (s : St) (t pos u src : Nat) : Res St := do
  let before ← s.h.prev pos
  let h ← unlink s.h src
  let h ← linkSplice h before src
  if u ≠ t then
    let sz := upd s.sz t (s.sz t + 1)
    .ok { s with h := h, sz := upd sz u (sz u - 1) }
  else .ok { s with h := h }

/-- `splice(position, other, begin_, end_)`, l.1113-1135. -/
def spliceRange (s : St) (t pos u first endp : Nat) : Res St := do
  if ← empty s.h u then .ok s else do
    let d ← (if u ≠ t then distance s.h first endp (s.h.lim + 1) else .ok 0)
    let sz := upd s.sz t (s.sz t + d)
    let sz := upd sz u (sz u - d)
    let last ← s.h.prev endp
    let h ← unlinkRange s.h first last
    let before ← h.prev pos
    let h ← linkSplice3 h before first last
    .ok { s with h := h, sz := if u ≠ t then sz else s.sz }

/-- "Find the place to insert", l.1167-1170. -/
def mergeSkip (lt : Nat → Nat → Bool) (h : Links) (t y x : Nat) : Nat → Res Nat
  | 0 => .error .diverge
  | k + 1 => if x ≠ t then (if !lt y x then do mergeSkip lt h t y (← h.next x) k else .ok x) else .ok x

/-- "Insert", l.1175-1180. -/
def mergeIns (lt : Nat → Nat → Bool) (h : Links) (u x y : Nat) : Nat → Res (Links × Nat)
  | 0 => .error .diverge
  | k + 1 => if y ≠ u then
      (if lt y x then do
        let y' ← h.next y
        let h ← linkSplice h (← h.prev x) y
        mergeIns lt h u x y' k
      else .ok (h, y)) else .ok (h, y)

/-- The outer loop, l.1164-1181. -/
def mergeLoop (lt : Nat → Nat → Bool) (h : Links) (t u x y : Nat) : Nat → Res (Links × Nat × Nat)
  | 0 => .error .diverge
  | k + 1 => if x ≠ t ∧ y ≠ u then do
      let x ← mergeSkip lt h t y x (h.lim + 1)
      if x ≠ t then do
        let (h, y) ← mergeIns lt h u x y (h.lim + 1)
        mergeLoop lt h t u x y k
      else mergeLoop lt h t u x y k
    else .ok (h, x, y)

/-- `etl::is_sorted` over a list. -/
def isSorted (lt : Nat → Nat → Bool) : List Nat → Bool
  | [] => true
  | [_] => true
  | x :: y :: l => !lt y x && isSorted lt (y :: l)

/-- `merge(other, compare)`, l.1147-1193. -/
def merge (s : St) (t u : Nat) (lt : Nat → Nat → Bool) : Res (St × Out) :=
  if t = u then .ok (s, .ok) else do
    if ← empty s.h u then .ok (s, .ok) else do
      let lu ← s.h.walk u (← s.h.next u) (s.h.lim + 1)
      let lt' ← s.h.walk t (← s.h.next t) (s.h.lim + 1)
      if s.dbg && !(isSorted lt lu && isSorted lt lt') then .ok (s, .err .unsorted) else do
        let y ← s.h.next u
        let x ← s.h.next t
        let (h, x, y) ← mergeLoop lt s.h t u x y (s.h.lim + 2)
        let h ← (if x = t ∧ y ≠ u then do linkSplice3 h (← h.prev t) y (← h.prev u) else .ok h)
        let sz := upd s.sz t (s.sz t + s.sz u)
        .ok (← initialise { s with h := h, sz := sz } u, .ok)

/-- Histories: `t`, `u` name lists, `n` nodes, `i j k` positions. -/
inductive Op where
  | assign (t : Nat) (ns : List Nat)
  | pushFront (t n : Nat) | pushBack (t n : Nat) | popFront (t : Nat) | popBack (t : Nat)
  | clear (t : Nat) | reverse (t : Nat)
  | insert (t i n : Nat) | insertRange (t i : Nat) (ns : List Nat)
  | erase (t i : Nat) | eraseRange (t i j : Nat) | eraseNode (t n : Nat)
  | removeIf (t : Nat) (f : Nat → Bool) | unique (t : Nat) (eq : Nat → Nat → Bool) | sort (t : Nat) (lt : Nat → Nat → Bool)
  | splice (t i u : Nat) | spliceOne (t i u j : Nat) | spliceRange (t i u j k : Nat)
  | merge (t u : Nat) (lt : Nat → Nat → Bool)

def step (s : St) : Op → Res (St × Out)
  | .assign t ns => do .ok (← assign s t ns, .ok)
  | .pushFront t n => pushFront s t n
  | .pushBack t n => pushBack s t n
  | .popFront t => popFront s t
  | .popBack t => popBack s t
  | .clear t => clear s t
  | .reverse t => reverse s t
  | .insert t i n => do insert s t (← iter s t i) n
  | .insertRange t i ns => do .ok (← insertRange s t (← iter s t i) ns, .ok)
  | .erase t i => do
    let (s, q) ← erase s t (← iter s t i)
    .ok (s, .at q)
  | .eraseRange t i j => do eraseRange s t (← iter s t i) (← iter s t j)
  | .eraseNode t n => eraseNode s t n
  | .removeIf t f => removeIf s t f
  | .unique t eq => unique s t eq
  | .sort t lt => sort s t lt
  | .splice t i u => do .ok (← splice s t (← iter s t i) u, .ok)
  | .spliceOne t i u j => do .ok (← spliceOne s t (← iter s t i) u (← iter s u j), .ok)
  | .spliceRange t i u j k => do .ok (← spliceRange s t (← iter s t i) u (← iter s u j) (← iter s u k), .ok)
  | .merge t u lt => merge s t u lt

def run (s : St) : List Op → Res (St × List Out)
  | [] => .ok (s, [])
  | o :: os => do
    let (s, r) ← step s o
    let (s, rs) ← run s os
    .ok (s, r :: rs)

end Etl.IList
