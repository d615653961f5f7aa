import Verif.Common.FwSort

/-!
# Model of `etl::intrusive_forward_list` with `etl::forward_link`

Sources: `/repo/include/etl/intrusive_forward_list.h`, `/repo/include/etl/intrusive_links.h`.

One heap of link objects (`FLinks`) holds the `start` link of every list, the static `terminator` shared by all lists of the type (node 1 here), and all
user-owned nodes; a list is named by the address of its `start`, so any number of lists and nodes is modelled.  Null is 0.  Because the container never copies
or destroys a value, predicates and comparisons are functions of the node.  `check` = `ETL_CHECK_PUSH_POP`, `dbg` = `ETL_IS_DEBUG_BUILD`.
Iterator arguments are given as positions counted from `before_begin()`: 0 is `before_begin()`, `i+1` is element `i`, `size()+1` is `end()`.
Simplification: a failed `ETL_ASSERT` throws.  `splice_after(position, other, isource)` (l.1078-1090) is not modelled: it calls `etl::unlink`, which does not exist
for `forward_link`, so it does not compile when used.
-/
namespace Etl.IFList
open FLinks

structure St where
  h : FLinks
  sz : Nat → Nat
  check : Bool
  dbg : Bool

inductive Err where
  | empty | unsorted | linked
  deriving DecidableEq, Repr

/-- nothing, an error, or the node an iterator or pointer result refers to (0: null) -/
inductive Out where
  | ok | err (e : Err) | at (n : Nat)
  deriving DecidableEq, Repr

/-- `&terminator`, l.259, l.420-421. -/
def E : Nat := 1

/-- `link.clear()`, intrusive_links.h l.118-121. -/
def clearLink (h : FLinks) (n : Nat) : FLinks := { h with nx := upd h.nx n 0 }

/-- `is_linked()`, intrusive_links.h l.125-128. -/
def isLinked (h : FLinks) (n : Nat) : Bool := h.nx n != 0

/-- `link_splice(lhs, rhs)`, intrusive_links.h l.216-222. -/
def linkSplice (h : FLinks) (l r : Nat) : Res FLinks := do
  let h ← h.join r (← h.next l)
  h.join l r

/-- `link_splice(lhs, first, last)`, intrusive_links.h l.270-276. -/
def linkSplice3 (h : FLinks) (l first last : Nat) : Res FLinks := do
  let h ← h.join last (← h.next l)
  h.join l first

/-- `unlink_after(node)`, intrusive_links.h l.299-312. -/
def unlinkAfter (h : FLinks) (n : Nat) : Res (FLinks × Nat) := do
  let u ← h.next n
  if u ≠ 0 then do
    let h ← h.join n (← h.next u)
    .ok (clearLink h u, u)
  else .ok (h, u)

/-- `unlink_after(before, last)`, intrusive_links.h l.317-330. -/
def unlinkAfter2 (h : FLinks) (before last : Nat) : Res FLinks :=
  if before ≠ last then do
    let h ← h.join before (← h.next last)
    .ok (clearLink h last)
  else .ok h

/-- `initialise()`, l.331-335. -/
def initialise (s : St) (t : Nat) : Res St := do
  let h ← s.h.join t E
  .ok { s with h := h, sz := upd s.sz t 0 }

/-- `empty`, l.243-246; `is_trivial_list`, l.282-285. -/
def empty (s : St) (t : Nat) : Bool := s.sz t == 0
def isTrivial (s : St) (t : Nat) : Bool := decide (s.sz t ≤ 1)

/-- `insert_link_after(position, link)`, l.290-295. -/
def insertLink (s : St) (t p n : Nat) : Res St := do
  let h ← linkSplice s.h p n
  .ok { s with h := h, sz := upd s.sz t (s.sz t + 1) }

/-- `disconnect_link_after(link)`, l.300-310. -/
def disconnect (s : St) (t p : Nat) : Res St := do
  if (← s.h.next p) ≠ E then do
    let (h, u) ← unlinkAfter s.h p
    .ok { s with h := clearLink h u, sz := upd s.sz t (s.sz t - 1) }
  else .ok s

/-- The loop of `clear` (l.154-159, `last` = `&terminator`) and of `remove_link_range_after` (l.403-408). -/
def clearLoop (h : FLinks) (p last : Nat) : Nat → Res FLinks
  | 0 => if p ≠ last then .error .diverge else .ok h
  | k + 1 => if p ≠ last then do
      let q ← h.next p
      clearLoop (clearLink h p) q last k
    else .ok h

/-- `clear`, l.149-163, and the destructor l.274-277. -/
def clear (s : St) (t : Nat) : Res St := do
  let h ← clearLoop s.h (← s.h.next t) E (s.h.lim + 1)
  initialise { s with h := h } t

/-- The loop of `assign(first, last)`, l.181-191: stops at the first value that is already linked. -/
def assignLoop (s : St) (t p : Nat) : List Nat → Res (St × Out)
  | [] => .ok (s, .ok)
  | n :: ns => if isLinked s.h n then .ok (s, .err .linked) else do
      assignLoop (← insertLink s t p n) t n ns
/-- `assign(first, last)`, l.169-192, and the range constructor l.623-627. -/
def assign (s : St) (t : Nat) (ns : List Nat) : Res (St × Out) := do assignLoop (← clear s t) t t ns

/-- `push_front`, l.197-202. -/
def pushFront (s : St) (t n : Nat) : Res (St × Out) :=
  if isLinked s.h n then .ok (s, .err .linked) else do .ok (← insertLink s t t n, .ok)
/-- `pop_front`, l.207-213. -/
def popFront (s : St) (t : Nat) : Res (St × Out) :=
  if s.check && empty s t then .ok (s, .err .empty) else do .ok (← disconnect s t t, .ok)

/-- `reverse`, l.218-238 (`next` and `current` are equal at the head of the loop). -/
def reverse (s : St) (t : Nat) : Res St :=
  if isTrivial s t then .ok s else do
    let (h, p) ← revLoop s.h E E (← s.h.next t) (s.h.lim + 1)
    let h ← h.join t p
    .ok { s with h := h }

/-- `before_begin()` advanced `i` times. -/
def iter (s : St) (t i : Nat) : Res Nat := s.h.fwd t i

/-- `insert_after(position, value)`, l.715-721. -/
def insertAfter (s : St) (t pos n : Nat) : Res (St × Out) :=
  if isLinked s.h n then .ok (s, .err .linked) else do .ok (← insertLink s t pos n, .at n)
/-- `insert_after(position, first, last)`, l.727-738. -/
def insertRange (s : St) (t pos : Nat) : List Nat → Res (St × Out)
  | [] => .ok (s, .ok)
  | n :: ns => if isLinked s.h n then .ok (s, .err .linked) else do
      let s ← insertLink s t pos n
      insertRange s t (← s.h.next pos) ns

/-- `erase_after(position)`, l.743-757. -/
def eraseAfter (s : St) (t p : Nat) : Res (St × Nat) := do
  if p ≠ E then do
    let q ← s.h.next p
    if q ≠ E then do
      let r ← s.h.next q
      .ok (← disconnect s t p, r)
    else .ok (s, q)
  else .ok (s, p)

/-- `etl::distance(first, last)`. -/
def distance (h : FLinks) (p last : Nat) : Nat → Res Nat
  | 0 => .error .diverge
  | k + 1 => if p = last then .ok 0 else do
    let d ← distance h (← h.next p) last k
    .ok (d + 1)

/-- `erase_after(first, last)`, l.762-786, with `remove_link_range_after`, l.393-418. -/
def eraseRange (s : St) (t first last : Nat) : Res (St × Out) :=
  if first ≠ E ∧ first ≠ last then do
    let d ← distance s.h first last (s.h.lim + 1)
    let after ← s.h.next first
    let h ← s.h.join first last
    let h ← clearLoop h after last (s.h.lim + 1)
    .ok ({ s with h := h, sz := upd s.sz t (s.sz t - (d - 1)) }, .at (if after = E then E else last))
  else .ok (s, .at last)

/-- `is_link_in_list`, l.341-363: walks until the null link behind the terminator; returns the link before, or null. -/
def inList (h : FLinks) (n p prev : Nat) : Nat → Res Nat
  | 0 => .error .diverge
  | k + 1 => if p ≠ 0 then (if n = p then .ok prev else do inList h n (← h.next p) p k) else .ok 0

/-- `erase(node)` = `remove_link`, l.791-794, l.369-388. -/
def eraseNode (s : St) (t n : Nat) : Res (St × Out) := do
  let prev ← inList s.h n (← s.h.next t) t (s.h.lim + 2)
  if prev ≠ 0 then do
    let q ← s.h.next n
    .ok (← disconnect s t prev, .at (if q ≠ E then q else 0))
  else .ok (s, .at 0)

/-- An element handed to a user function: must be neither the start nor the terminator. -/
def user {β : Type} (t n : Nat) (v : β) : Res β := if n = t ∨ n = E then .error .deadAccess else .ok v

/-- `remove(value)`, `remove_if`, l.975-992, l.1021-1038. -/
def removeLoop (f : Nat → Bool) (t : Nat) (s : St) (item last : Nat) : Nat → Res St
  | 0 => if item ≠ E then .error .diverge else .ok s
  | k + 1 => if item ≠ E then do
      if ← user t item (f item) then do
        let (s, q) ← eraseAfter s t last
        removeLoop f t s q last k
      else do removeLoop f t s (← s.h.next item) (← s.h.next last) k
    else .ok s
def removeIf (s : St) (t : Nat) (f : Nat → Bool) : Res St := do
  removeLoop f t s (← s.h.next t) t (s.h.lim + 1)

/-- `remove(element)` by address, l.997-1015. -/
def removePtrLoop (n : Nat) (t : Nat) (s : St) (item last : Nat) : Nat → Res St
  | 0 => if item ≠ E then .error .diverge else .ok s
  | k + 1 => if item ≠ E then do
      if item = n then do
        let (s, _) ← eraseAfter s t last
        .ok s
      else do removePtrLoop n t s (← s.h.next item) (← s.h.next last) k
    else .ok s
def removePtr (s : St) (t n : Nat) : Res St := do
  removePtrLoop n t s (← s.h.next t) t (s.h.lim + 1)

/-- `unique`, l.800-828: the predicate is called with the later element first. -/
def uniqueLoop (eq : Nat → Nat → Bool) (t : Nat) (s : St) (last current : Nat) : Nat → Res St
  | 0 => if current ≠ E then .error .diverge else .ok s
  | k + 1 => if current ≠ E then do
      if ← user t last (eq current last) then do
        let s ← disconnect s t last
        uniqueLoop eq t s last (← s.h.next last) k
      else do uniqueLoop eq t s current (← s.h.next current) k
    else .ok s
def unique (s : St) (t : Nat) (eq : Nat → Nat → Bool) : Res St :=
  if empty s t then .ok s else do
    let last ← s.h.next t
    uniqueLoop eq t s last (← s.h.next last) (s.h.lim + 1)

/-- comparison of two elements -/
def cmpNodes (lt : Nat → Nat → Bool) (t a b : Nat) : Res Bool := if a = t ∨ b = t ∨ a = E ∨ b = E then .error .deadAccess else .ok (lt a b)

/-- `sort(compare)`, l.861-967 (modelled in `FwSort`). -/
def sort (s : St) (t : Nat) (lt : Nat → Nat → Bool) : Res St :=
  if isTrivial s t then .ok s else do
    let h ← sortLinks (cmpNodes lt t) t E s.h
    .ok { s with h := h }

/-- `while (last->etl_next != end) last = last->etl_next`, l.1063-1066 and l.1109-1112. -/
def lastLoop (h : FLinks) (e last : Nat) : Nat → Res Nat
  | 0 => .error .diverge
  | k + 1 => do
    let q ← h.next last
    if q ≠ e then lastLoop h e q k else .ok last

/-- `splice_after(position, other)`, l.1043-1073. -/
def splice (s : St) (t pos u : Nat) : Res St :=
  if u = t then .ok s
  else if empty s u then .ok s
  else do
    let first ← s.h.next u
    let sz := upd s.sz t (s.sz t + s.sz u)
    let after ← s.h.next pos
    let h ← s.h.join pos first
    let last ← lastLoop h E pos (s.h.lim + 1)
    let h ← h.join last after
    initialise { s with h := h, sz := sz } u

/-- `splice_after(position, other, begin_, end_)`, l.1095-1124: moves the elements strictly between `begin_` and `end_`. -/
def spliceRange (s : St) (t pos u first endp : Nat) : Res St :=
  if empty s u then .ok s else do
    let d ← (if u ≠ t then distance s.h first endp (s.h.lim + 1) else .ok 1)
    let sz := upd s.sz t (s.sz t + (d - 1))
    let sz := upd sz u (sz u - (d - 1))
    let last ← lastLoop s.h endp first (s.h.lim + 1)
    let fn ← s.h.next first
    let h ← unlinkAfter2 s.h first last
    let h ← linkSplice3 h pos fn last
    .ok { s with h := h, sz := if u ≠ t then sz else s.sz }

/-- "Find the place to insert", l.1158-1162: returns `before`, `before_next`. -/
def mergeSkip (lt : Nat → Nat → Bool) (h : FLinks) (y before bn : Nat) : Nat → Res (Nat × Nat)
  | 0 => .error .diverge
  | k + 1 => if bn ≠ E then (if !lt y bn then do mergeSkip lt h y bn (← h.next bn) k else .ok (before, bn)) else .ok (before, bn)

/-- "Insert", l.1167-1173: returns the heap, `before`, `other_begin`. -/
def mergeIns (lt : Nat → Nat → Bool) (h : FLinks) (before bn y : Nat) : Nat → Res (FLinks × Nat × Nat)
  | 0 => .error .diverge
  | k + 1 => if y ≠ E then
      (if lt y bn then do
        let y' ← h.next y
        let h ← linkSplice h before y
        mergeIns lt h (← h.next before) bn y' k
      else .ok (h, before, y)) else .ok (h, before, y)

/-- The outer loop, l.1155-1175: returns the heap, `before`, `before_next`, `other_begin`. -/
def mergeLoop (lt : Nat → Nat → Bool) (h : FLinks) (before bn y : Nat) : Nat → Res (FLinks × Nat × Nat × Nat)
  | 0 => .error .diverge
  | k + 1 => do
    if (← h.next before) ≠ E ∧ y ≠ E then do
      let (before, bn) ← mergeSkip lt h y before bn (h.lim + 1)
      if bn ≠ E then do
        let (h, before, y) ← mergeIns lt h before bn y (h.lim + 1)
        mergeLoop lt h before bn y k
      else mergeLoop lt h before bn y k
    else .ok (h, before, bn, y)

/-- "Any left over?", l.1180-1186. -/
def mergeRest (h : FLinks) (before y : Nat) : Nat → Res FLinks
  | 0 => .error .diverge
  | k + 1 => if y ≠ E then do
      let y' ← h.next y
      let h ← linkSplice h before y
      mergeRest h (← h.next before) y' k
    else .ok h

/-- `etl::is_sorted` over a list. -/
def isSorted (lt : Nat → Nat → Bool) : List Nat → Bool
  | [] => true
  | [_] => true
  | x :: y :: l => !lt y x && isSorted lt (y :: l)

/-- `merge(other, compare)`, l.1137-1193. -/
def merge (s : St) (t u : Nat) (lt : Nat → Nat → Bool) : Res (St × Out) :=
  if t = u ∨ empty s u then .ok (s, .ok) else do
    let lu ← s.h.walk E (← s.h.next u) (s.h.lim + 1)
    let lt' ← s.h.walk E (← s.h.next t) (s.h.lim + 1)
    if s.dbg && !(isSorted lt lu && isSorted lt lt') then .ok (s, .err .unsorted) else do
      let y ← s.h.next u
      let bn ← s.h.next t
      let (h, before, bn, y) ← mergeLoop lt s.h t bn y (s.h.lim + 2)
      let h ← (if bn = E then mergeRest h before y (s.h.lim + 1) else .ok h)
      let sz := upd s.sz t (s.sz t + s.sz u)
      .ok (← initialise { s with h := h, sz := sz } u, .ok)

/-- Histories: `t`, `u` name lists, `n` nodes, `i j k` positions. -/
inductive Op where
  | assign (t : Nat) (ns : List Nat)
  | pushFront (t n : Nat) | popFront (t : Nat)
  | clear (t : Nat) | reverse (t : Nat)
  | insertAfter (t i n : Nat) | insertRange (t i : Nat) (ns : List Nat)
  | eraseAfter (t i : Nat) | eraseRange (t i j : Nat) | eraseNode (t n : Nat)
  | removeIf (t : Nat) (f : Nat → Bool) | removePtr (t n : Nat) | unique (t : Nat) (eq : Nat → Nat → Bool) | sort (t : Nat) (lt : Nat → Nat → Bool)
  | splice (t i u : Nat) | spliceRange (t i u j k : Nat)
  | merge (t u : Nat) (lt : Nat → Nat → Bool)

def step (s : St) : Op → Res (St × Out)
  | .assign t ns => assign s t ns
  | .pushFront t n => pushFront s t n
  | .popFront t => popFront s t
  | .clear t => do .ok (← clear s t, .ok)
  | .reverse t => do .ok (← reverse s t, .ok)
  | .insertAfter t i n => do insertAfter s t (← iter s t i) n
  | .insertRange t i ns => do insertRange s t (← iter s t i) ns
  | .eraseAfter t i => do
    let (s, q) ← eraseAfter s t (← iter s t i)
    .ok (s, .at q)
  | .eraseRange t i j => do eraseRange s t (← iter s t i) (← iter s t j)
  | .eraseNode t n => eraseNode s t n
  | .removeIf t f => do .ok (← removeIf s t f, .ok)
  | .removePtr t n => do .ok (← removePtr s t n, .ok)
  | .unique t eq => do .ok (← unique s t eq, .ok)
  | .sort t lt => do .ok (← sort s t lt, .ok)
  | .splice t i u => do .ok (← splice s t (← iter s t i) u, .ok)
  | .spliceRange t i u j k => do .ok (← spliceRange s t (← iter s t i) u (← iter s u j) (← iter s u k), .ok)
  | .merge t u lt => merge s t u lt

def run (s : St) : List Op → Res (St × List Out)
  | [] => .ok (s, [])
  | o :: os => do
    let (s, r) ← step s o
    let (s, rs) ← run s os
    .ok (s, r :: rs)

end Etl.IFList
