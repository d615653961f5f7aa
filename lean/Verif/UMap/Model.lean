import Verif.Common.Mem

/-!
# Model of unordered_map, unordered_set, unordered_multimap, unordered_multiset

Sources: `/repo/include/etl/unordered_map.h`, `unordered_set.h`, `unordered_multimap.h`, `unordered_multiset.h` (the line numbers are those of unordered_map.h unless another file is named).

The elements live in the nodes of a pool (property C05), `free` is its stack of free items and `val` the storage of the values.  A bucket is an `etl::intrusive_forward_list` of nodes; `chain b` is the
list of the nodes of bucket `b` in link order, and `pbuckets[b]->empty()` is `chain b = []` (intrusive_forward_list.h keeps a `current_size`, l.243-246; its `insert_after` l.715-721 and `erase_after` l.743-757 are the functions `insAfter` and `eraseAfter` here).
All the buckets share one static terminator (intrusive_forward_list.h l.259, l.421), so the `end()` of every bucket is the same local iterator `term`.  `first` and `last` are the bucket markers l.1876-1877.
An element type `ε` has a key: `first` for the maps, the element itself for the sets.
Simplifications: a failed `ETL_ASSERT` throws; hashing, comparing, copying does not throw; the overloads for other key types (transparent comparison), for rvalues and for `const` do the same as the plain one.
-/
namespace Etl.UMap

/-- A local iterator: `before_begin()` of a bucket, a node, or the common terminator. -/
inductive LI where
  | before | node (i : Nat) | term
  deriving DecidableEq, Repr

structure St (ε : Type) where
  nb : Nat
  cap : Nat
  chain : Nat → List Nat
  val : Nat → Cell ε
  free : List Nat
  first : Nat
  last : Nat

/-- The hash function, the key comparison and the key of an element. -/
structure Cfg (κ ε : Type) where
  hash : κ → Nat
  eq : κ → κ → Bool
  key : ε → κ

/-- `unordered_map_full` l.87, `pool_no_allocation` (pool.h, from `operator[]`), `unordered_map_out_of_range` l.102 -/
inductive Err where
  | full | noAlloc | range
  deriving DecidableEq, Repr

/-- `iterator`, l.184-325 (the third member `pbuckets_end` is always `pbuckets + number_of_buckets`) -/
structure It where
  bkt : Nat
  pos : LI
  deriving DecidableEq, Repr

variable {κ ε : Type}

/-- the constructor l.1708-1717, l.2058-2061 -/
def init (nb cap : Nat) : St ε := { nb, cap, chain := fun _ => [], val := fun _ => .raw, free := List.range cap, first := 0, last := 0 }

/-- `begin()` of a chain, intrusive_forward_list.h l.635-638 -/
def headLI : List Nat → LI
  | [] => .term
  | i :: _ => .node i
/-- the link of node `i` -/
def after (i : Nat) : List Nat → Res LI
  | [] => .error .deadAccess
  | x :: xs => if x = i then .ok (headLI xs) else after i xs
/-- `++` of a local iterator, intrusive_forward_list.h l.485-490 -/
def LI.step (c : List Nat) : LI → Res LI
  | .before => .ok (headLI c)
  | .node i => after i c
  | .term => .error .nullDeref
/-- put `n` behind `i` -/
def insGo (i n : Nat) : List Nat → Res (List Nat)
  | [] => .error .deadAccess
  | x :: xs => if x = i then .ok (x :: n :: xs) else match insGo i n xs with
    | .error u => .error u
    | .ok l => .ok (x :: l)
/-- `insert_after(position, value)`, intrusive_forward_list.h l.715-721 -/
def insAfter (c : List Nat) (p : LI) (n : Nat) : Res (List Nat) := match p with
  | .before => .ok (n :: c)
  | .node i => insGo i n c
  | .term => .error .nullDeref
/-- take out the one behind `i` -/
def eraGo (i : Nat) : List Nat → Res (List Nat × LI)
  | [] => .error .deadAccess
  | x :: xs => if x = i then .ok (x :: xs.drop 1, headLI (xs.drop 1)) else match eraGo i xs with
    | .error u => .error u
    | .ok r => .ok (x :: r.1, r.2)
/-- `erase_after(position)`, intrusive_forward_list.h l.743-757 -/
def eraseAfter (c : List Nat) (p : LI) : Res (List Nat × LI) := match p with
  | .before => .ok (c.drop 1, headLI (c.drop 1))
  | .node i => eraGo i c
  | .term => .ok (c, .term)

/-- `pbuckets[b]` -/
def bucket (s : St ε) (b : Nat) : Res (List Nat) := if b < s.nb then .ok (s.chain b) else .error .outOfBounds
/-- the value of a node -/
def read (s : St ε) (i : Nat) : Res ε := match s.val i with
  | .live v => .ok v
  | _ => .error .deadAccess

/-- `size`, `empty`, `full`, l.1577-1612 -/
def size (s : St ε) : Nat := s.cap - s.free.length
def empty (s : St ε) : Bool := size s == 0
def full (s : St ε) : Bool := size s == s.cap

/-- `get_bucket_index`, l.620-623 -/
def index (c : Cfg κ ε) (s : St ε) (k : κ) : Res Nat := if s.nb = 0 then .error .divByZero else .ok (c.hash k % s.nb)

/-- `begin()`, l.470-473 -/
def beginIt (s : St ε) : Res It := match bucket s s.first with
  | .error u => .error u
  | .ok l => .ok ⟨s.first, headLI l⟩
/-- `end()`, l.530-533 -/
def endIt (s : St ε) : It := ⟨s.last, .term⟩
/-- the loop of `++` over the empty buckets, l.223-226; `n` is the number of the buckets that are left -/
def skip (s : St ε) : Nat → Nat → Nat
  | 0, b => b
  | n + 1, b => if s.chain b = [] then skip s n (b + 1) else b
/-- the end of `++`, l.228-232 -/
def enter (s : St ε) (b : Nat) : It := ⟨b, if b = s.nb then .term else headLI (s.chain b)⟩
/-- `++` of an iterator, l.214-235 -/
def next (s : St ε) (it : It) : Res It := match bucket s it.bkt with
  | .error u => .error u
  | .ok l => match it.pos.step l with
    | .error u => .error u
    | .ok p => if p = .term then .ok (enter s (skip s (s.nb - (it.bkt + 1)) (it.bkt + 1))) else .ok ⟨it.bkt, p⟩
/-- `*it`, l.255-258 -/
def deref (s : St ε) (it : It) : Res ε := match it.pos with
  | .node i => read s i
  | _ => .error .nullDeref
/-- `==`, l.307-310: only the nodes are compared -/
def eqIt (a b : It) : Bool := a.pos == b.pos

/-- a search loop with `inode_previous` and `inode`, l.1027-1038, l.1177-1181: the place before the first match, and the match -/
def search (s : St ε) (p : ε → Bool) (prev : LI) : List Nat → Res (LI × Option Nat)
  | [] => .ok (prev, none)
  | i :: r => match read s i with
    | .error u => .error u
    | .ok v => if p v then .ok (prev, some i) else search s p (.node i) r

/-- `find`, l.1347-1374 -/
def find (c : Cfg κ ε) (s : St ε) (k : κ) : Res It := match index c s k with
  | .error u => .error u
  | .ok b => match bucket s b with
    | .error u => .error u
    | .ok l => match search s (fun v => c.eq k (c.key v)) .before l with
      | .error u => .error u
      | .ok (_, some i) => .ok ⟨b, .node i⟩
      | .ok (_, none) => .ok (endIt s)
/-- `count` of the map and the set, l.1324-1327; `contains`, l.1687-1690 -/
def count (c : Cfg κ ε) (s : St ε) (k : κ) : Res Nat := match find c s k with
  | .error u => .error u
  | .ok it => .ok (if eqIt it (endIt s) then 0 else 1)
/-- `at`, l.840-867: the element, or `unordered_map_out_of_range` -/
def at? (c : Cfg κ ε) (s : St ε) (k : κ) : Res (Except Err ε) := match index c s k with
  | .error u => .error u
  | .ok b => match bucket s b with
    | .error u => .error u
    | .ok l => match search s (fun v => c.eq k (c.key v)) .before l with
      | .error u => .error u
      | .ok (_, some i) => (match read s i with
        | .error u => .error u
        | .ok v => .ok (.ok v))
      | .ok (_, none) => .ok (.error .range)

/-- `adjust_first_last_markers_after_insert`, l.1788-1806 -/
def adjustIns (s : St ε) (b : Nat) : St ε :=
  if size s = 1 then { s with first := b, last := b }
  else if b < s.first then { s with first := b } else if s.last < b then { s with last := b } else s
/-- `while (first->empty()) ++first;`, l.1823-1826, and the search for the next bucket l.1297-1300: there is no test for the end of the buckets -/
def seek (s : St ε) : Nat → Nat → Res Nat
  | 0, _ => .error .outOfBounds
  | n + 1, b => if s.chain b = [] then seek s n (b + 1) else .ok b
/-- the search for the last bucket, l.1836-1844; `n` buckets from `b` on -/
def scanLast (s : St ε) : Nat → Nat → Nat → Nat
  | 0, _, acc => acc
  | n + 1, b, acc => scanLast s n (b + 1) (if s.chain b = [] then acc else b)
/-- `adjust_first_last_markers_after_erase`, l.1811-1847 -/
def adjustEra (s : St ε) (b : Nat) : Res (St ε) :=
  if empty s then .ok { s with first := 0, last := 0 }
  else if b = s.first then (match seek s (s.nb - s.first) s.first with
    | .error u => .error u
    | .ok f => .ok { s with first := f })
  else if b = s.last then (if s.first ≤ s.last then .ok { s with last := scanLast s (s.last - s.first) s.first s.first } else .error .outOfBounds)
  else .ok s

/-- `allocate_data_node` and the placement new, l.1017-1020.  The pool throws when nothing is left. -/
def allocate (s : St ε) (v : ε) : Res (Except Err (St ε × Nat)) := match s.free with
  | [] => .ok (.error .noAlloc)
  | p :: f => match s.val p with
    | .raw => .ok (.ok ({ s with val := upd s.val p (.live v), free := f }, p))
    | _ => .error .constructLive
/-- the new node goes behind `p` in bucket `b`, l.1022-1025, l.1049-1051 -/
def link (s : St ε) (b : Nat) (p : LI) (n : Nat) : Res (St ε) := match insAfter (s.chain b) p n with
  | .error u => .error u
  | .ok l => .ok (adjustIns { s with chain := upd s.chain b l } b)
/-- allocate and link -/
def add (s : St ε) (b : Nat) (p : LI) (v : ε) : Res (St ε × Except Err It) := match allocate s v with
  | .error u => .error u
  | .ok (.error e) => .ok (s, .error e)
  | .ok (.ok (s, n)) => match link s b p n with
    | .error u => .error u
    | .ok s => .ok (s, .ok ⟨b, .node n⟩)

/-- the body of `insert`, l.1005-1061: an empty bucket takes the new node; else the loop looks for an equal key and the new node goes to the end of the bucket when there is none. -/
def insertBody (c : Cfg κ ε) (s : St ε) (v : ε) : Res (St ε × Except Err (It × Bool)) := match index c s (c.key v) with
  | .error u => .error u
  | .ok b => match bucket s b with
    | .error u => .error u
    | .ok l => match search s (fun w => c.eq (c.key w) (c.key v)) .before l with
      | .error u => .error u
      | .ok (_, some _) => .ok (s, .ok (endIt s, false))
      | .ok (p, none) => match add s b p v with
        | .error u => .error u
        | .ok (s, .error e) => .ok (s, .error e)
        | .ok (s, .ok it) => .ok (s, .ok (it, true))
/-- `unordered_map::insert`, l.998-1062 -/
def insertMap (c : Cfg κ ε) (s : St ε) (v : ε) : Res (St ε × Except Err (It × Bool)) :=
  if full s then .ok (s, .error .full) else insertBody c s v
/-- `unordered_set::insert`, unordered_set.h l.679-763: a full set still finds what it has -/
def insertSet (c : Cfg κ ε) (s : St ε) (v : ε) : Res (St ε × Except Err (It × Bool)) :=
  if full s then (match find c s (c.key v) with
    | .error u => .error u
    | .ok it => if eqIt it (endIt s) then .ok (s, .error .full) else .ok (s, .ok (it, false)))
  else insertBody c s v
/-- `unordered_multimap::insert`, unordered_multimap.h l.687-750: the new node goes in front of the first equal key, or to the end of the bucket -/
def insertMulti (c : Cfg κ ε) (s : St ε) (v : ε) : Res (St ε × Except Err It) :=
  if full s then .ok (s, .error .full) else match index c s (c.key v) with
  | .error u => .error u
  | .ok b => match bucket s b with
    | .error u => .error u
    | .ok l => match search s (fun w => c.eq (c.key w) (c.key v)) .before l with
      | .error u => .error u
      | .ok (p, _) => add s b p v

/-- `operator[]` followed by an assignment through the reference (`f` is the identity when there is none), l.737-770: a new node, with a value-initialised mapped value `d`, goes to the front of the bucket. -/
def subscript (c : Cfg κ ε) (s : St ε) (k : κ) (d : ε) (f : ε → ε) : Res (St ε × Except Err ε) := match index c s k with
  | .error u => .error u
  | .ok b => match bucket s b with
    | .error u => .error u
    | .ok l => match search s (fun v => c.eq k (c.key v)) .before l with
      | .error u => .error u
      | .ok (_, some i) => (match read s i with
        | .error u => .error u
        | .ok v => .ok ({ s with val := upd s.val i (.live (f v)) }, .ok v))
      | .ok (_, none) => match add s b .before d with
        | .error u => .error u
        | .ok (s, .error e) => .ok (s, .error e)
        | .ok (s, .ok _) => match headLI (s.chain b) with
          | .node i => (match read s i with
            | .error u => .error u
            | .ok v => .ok ({ s with val := upd s.val i (.live (f v)) }, .ok v))
          | _ => .error .nullDeref

/-- the destructor and `pnodepool->release`, l.1855-1856 -/
def destroy (s : St ε) (p : Nat) : Res (St ε) :=
  if p ∈ s.free then .error .deadAccess else match s.val p with
    | .raw => .error .deadAccess
    | _ => .ok { s with val := upd s.val p .raw, free := p :: s.free }
/-- `delete_data_node`, l.1852-1861 -/
def deleteNode (s : St ε) (b : Nat) (prev : LI) (i : Nat) : Res (St ε × LI) := match eraseAfter (s.chain b) prev with
  | .error u => .error u
  | .ok (l, nx) => match destroy { s with chain := upd s.chain b l } i with
    | .error u => .error u
    | .ok s => match adjustEra s b with
      | .error u => .error u
      | .ok s => .ok (s, nx)

/-- `erase(key)` of the map and the set, l.1166-1191 -/
def eraseKey (c : Cfg κ ε) (s : St ε) (k : κ) : Res (St ε × Nat) := match index c s k with
  | .error u => .error u
  | .ok b => match bucket s b with
    | .error u => .error u
    | .ok l => match search s (fun v => c.eq (c.key v) k) .before l with
      | .error u => .error u
      | .ok (_, none) => .ok (s, 0)
      | .ok (p, some i) => match deleteNode s b p i with
        | .error u => .error u
        | .ok (s, _) => .ok (s, 1)
/-- the loop of `erase(key)` of the multi containers, unordered_multimap.h l.880-894; `rest` is the part of the bucket from `icurrent` on -/
def eraseAll (c : Cfg κ ε) (b : Nat) (k : κ) : List Nat → St ε → LI → Nat → Res (St ε × Nat)
  | [], s, _, n => .ok (s, n)
  | i :: r, s, prev, n => match read s i with
    | .error u => .error u
    | .ok v => if c.eq (c.key v) k then (match deleteNode s b prev i with
      | .error u => .error u
      | .ok (s, _) => match prev.step (s.chain b) with
        | .error u => .error u
        | .ok p => if p = headLI r then eraseAll c b k r s prev (n + 1) else .error .diverge)
      else eraseAll c b k r s (.node i) n
/-- `erase(key)` of the multi containers, unordered_multimap.h l.870-897 -/
def eraseMulti (c : Cfg κ ε) (s : St ε) (k : κ) : Res (St ε × Nat) := match index c s k with
  | .error u => .error u
  | .ok b => match bucket s b with
    | .error u => .error u
    | .ok l => eraseAll c b k l s .before 0

/-- `while (iprevious->etl_next != &*icurrent) ++iprevious;`, l.1243-1246 -/
def previous (target : LI) (prev : LI) : List Nat → Res LI
  | [] => if target = .term then .ok prev else .error .nullDeref
  | i :: r => if target = .node i then .ok prev else previous target (.node i) r
/-- `erase(const_iterator)`, l.1232-1251 -/
def eraseIt (s : St ε) (it : It) : Res (St ε × It) := match it.pos with
  | .node i => (match next s it with
    | .error u => .error u
    | .ok inext => match bucket s it.bkt with
      | .error u => .error u
      | .ok l => match previous it.pos .before l with
        | .error u => .error u
        | .ok p => match deleteNode s it.bkt p i with
          | .error u => .error u
          | .ok (s, _) => .ok (s, inext))
  | _ => .error .nullDeref

/-- the loop of `initialise` over one bucket, l.1734-1743 -/
def destroyAll (val : Nat → Cell ε) : List Nat → Res (Nat → Cell ε)
  | [] => .ok val
  | i :: r => match val i with
    | .raw => .error .deadAccess
    | _ => destroyAll (upd val i .raw) r
/-- the loop of `initialise` over the buckets, l.1727-1748 -/
def clearFrom (s : St ε) : Nat → Nat → Res (St ε)
  | 0, _ => .ok s
  | n + 1, b => match destroyAll s.val (s.chain b) with
    | .error u => .error u
    | .ok v => clearFrom { s with val := v, chain := upd s.chain b [] } n (b + 1)
/-- `clear`, `initialise`, l.1314-1317, l.1722-1756; `release_all` makes the pool a fresh one. -/
def clear (s : St ε) : Res (St ε) :=
  if empty s then .ok { s with first := 0, last := 0 }
  else match clearFrom s s.nb 0 with
    | .error u => .error u
    | .ok s => .ok { s with free := List.range s.cap, first := 0, last := 0 }

/-- the loop of `erase(first, last)`, l.1286-1306 -/
def eraseLoop (iend : LI) (pend : Nat) : Nat → St ε → Nat → LI → LI → Res (St ε)
  | 0, _, _, _, _ => .error .diverge
  | fuel + 1, s, b, prev, cur =>
    if cur = iend ∧ b = pend then .ok s else match cur with
    | .node i => (match deleteNode s b prev i with
      | .error u => .error u
      | .ok (s, cur) => if cur = iend ∧ b = pend then .ok s
        else if cur = .term then (match seek s (s.nb - (b + 1)) (b + 1) with
          | .error u => .error u
          | .ok b => eraseLoop iend pend fuel s b .before (headLI (s.chain b)))
        else eraseLoop iend pend fuel s b prev cur)
    | _ => .error .nullDeref
/-- `erase(first, last)`, l.1260-1309 -/
def eraseRange (s : St ε) (f l : It) : Res (St ε × It) := match beginIt s with
  | .error u => .error u
  | .ok b0 => if eqIt f b0 && eqIt l (endIt s) then (match clear s with
      | .error u => .error u
      | .ok s => .ok (s, endIt s))
    else match bucket s f.bkt with
      | .error u => .error u
      | .ok c => match previous f.pos .before c with
        | .error u => .error u
        | .ok p => match eraseLoop l.pos l.bkt (s.cap + 1) s f.bkt p f.pos with
          | .error u => .error u
          | .ok s => match next s ⟨f.bkt, p⟩ with
            | .error u => .error u
            | .ok it => .ok (s, it)

/-- the loop of `equal_range` and of `count` of the multi containers, unordered_multimap.h l.1032-1052, l.1232-1248: `++l` while the key is equal -/
def equalEnd (c : Cfg κ ε) (s : St ε) (k : κ) : Nat → It → Nat → Res (It × Nat)
  | 0, _, _ => .error .diverge
  | fuel + 1, it, n => if eqIt it (endIt s) then .ok (it, n) else match deref s it with
    | .error u => .error u
    | .ok v => if c.eq k (c.key v) then (match next s it with
      | .error u => .error u
      | .ok it => equalEnd c s k fuel it (n + 1)) else .ok (it, n)
/-- `equal_range` of the multi containers and the length of the range, which is `count` (the first element is not compared again) -/
def equalRangeMulti (c : Cfg κ ε) (s : St ε) (k : κ) : Res (It × It × Nat) := match find c s k with
  | .error u => .error u
  | .ok f => if eqIt f (endIt s) then .ok (f, f, 0) else match next s f with
    | .error u => .error u
    | .ok l => match equalEnd c s k (s.cap + 1) l 1 with
      | .error u => .error u
      | .ok (l, n) => .ok (f, l, n)

/-- `assign(first, last)` and `insert(first, last)`, l.975-990, l.1151-1159: one `insert` after the other -/
def insertAll (ins : St ε → ε → Res (St ε × Except Err (It × Bool))) : List ε → St ε → Res (St ε × Option Err)
  | [], s => .ok (s, none)
  | v :: vs, s => match ins s v with
    | .error u => .error u
    | .ok (s, .error e) => .ok (s, some e)
    | .ok (s, .ok _) => insertAll ins vs s

/-- The elements in the order in which `for (it = begin(); it != end(); ++it)` meets them. -/
def walk (s : St ε) : Nat → It → Res (List ε)
  | 0, _ => .error .diverge
  | fuel + 1, it => if eqIt it (endIt s) then .ok [] else match deref s it with
    | .error u => .error u
    | .ok v => match next s it with
      | .error u => .error u
      | .ok it => match walk s fuel it with
        | .error u => .error u
        | .ok l => .ok (v :: l)
def contents (s : St ε) : Res (List ε) := match beginIt s with
  | .error u => .error u
  | .ok it => walk s (s.cap + 1) it
/-- `++` n times -/
def advance (s : St ε) : Nat → It → Res It
  | 0, it => .ok it
  | n + 1, it => match next s it with
    | .error u => .error u
    | .ok it => advance s n it

/-- What is left to iterate over from an iterator on. -/
def rest (s : St ε) (it : It) : Res (List ε) := walk s (s.cap + 1) it

end Etl.UMap
