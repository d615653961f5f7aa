import Verif.Common.Mem

/-!
# Model of `etl::deque` / `etl::ideque`

Source: `/repo/include/etl/deque.h`.  The elements live in a ring of `BUFFER_SIZE = MAX_SIZE + 1` slots (`Mem`: raw storage with object lifetimes).
An iterator is its physical `index`.  `check` = `ETL_CHECK_PUSH_POP`.
Simplifications: a failed `ETL_ASSERT` throws; copying/moving `T` does not throw; `T` is not trivially destructible (for trivial types
`initialise` l.2153 skips the destructor calls, which have no effect); values and ranges passed in live outside the deque;
`emplace(args...)` receives the value that `T(args...)` builds; debug counters are left out.
-/
namespace Etl.Deque

variable {α : Type}

/-! ## Iterators: physical indices -/

/-- `operator ++`, l.279-284. -/
def inc (bs i : Nat) : Nat := if i = bs - 1 then 0 else i + 1
/-- `operator --`, l.327-332. -/
def dec (bs i : Nat) : Nat := if i = 0 then bs - 1 else i - 1
/-- `operator +=` with an offset `≥ 0`, l.296-303. -/
def add (bs i off : Nat) : Nat := if off > 0 then (if i + off > bs - 1 then i + off - bs else i + off) else i
/-- `operator -=` with an offset `≥ 0` (an index below 0 gets `BUFFER_SIZE` added), l.312-318. -/
def sub (bs i off : Nat) : Nat := if off > 0 then (if i < off then i + bs - off else i - off) else i
/-- Number of `++` steps from `i` to `j`: how often a loop `while (first != last) ++first` runs. -/
def steps (bs i j : Nat) : Nat := if j < i then j + bs - i else j - i

/-! ## Range algorithms over ring iterators (`algorithm.h` l.291-330, l.572, l.197; see `Mem`) -/

def moveUpR (m : Mem α) (src n dst : Nat) : Res (Mem α) :=
  match n with
  | 0 => .ok m
  | n + 1 => do
    let m ← m.moveAssign src dst
    moveUpR m (inc m.cap src) n (inc m.cap dst)

def moveDownR (m : Mem α) (n last dlast : Nat) : Res (Mem α) :=
  match n with
  | 0 => .ok m
  | n + 1 => do
    let m ← m.moveAssign (dec m.cap last) (dec m.cap dlast)
    moveDownR m n (dec m.cap last) (dec m.cap dlast)

def fillNR (m : Mem α) (i n : Nat) (v : α) : Res (Mem α) :=
  match n with
  | 0 => .ok m
  | n + 1 => do
    let m ← m.assign i v
    fillNR m (inc m.cap i) n v

def copyToR (m : Mem α) (i : Nat) : List α → Res (Mem α)
  | [] => .ok m
  | v :: vs => do
    let m ← m.assign i v
    copyToR m (inc m.cap i) vs

/-! ## The container -/

structure St (α : Type) where
  mem : Mem α      -- mem.cap = BUFFER_SIZE
  b : Nat          -- _begin
  e : Nat          -- _end
  n : Nat          -- current_size
  check : Bool

def bs (s : St α) : Nat := s.mem.cap
/-- `CAPACITY = MAX_SIZE`, `BUFFER_SIZE = MAX_SIZE + 1`, l.2387. -/
def capacity (s : St α) : Nat := s.mem.cap - 1

inductive Err where
  | full | empty | outOfBounds
  deriving DecidableEq, Repr

/-- Constructor, l.2400-2404. -/
def init (cap : Nat) (sms check : Bool) : St α := { mem := Mem.fresh (cap + 1) sms, b := 0, e := 0, n := 0, check }

/-- `size` l.144, `empty` l.153, `full` l.162, `available` l.189. -/
def size (s : St α) : Nat := s.n
def empty (s : St α) : Bool := s.n == 0
def full (s : St α) : Bool := s.n == capacity s
def available (s : St α) : Nat := capacity s - s.n

/-- `distance(other)`: distance from `_begin`, l.2338-2353. -/
def dist (s : St α) (i : Nat) : Nat := if i < s.b then bs s + i - s.b else i - s.b
/-- `distance(first, last)`, l.2326-2333; `operator -` l.2089-2100. -/
def dist2 (s : St α) (i j : Nat) : Int := (dist s j : Int) - (dist s i : Int)
/-- `operator <`, l.409-421. -/
def lt (s : St α) (i j : Nat) : Bool := decide (dist s i < dist s j)

/-- `create_element_front(value)`, l.2244-2251. -/
def createFront (s : St α) (v : α) : Res (St α) := do
  let b := dec (bs s) s.b
  let m ← s.mem.construct b v
  .ok { s with mem := m, b := b, n := s.n + 1 }

/-- `create_element_back(value)`, l.2256-2263. -/
def createBack (s : St α) (v : α) : Res (St α) := do
  let m ← s.mem.construct s.e v
  .ok { s with mem := m, e := inc (bs s) s.e, n := s.n + 1 }

/-- `destroy_element_front`, l.2302-2308. -/
def destroyFront (s : St α) : Res (St α) := do
  let m ← s.mem.destroy s.b
  .ok { s with mem := m, n := s.n - 1, b := inc (bs s) s.b }

/-- `destroy_element_back`, l.2313-2319. -/
def destroyBack (s : St α) : Res (St α) := do
  let e := dec (bs s) s.e
  let m ← s.mem.destroy e
  .ok { s with mem := m, n := s.n - 1, e := e }

/-- The loop `for (i < n) f()` over the deque. -/
def rep (f : St α → Res (St α)) (s : St α) : Nat → Res (St α)
  | 0 => .ok s
  | k + 1 => do
    let s ← f s
    rep f s k

/-- The loop of `create_element_front(n, from)` over a source outside the deque, l.2200-2223 (`_begin -= n` first, then ascending). -/
def constructAll (m : Mem α) (i : Nat) : List α → Res (Mem α)
  | [] => .ok m
  | v :: vs => do
    let m ← m.construct i v
    constructAll m (inc m.cap i) vs

def createFrontL (s : St α) (vs : List α) : Res (St α) :=
  if vs.length = 0 then .ok s
  else do
    let b := sub (bs s) s.b vs.length
    let m ← constructAll s.mem b vs
    .ok { s with mem := m, b := b, n := s.n + vs.length }

/-- The same loop when `from` is an iterator of the deque itself, l.2200-2223. -/
def constructFrom (m : Mem α) (i from_ : Nat) : Nat → Res (Mem α)
  | 0 => .ok m
  | k + 1 => do
    let v ← m.read from_
    let m ← m.construct i v
    constructFrom m (inc m.cap i) (inc m.cap from_) k

def createFrontFrom (s : St α) (k from_ : Nat) : Res (St α) :=
  if k = 0 then .ok s
  else do
    let b := sub (bs s) s.b k
    let m ← constructFrom s.mem b from_ k
    .ok { s with mem := m, b := b, n := s.n + k }

/-- `for (...) { create_element_back(*item); ++item; }`, source outside the deque, l.1561-1565, l.1619-1624. -/
def createBackL (s : St α) : List α → Res (St α)
  | [] => .ok s
  | v :: vs => do
    let s ← createBack s v
    createBackL s vs

/-- `for (...) { create_element_back(*from); ++from; }`, `from` in the deque, l.1519-1523, l.1629-1633. -/
def createBackFrom (s : St α) (from_ : Nat) : Nat → Res (St α)
  | 0 => .ok s
  | k + 1 => do
    let v ← s.mem.read from_
    let s ← createBack s v
    createBackFrom s (inc (bs s) from_) k

/-- `for (...) { create_element_front(*from); --from; }`, l.1482-1486. -/
def createFrontDown (s : St α) (from_ : Nat) : Nat → Res (St α)
  | 0 => .ok s
  | k + 1 => do
    let v ← s.mem.read from_
    let s ← createFront s v
    createFrontDown s (dec (bs s) from_) k

/-- `initialise`, l.2151-2170; `clear`, l.988-991; destructor l.2409. -/
def initialise (s : St α) : Res (St α) := do
  let s ← rep destroyBack s s.n
  .ok { s with b := 0, e := 0 }

/-- Outcome of a call: nothing, the error thrown, or the iterator returned (here as distance from `begin()`). -/
inductive Out where
  | ok | err (e : Err) | at (i : Nat)
  deriving DecidableEq, Repr

def clear (s : St α) : Res (St α × Out) := do .ok (← initialise s, .ok)

/-- `push_back`, l.1758-1781, `emplace_back`, l.1787-1800. -/
def pushBack (s : St α) (v : α) : Res (St α × Out) :=
  if s.check && full s then .ok (s, .err .full) else do .ok (← createBack s v, .ok)
/-- `push_front`, l.1908-1931, `emplace_front`, l.1937-1949. -/
def pushFront (s : St α) (v : α) : Res (St α × Out) :=
  if s.check && full s then .ok (s, .err .full) else do .ok (← createFront s v, .ok)
/-- `pop_back`, l.1895-1901. -/
def popBack (s : St α) : Res (St α × Out) :=
  if s.check && empty s then .ok (s, .err .empty) else do .ok (← destroyBack s, .ok)
/-- `pop_front`, l.2044-2050. -/
def popFront (s : St α) : Res (St α × Out) :=
  if s.check && empty s then .ok (s, .err .empty) else do .ok (← destroyFront s, .ok)

/-- The `push_back` loop of `assign(first, last)`, l.765-769. -/
def pushAll (s : St α) : List α → Res (St α × Out)
  | [] => .ok (s, .ok)
  | v :: vs => do
    let (s, o) ← pushBack s v
    match o with
    | .ok => pushAll s vs
    | o => .ok (s, o)

/-- `assign(first, last)`, l.759-770; copy constructor and assignment l.2414, l.2105. -/
def assignRange (s : St α) (vs : List α) : Res (St α × Out) := do
  let s ← initialise s
  pushAll s vs

/-- `assign(n, value)`, l.778-789. -/
def assignN (s : St α) (k : Nat) (v : α) : Res (St α × Out) :=
  if k ≤ capacity s then do
    let s ← initialise s
    .ok (← rep (createBack · v) s k, .ok)
  else .ok (s, .err .full)

/-- `resize`, l.2058-2081. -/
def resize (s : St α) (k : Nat) (v : α) : Res (St α × Out) :=
  if k ≤ capacity s then
    if k < s.n then do .ok (← rep destroyBack s (s.n - k), .ok)
    else if k > s.n then do .ok (← rep (createBack · v) s (k - s.n), .ok)
    else .ok (s, .ok)
  else .ok (s, .err .full)

/-- Opening a gap for one element on the front side: `create_element_front(*_begin); move(_begin + 1, position, _begin); --position`, l.1021-1027. -/
def gapFront (s : St α) (p : Nat) : Res (St α × Nat) := do
  let v ← s.mem.read s.b
  let s ← createFront s v
  let src := add (bs s) s.b 1
  let m ← moveUpR s.mem src (steps (bs s) src p) s.b
  .ok ({ s with mem := m }, dec (bs s) p)

/-- ... on the back side: `create_element_back(*(_end - 1)); move_backward(position, _end - 2, _end - 1)`, l.1032-1038. -/
def gapBack (s : St α) (p : Nat) : Res (St α × Nat) := do
  let v ← s.mem.read (sub (bs s) s.e 1)
  let s ← createBack s v
  let last := sub (bs s) s.e 2
  let m ← moveDownR s.mem (steps (bs s) p last) last (sub (bs s) s.e 1)
  .ok ({ s with mem := m }, p)

/-- The same with `etl::move(*_begin)`, l.1075-1078. -/
def gapFrontMove (s : St α) (p : Nat) : Res (St α × Nat) := do
  let (v, m) ← s.mem.take s.b
  let s ← createFront { s with mem := m } v
  let src := add (bs s) s.b 1
  let m ← moveUpR s.mem src (steps (bs s) src p) s.b
  .ok ({ s with mem := m }, dec (bs s) p)

/-- The same with `etl::move(*(_end - 1))`, l.1086-1089. -/
def gapBackMove (s : St α) (p : Nat) : Res (St α × Nat) := do
  let (v, m) ← s.mem.take (sub (bs s) s.e 1)
  let s ← createBack { s with mem := m } v
  let last := sub (bs s) s.e 2
  let m ← moveDownR s.mem (steps (bs s) p last) last (sub (bs s) s.e 1)
  .ok ({ s with mem := m }, p)

/-- "Are we closer to the front?", l.1019. -/
def closer (s : St α) (p : Nat) : Bool := decide (dist2 s s.b p < dist2 s p (sub (bs s) s.e 1))

/-- `insert(position, const T&)`, l.999-1043. -/
def insert (s : St α) (p : Nat) (v : α) : Res (St α × Out) :=
  if full s then .ok (s, .err .full)
  else if p = s.b then do
    let s ← createFront s v
    .ok (s, .at (dist s s.b))
  else if p = s.e then do
    let s ← createBack s v
    .ok (s, .at (dist s (sub (bs s) s.e 1)))
  else do
    let (s, q) ← if closer s p then gapFront s p else gapBack s p
    let m ← s.mem.assign q v
    .ok ({ s with mem := m }, .at (dist s q))

/-- `insert(position, T&&)`, l.1052-1096. -/
def insertMove (s : St α) (p : Nat) (v : α) : Res (St α × Out) :=
  if full s then .ok (s, .err .full)
  else if p = s.b then do
    let s ← createFront s v
    .ok (s, .at (dist s s.b))
  else if p = s.e then do
    let s ← createBack s v
    .ok (s, .at (dist s (sub (bs s) s.e 1)))
  else do
    let (s, q) ← if closer s p then gapFrontMove s p else gapBackMove s p
    let m ← s.mem.assign q v
    .ok ({ s with mem := m }, .at (dist s q))

/-- `emplace(position, args...)`, l.1105-1161. -/
def emplace (s : St α) (p : Nat) (v : α) : Res (St α × Out) :=
  if full s then .ok (s, .err .full)
  else if p = s.b then do
    let s ← createFront s v
    .ok (s, .at (dist s s.b))
  else if p = s.e then do
    let s ← createBack s v
    .ok (s, .at (dist s (sub (bs s) s.e 1)))
  else do
    let (s, q) ← if closer s p then gapFront s p else gapBack s p
    let m ← s.mem.destroy q
    let m ← m.construct q v
    .ok ({ s with mem := m }, .at (dist s q))

/-- `insert(position, n, value)`: middle, closer to the front, l.1463-1496. -/
def insertNFront (s : St α) (p k : Nat) (v : α) : Res (St α × Out) := do
  let nMove := (dist2 s s.b p).toNat
  let nCreateCopy := min k nMove
  let nCreateNew := if k > nCreateCopy then k - nCreateCopy else 0
  let nCopyNew := if k > nCreateNew then k - nCreateNew else 0
  let nCopyOld := nMove - nCreateCopy
  let from_ := sub (bs s) (add (bs s) s.b nCreateCopy) 1
  -- Create new.
  let s ← rep (createFront · v) s nCreateNew
  -- Create copy.
  let s ← createFrontDown s from_ nCreateCopy
  -- Move old.
  let from_ := sub (bs s) p nCopyOld
  let to := add (bs s) s.b nCreateCopy
  let m ← moveUpR s.mem from_ (steps (bs s) from_ (add (bs s) from_ nCopyOld)) to
  -- Copy new.
  let m ← fillNR m (sub (bs s) p nCreateCopy) nCopyNew v
  let s := { s with mem := m }
  .ok (s, .at (dist s (add (bs s) s.b nMove)))

/-- `insert(position, n, value)`: middle, closer to the back, l.1497-1530. -/
def insertNBack (s : St α) (p k : Nat) (v : α) : Res (St α × Out) := do
  let nMove := (dist2 s p s.e).toNat
  let nCreateCopy := min k nMove
  let nCreateNew := if k > nCreateCopy then k - nCreateCopy else 0
  let nCopyNew := if k > nCreateNew then k - nCreateNew else 0
  let nCopyOld := nMove - nCreateCopy
  -- Create new.
  let s ← rep (createBack · v) s nCreateNew
  -- Create copy.
  let s ← createBackFrom s (add (bs s) p nCopyOld) nCreateCopy
  -- Move old.
  let last := add (bs s) p nCopyOld
  let m ← moveDownR s.mem (steps (bs s) p last) last (add (bs s) (add (bs s) p k) nCopyOld)
  -- Copy new.
  let m ← fillNR m p nCopyNew v
  let s := { s with mem := m }
  .ok (s, .at (dist s p))

/-- `insert(position, n, value)`, l.1435-1534. -/
def insertN (s : St α) (p k : Nat) (v : α) : Res (St α × Out) :=
  if s.n + k ≤ capacity s then
    if p = s.b then do
      let s ← rep (createFront · v) s k
      .ok (s, .at (dist s s.b))
    else if p = s.e then do
      let s ← rep (createBack · v) s k
      .ok (s, .at (dist s (sub (bs s) s.e k)))
    else if dist2 s s.b p ≤ (s.n / 2 : Nat) then insertNFront s p k v
    else insertNBack s p k v
  else .ok (s, .err .full)

/-- `insert(position, first, last)`: middle, closer to the front, l.1573-1605. -/
def insertRangeFront (s : St α) (p : Nat) (vs : List α) : Res (St α × Out) := do
  let k := vs.length
  let nMove := (dist2 s s.b p).toNat
  let nCreateCopy := min k nMove
  let nCreateNew := if k > nCreateCopy then k - nCreateCopy else 0
  let nCopyNew := if k > nCreateNew then k - nCreateNew else 0
  let nCopyOld := nMove - nCreateCopy
  -- Create new.
  let s ← createFrontL s (vs.take nCreateNew)
  -- Create copy.
  let s ← createFrontFrom s nCreateCopy (add (bs s) s.b nCreateNew)
  -- Move old.
  let from_ := sub (bs s) p nCopyOld
  let to := add (bs s) s.b nCreateCopy
  let m ← moveUpR s.mem from_ (steps (bs s) from_ (add (bs s) from_ nCopyOld)) to
  -- Copy new.
  let m ← copyToR m (sub (bs s) p nCreateCopy) ((vs.drop nCreateNew).take nCopyNew)
  let s := { s with mem := m }
  .ok (s, .at (dist s (add (bs s) s.b nMove)))

/-- `insert(position, first, last)`: middle, closer to the back, l.1606-1640. -/
def insertRangeBack (s : St α) (p : Nat) (vs : List α) : Res (St α × Out) := do
  let k := vs.length
  let nMove := (dist2 s p s.e).toNat
  let nCreateCopy := min k nMove
  let nCreateNew := if k > nCreateCopy then k - nCreateCopy else 0
  let nCopyNew := if k > nCreateNew then k - nCreateNew else 0
  let nCopyOld := nMove - nCreateCopy
  -- Create new.
  let s ← createBackL s ((vs.drop (k - nCreateNew)).take nCreateNew)
  -- Create copy.
  let s ← createBackFrom s (add (bs s) p nCopyOld) nCreateCopy
  -- Move old.
  let last := add (bs s) p nCopyOld
  let m ← moveDownR s.mem (steps (bs s) p last) last (add (bs s) (add (bs s) p k) nCopyOld)
  -- Copy new.
  let m ← copyToR m p (vs.take nCopyNew)
  let s := { s with mem := m }
  .ok (s, .at (dist s p))

/-- `insert(position, first, last)`, l.1544-1643. -/
def insertRange (s : St α) (p : Nat) (vs : List α) : Res (St α × Out) :=
  let k := vs.length
  if s.n + k ≤ capacity s then
    if p = s.b then do
      let s ← createFrontL s vs
      .ok (s, .at (dist s s.b))
    else if p = s.e then do
      let s ← createBackL s vs
      .ok (s, .at (dist s (sub (bs s) s.e k)))
    else if dist2 s s.b p < (s.n / 2 : Nat) then insertRangeFront s p vs
    else insertRangeBack s p vs
  else .ok (s, .err .full)

/-- `erase(position)`, l.1650-1684. -/
def erase (s : St α) (p : Nat) : Res (St α × Out) :=
  if dist s p ≤ s.n then
    if p = s.b then do
      let s ← destroyFront s
      .ok (s, .at (dist s s.b))
    else if p = sub (bs s) s.e 1 then do
      let s ← destroyBack s
      .ok (s, .at (dist s s.e))
    else if dist2 s s.b p < (s.n / 2 : Nat) then do
      let m ← moveDownR s.mem (steps (bs s) s.b p) p (add (bs s) p 1)
      let s ← destroyFront { s with mem := m }
      .ok (s, .at (dist s (inc (bs s) p)))
    else do
      let src := add (bs s) p 1
      let m ← moveUpR s.mem src (steps (bs s) src s.e) p
      let s ← destroyBack { s with mem := m }
      .ok (s, .at (dist s p))
  else .ok (s, .err .outOfBounds)

/-- `erase(first, last)`, l.1692-1751. -/
def eraseRange (s : St α) (p q : Nat) : Res (St α × Out) :=
  if dist s p ≤ s.n ∧ dist s q ≤ s.n then
    let length := (dist2 s p q).toNat
    if p = s.b then do
      let s ← rep destroyFront s length
      .ok (s, .at (dist s s.b))
    else if p = sub (bs s) s.e length then do
      let s ← rep destroyBack s length
      .ok (s, .at (dist s s.e))
    else if dist2 s s.b p < (s.n / 2 : Nat) then do
      let m ← moveDownR s.mem (steps (bs s) s.b p) p (add (bs s) p length)
      let s ← rep destroyFront { s with mem := m } length
      .ok (s, .at (dist s (add (bs s) p length)))
    else do
      let src := add (bs s) p length
      let m ← moveUpR s.mem src (steps (bs s) src s.e) p
      let s ← rep destroyBack { s with mem := m } length
      .ok (s, .at (dist s p))
  else .ok (s, .err .outOfBounds)

/-- `operator []`, l.825-843. -/
def index (s : St α) (i : Nat) : Res α := s.mem.read (add (bs s) s.b i)
/-- `at`, l.796-818. -/
def atIdx (s : St α) (i : Nat) : Res (Except Err α) :=
  if i < s.n then do .ok (.ok (← index s i)) else .ok (.error .outOfBounds)
/-- `front` l.849, `back` l.867. -/
def front (s : St α) : Res α := s.mem.read s.b
def back (s : St α) : Res α := s.mem.read (sub (bs s) s.e 1)

/-- Iterating with `++` from `i` until `end()`; `fuel` bounds the number of steps (a longer walk is reported as divergence). -/
def walk (s : St α) (i : Nat) : Nat → Res (List α)
  | 0 => .error .diverge
  | k + 1 => if i = s.e then .ok [] else do
    let v ← s.mem.read i
    let vs ← walk s (inc (bs s) i) k
    .ok (v :: vs)
def contents (s : St α) : Res (List α) := walk s s.b (bs s)

/-- Calls of the public interface.  Iterator arguments are given as `begin() + i`. -/
inductive Op (α : Type) where
  | assignRange (vs : List α) | assignN (k : Nat) (v : α) | clear | resize (k : Nat) (v : α)
  | pushBack (v : α) | pushFront (v : α) | popBack | popFront
  | insert (i : Nat) (v : α) | insertMove (i : Nat) (v : α) | emplace (i : Nat) (v : α)
  | insertN (i k : Nat) (v : α) | insertRange (i : Nat) (vs : List α) | erase (i : Nat) | eraseRange (i j : Nat)

def step (s : St α) : Op α → Res (St α × Out)
  | .assignRange vs => assignRange s vs
  | .assignN k v => assignN s k v
  | .clear => clear s
  | .resize k v => resize s k v
  | .pushBack v => pushBack s v
  | .pushFront v => pushFront s v
  | .popBack => popBack s
  | .popFront => popFront s
  | .insert i v => insert s (add (bs s) s.b i) v
  | .insertMove i v => insertMove s (add (bs s) s.b i) v
  | .emplace i v => emplace s (add (bs s) s.b i) v
  | .insertN i k v => insertN s (add (bs s) s.b i) k v
  | .insertRange i vs => insertRange s (add (bs s) s.b i) vs
  | .erase i => erase s (add (bs s) s.b i)
  | .eraseRange i j => eraseRange s (add (bs s) s.b i) (add (bs s) s.b j)

def run (s : St α) : List (Op α) → Res (St α × List Out)
  | [] => .ok (s, [])
  | o :: os => do
    let (s, e) ← step s o
    let (s, es) ← run s os
    .ok (s, e :: es)

end Etl.Deque
