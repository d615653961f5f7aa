import Verif.Common.Res

/-!
# Model of `etl::vector<T*, N>` / `etl::ivector<T*>`

Source: `/repo/include/etl/private/pvoidvector.h` (`pvoidvector`, which `ivector<T*>` of `/repo/include/etl/private/ivectorpointer.h` forwards every call to; the
specialisations of `/repo/include/etl/vector.h` l.1540-1720 only add constructors).

The buffer holds pointers, of type `α`; `null` is the null pointer.  Iterators are indices.  Pointers have no lifetimes to manage: every cell of the buffer may be
read and written at any time, what a cell holds before is arbitrary.  Accessing a cell outside the buffer is the error `outOfBounds`.
`check` = `ETL_CHECK_PUSH_POP`, `debug` = `ETL_IS_DEBUG_BUILD`.  `thr`: a failed check throws; otherwise `ETL_ASSERT_OR_RETURN` returns and `ETL_ASSERT` does nothing.
Simplification: ranges passed in are not part of the vector itself.
-/
namespace Etl.PVec

variable {α : Type}

structure St (α : Type) where
  buf : Nat → α
  cap : Nat
  n : Nat           -- p_end - p_buffer
  check : Bool
  debug : Bool
  thr : Bool

inductive Err where
  | full | empty | outOfBounds
  deriving DecidableEq, Repr

/-- Constructor, l.700-705. -/
def init (junk : Nat → α) (cap : Nat) (check debug thr : Bool) : St α := ⟨junk, cap, 0, check, debug, thr⟩

/-- `*p` -/
def rd (s : St α) (i : Nat) : Res α := if i < s.cap then .ok (s.buf i) else .error .outOfBounds

/-- `*p = v` -/
def wr (s : St α) (i : Nat) (v : α) : Res (St α) := if i < s.cap then .ok { s with buf := upd s.buf i v } else .error .outOfBounds

/-- `etl::copy` (algorithm.h l.197-207): `k` cells from `src` on to `dst` on, first cell first. -/
def copyFwd (s : St α) (src dst : Nat) : Nat → Res (St α)
  | 0 => .ok s
  | k + 1 => do
    let v ← rd s src
    let s ← wr s dst v
    copyFwd s (src + 1) (dst + 1) k

/-- `etl::copy_backward` (algorithm.h l.269-277): `k` cells ending before `srcEnd` to those ending before `dstEnd`, last cell first. -/
def copyBwd (s : St α) (srcEnd dstEnd : Nat) : Nat → Res (St α)
  | 0 => .ok s
  | k + 1 => do
    let v ← rd s (srcEnd - 1)
    let s ← wr s (dstEnd - 1) v
    copyBwd s (srcEnd - 1) (dstEnd - 1) k

/-- `etl::fill`, `etl::fill_n` (algorithm.h l.552-580): `k` cells from `dst` on. -/
def fillN (s : St α) (dst : Nat) (v : α) : Nat → Res (St α)
  | 0 => .ok s
  | k + 1 => do
    let s ← wr s dst v
    fillN s (dst + 1) v k

/-- `etl::copy` from outside the buffer. -/
def copyIn (s : St α) (dst : Nat) : List α → Res (St α)
  | [] => .ok s
  | v :: vs => do
    let s ← wr s dst v
    copyIn s (dst + 1) vs

/-- `size` l.663, `empty` l.672, `full` l.681, `available` l.690. -/
def size (s : St α) : Nat := s.n
def empty (s : St α) : Bool := s.n == 0
def full (s : St α) : Bool := s.n == s.cap
def available (s : St α) : Nat := s.cap - s.n

/-- `initialise`, l.710-713. -/
def initialise (s : St α) : St α := { s with n := 0 }

/-- `resize(new_size)`, l.186-191, and `uninitialized_resize`, l.219-224. -/
def resizeU (s : St α) (k : Nat) : Res (St α × Option Err) :=
  if k ≤ s.cap then .ok ({ s with n := k }, none) else .ok (s, some .full)

/-- `resize(new_size, value)`, l.200-213. -/
def resize (s : St α) (k : Nat) (v : α) : Res (St α × Option Err) :=
  if k ≤ s.cap then do
    let s ← if s.n < k then fillN s s.n v (k - s.n) else .ok s
    .ok ({ s with n := k }, none)
  else .ok (s, some .full)

/-- The loop of `assign(first, last)`, l.342-346: `*p_end++ = *first`. -/
def pushLoop (s : St α) : List α → Res (St α)
  | [] => .ok s
  | v :: vs => do
    let s ← wr s s.n v
    pushLoop { s with n := s.n + 1 } vs

/-- `assign(first, last)`, l.331-347 (iterators that are not pointers). -/
def assignRange (s : St α) (vs : List α) : Res (St α × Option Err) :=
  if s.debug && !(decide (vs.length ≤ s.cap)) then .ok (s, some .full)
  else do .ok (← pushLoop (initialise s) vs, none)

/-- `assign(first, last)`, l.356-371 (pointers). -/
def assignPtr (s : St α) (vs : List α) : Res (St α × Option Err) :=
  if s.debug && !(decide (vs.length ≤ s.cap)) then .ok (s, some .full)
  else do
    let s := initialise s
    let s ← copyIn s 0 vs
    .ok ({ s with n := vs.length }, none)

/-- `assign(n, value)`, l.379-386. -/
def assignN (s : St α) (k : Nat) (v : α) : Res (St α × Option Err) :=
  if k ≤ s.cap then do
    let s := initialise s
    let s ← fillN s 0 v k
    .ok ({ s with n := k }, none)
  else .ok (s, some .full)

/-- `clear`, l.391-394. -/
def clear (s : St α) : Res (St α × Option Err) := .ok (initialise s, none)

/-- `push_back`, l.401-407; `emplace_back`, l.414-420. -/
def pushBack (s : St α) (v : α) : Res (St α × Option Err) :=
  if s.check && (s.n == s.cap) then .ok (s, some .full)
  else do
    let s ← wr s s.n v
    .ok ({ s with n := s.n + 1 }, none)

/-- `pop_back`, l.426-432. -/
def popBack (s : St α) : Res (St α × Option Err) :=
  if s.check && !(decide (s.n > 0)) then .ok (s, some .empty)
  else if s.n = 0 then .error .outOfBounds   -- --p_end leaves the buffer
  else .ok ({ s with n := s.n - 1 }, none)

/-- The common part of `insert` and `emplace`, l.451-460, l.482-491, l.512-521. -/
def insertOne (s : St α) (p : Nat) (v : α) : Res (St α) :=
  if p ≠ s.n then do
    let s := { s with n := s.n + 1 }
    let s ← copyBwd s (s.n - 1) s.n (s.n - 1 - p)
    wr s p v
  else do
    let s ← wr s s.n v
    .ok { s with n := s.n + 1 }

/-- `insert(position, value)`, l.443-464: also guarded where a failed check does not throw. -/
def insert (s : St α) (p : Nat) (v : α) : Res (St α × Option Err) :=
  if s.n = s.cap then .ok (s, some .full)
  else do .ok (← insertOne s p v, none)

/-- `emplace(position, value)`, l.506-524, and `emplace(position)`, l.476-494, with the null pointer. -/
def emplace (s : St α) (p : Nat) (v : α) : Res (St α × Option Err) :=
  if s.n = s.cap then
    if s.thr then .ok (s, some .full) else do .ok (← insertOne s p v, some .full)
  else do .ok (← insertOne s p v, none)

/-- `insert(position, n, value)`, l.539-549. -/
def insertN (s : St α) (p k : Nat) (v : α) : Res (St α × Option Err) :=
  if s.n + k ≤ s.cap then do
    let s ← copyBwd s s.n (s.n + k) (s.n - p)
    let s ← fillN s p v k
    .ok ({ s with n := s.n + k }, none)
  else .ok (s, some .full)

/-- `insert(position, first, last)`, l.563-575. -/
def insertRange (s : St α) (p : Nat) (vs : List α) : Res (St α × Option Err) :=
  if s.n + vs.length ≤ s.cap then do
    let s ← copyBwd s s.n (s.n + vs.length) (s.n - p)
    let s ← copyIn s p vs
    .ok ({ s with n := s.n + vs.length }, none)
  else .ok (s, some .full)

/-- `erase(i_element)`, l.581-602. -/
def erase (s : St α) (p : Nat) : Res (St α × Option Err) := do
  let s ← copyFwd s (p + 1) p (s.n - (p + 1))
  if s.n = 0 then .error .outOfBounds else .ok ({ s with n := s.n - 1 }, none)

/-- `erase(first, last)`, l.612-624. -/
def eraseRange (s : St α) (a b : Nat) : Res (St α × Option Err) := do
  let s ← copyFwd s b a (s.n - b)
  if s.n < b - a then .error .outOfBounds else .ok ({ s with n := s.n - (b - a) }, none)

/-- Reading `rhs.data()[0 .. rhs.size())`. -/
def readN (s : St α) (i : Nat) : Nat → Res (List α)
  | 0 => .ok []
  | k + 1 => do
    let v ← rd s i
    let vs ← readN s (i + 1) k
    .ok (v :: vs)

/-- The contents, as iterating from `begin()` to `end()` shows them. -/
def contents (s : St α) : Res (List α) := readN s 0 s.n

/-- `operator=(const pvoidvector& rhs)`, l.629-639, `&rhs != this`: `resize` may refuse; if a failed check does not throw, the copy goes on. -/
def copyAssign (s rhs : St α) : Res (St α × Option Err) := do
  let s := initialise s
  match ← resizeU s rhs.n with
  | (s, some e) =>
    if s.thr then .ok (s, some e)
    else do
      let vs ← contents rhs
      .ok (← copyIn s 0 vs, some e)
  | (s, none) => do
    let vs ← contents rhs
    .ok (← copyIn s 0 vs, none)

/-- `operator=(pvoidvector&& rhs)`, l.645-656.  Also `rhs` afterwards. -/
def moveAssign (s rhs : St α) : Res (St α × St α × Option Err) := do
  let s := initialise s
  match ← resizeU s rhs.n with
  | (s, some e) =>
    if s.thr then .ok (s, rhs, some e)
    else do
      let vs ← contents rhs
      .ok (← copyIn s 0 vs, initialise rhs, some e)
  | (s, none) => do
    let vs ← contents rhs
    .ok (← copyIn s 0 vs, initialise rhs, none)

/-- `operator[]` l.231, `front` l.274, `back` l.292 (unchecked). -/
def index (s : St α) (i : Nat) : Res α := rd s i
def front (s : St α) : Res α := rd s 0
def back (s : St α) : Res α := if s.n = 0 then .error .outOfBounds else rd s (s.n - 1)
/-- `at`, l.252-256, with a check that throws. -/
def atIdx (s : St α) (i : Nat) : Res (Except Err α) :=
  if i < s.n then do .ok (.ok (← rd s i)) else .ok (.error .outOfBounds)
/-- A write through a reference or iterator to element `i`. -/
def setAt (s : St α) (i : Nat) (v : α) : Res (St α × Option Err) := do .ok (← wr s i v, none)

inductive Op (α : Type) where
  | resize (k : Nat) (v : α) | assignRange (vs : List α) | assignPtr (vs : List α) | assignN (k : Nat) (v : α) | clear
  | pushBack (v : α) | popBack | insert (p : Nat) (v : α) | emplace (p : Nat) (v : α)
  | insertN (p k : Nat) (v : α) | insertRange (p : Nat) (vs : List α) | erase (p : Nat) | eraseRange (a b : Nat) | setAt (i : Nat) (v : α)

def step (s : St α) : Op α → Res (St α × Option Err)
  | .resize k v => resize s k v
  | .assignRange vs => assignRange s vs
  | .assignPtr vs => assignPtr s vs
  | .assignN k v => assignN s k v
  | .clear => clear s
  | .pushBack v => pushBack s v
  | .popBack => popBack s
  | .insert p v => insert s p v
  | .emplace p v => emplace s p v
  | .insertN p k v => insertN s p k v
  | .insertRange p vs => insertRange s p vs
  | .erase p => erase s p
  | .eraseRange a b => eraseRange s a b
  | .setAt i v => setAt s i v

end Etl.PVec
