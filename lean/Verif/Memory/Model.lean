import Verif.Common.Res

/-!
# Model of memory.h: unique_ptr, and the algorithms on uninitialised memory

Source: `/repo/include/etl/memory.h`.
-/
namespace Etl.Memory

/-! ## unique_ptr -/

/-- The unique_ptr objects by number (`none`: not alive), each with its pointer and its deleter, l.1506-1507; and the calls of the deleters so far. -/
structure P (D : Type) where
  ptr : Nat → Option (Option Nat × D)
  log : List (Nat × D)

variable {D : Type}

def obj (s : P D) (i : Nat) : Res (Option Nat × D) := match s.ptr i with
  | none => .error .deadAccess
  | some x => .ok x

/-- `if (p != nullptr) deleter(p)`. -/
def del (s : P D) (p : Option Nat) (d : D) : P D := match p with
  | none => s
  | some a => { s with log := (a, d) :: s.log }

/-- The constructors from a pointer and a deleter, l.1322-1330, l.1356-1370 (a default constructed deleter is `d` as well). -/
def ctor (s : P D) (i : Nat) (p : Option Nat) (d : D) : Res (P D) := match s.ptr i with
  | some _ => .error .constructLive
  | none => .ok { s with ptr := upd s.ptr i (some (p, d)) }

/-- `release`, l.1407-1413. -/
def release (s : P D) (i : Nat) : Res (P D × Option Nat) := do
  let (value, d) ← obj s i
  .ok ({ s with ptr := upd s.ptr i (some (none, d)) }, value)

/-- The move constructors, l.1335-1342, l.1372-1378.  The deleter moved from keeps its value. -/
def moveCtor (s : P D) (i j : Nat) : Res (P D) := do
  let (_, d) ← obj s j
  let (s, p) ← release s j
  ctor s i p d

/-- `reset(p_)`, l.1416-1429. -/
def reset (s : P D) (i : Nat) (p' : Option Nat) : Res (P D) := do
  let (p, d) ← obj s i
  if p' = none ∨ p' ≠ p then
    let value := p
    let s := { s with ptr := upd s.ptr i (some (p', d)) }
    .ok (del s value d)
  else .ok s

/-- `reset(p_)` of the array version, l.1622-1634. -/
def resetArray (s : P D) (i : Nat) (p' : Option Nat) : Res (P D) := do
  let (p, d) ← obj s i
  if p' ≠ p then
    let value := p
    let s := { s with ptr := upd s.ptr i (some (p', d)) }
    .ok (del s value d)
  else .ok s

/-- `swap`, l.1432-1437: the deleters stay. -/
def swap (s : P D) (i j : Nat) : Res (P D) := do
  let (p, _) ← obj s i
  let (q, _) ← obj s j
  let (_, d) ← obj s i
  let s := { s with ptr := upd s.ptr i (some (q, d)) }
  let (_, e) ← obj s j
  .ok { s with ptr := upd s.ptr j (some (p, e)) }

/-- `operator =(nullptr)`, l.1446-1454. -/
def assignNull (s : P D) (i : Nat) : Res (P D) := do
  let (p, _) ← obj s i
  if p ≠ none then reset s i none else .ok s

/-- `operator =(unique_ptr&&)`, l.1458-1467. -/
def moveAssign (s : P D) (i j : Nat) : Res (P D) :=
  if j ≠ i then do
    let (s, p) ← release s j
    let s ← reset s i p
    let (_, d) ← obj s j
    let (q, _) ← obj s i
    .ok { s with ptr := upd s.ptr i (some (q, d)) }
  else .ok s

/-- The destructor, l.1382-1388. -/
def dtor (s : P D) (i : Nat) : Res (P D) := do
  let (p, d) ← obj s i
  .ok (del { s with ptr := upd s.ptr i none } p d)

/-! ## Uninitialised memory

`m a`: the object at `a`, `none`: raw memory.  `trivial`: the version for trivially constructible types, which assigns to the raw memory.  The versions with `count` are those with the debug counter. -/

variable {α : Type}
abbrev Mem (α : Type) := Nat → Option α

/-- Placement new. -/
def construct (m : Mem α) (a : Nat) (v : α) : Res (Mem α) := match m a with
  | none => .ok (upd m a (some v))
  | some _ => .error .constructLive
def readAt (m : Mem α) (a : Nat) : Res α := match m a with
  | none => .error .deadAccess
  | some v => .ok v

/-- An element of the loops of `uninitialized_fill`: assignment or placement new. -/
def put (trivial : Bool) (m : Mem α) (a : Nat) (v : α) : Res (Mem α) :=
  if trivial then .ok (upd m a (some v)) else construct m a v

/-- `uninitialized_fill`, l.114-141; `etl::fill` has the same loop. -/
def uninitFill (trivial : Bool) (v : α) : Nat → Mem α → Nat → Nat → Res (Mem α × Nat)
  | fuel, m, b, e =>
    if b = e then .ok (m, e)
    else match fuel with
      | 0 => .error .diverge
      | fuel + 1 => do uninitFill trivial v fuel (← put trivial m b v) (b + 1) e

/-- `uninitialized_fill_n`, l.210-214. -/
def uninitFillN (trivial : Bool) (v : α) (fuel : Nat) (m : Mem α) (b n : Nat) : Res (Mem α × Nat) := uninitFill trivial v fuel m b (b + n)

/-- `uninitialized_copy`, l.260-289 (`moved = none`), and `uninitialized_move`, l.408-437 (`moved x`: what is left of `x`); `etl::copy` and `etl::move` have the same loop. -/
def uninitCopy (trivial : Bool) (moved : Option (α → α)) : Nat → Mem α → Nat → Nat → Nat → Res (Mem α × Nat)
  | fuel, m, ib, ie, o =>
    if ib = ie then .ok (m, o)
    else match fuel with
      | 0 => .error .diverge
      | fuel + 1 => do
        let v ← readAt m ib
        let m ← put trivial m o v
        let m := match moved with | none => m | some f => upd m ib (some (f v))
        uninitCopy trivial moved fuel m (ib + 1) ie (o + 1)

/-- `uninitialized_default_construct`, l.667-692, and `uninitialized_value_construct`, l.845-871: `v` is the default value.  Value construction of a trivial type fills; default construction of one does nothing. -/
def uninitDefault (trivial : Bool) (v : α) (fuel : Nat) (m : Mem α) (b e : Nat) : Res (Mem α) :=
  if trivial then .ok m else do .ok (← uninitFill false v fuel m b e).1
def uninitValue (trivial : Bool) (v : α) (fuel : Nat) (m : Mem α) (b e : Nat) : Res (Mem α) := do .ok (← uninitFill trivial v fuel m b e).1

/-- `uninitialized_default_construct` with a counter, l.699-722.  For trivial types the counter is assigned, not increased. -/
def uninitDefaultCount (trivial : Bool) (v : α) (fuel : Nat) (m : Mem α) (b e : Nat) (count : Int) : Res (Mem α × Int) := do
  if trivial then .ok (m, (e - b : Int))
  else
    let count := count + (e - b)
    .ok (← uninitDefault false v fuel m b e, count)

/-- `uninitialized_fill` / `uninitialized_copy` / `uninitialized_move` / `uninitialized_value_construct` with a counter, l.149-177, l.296-323, l.444-471, l.879-885. -/
def uninitFillCount (trivial : Bool) (v : α) (fuel : Nat) (m : Mem α) (b e : Nat) (count : Int) : Res (Mem α × Nat × Int) := do
  let count := count + (e - b)
  let (m, r) ← uninitFill trivial v fuel m b e
  .ok (m, r, count)
def uninitCopyCount (trivial : Bool) (moved : Option (α → α)) (fuel : Nat) (m : Mem α) (ib ie o : Nat) (count : Int) : Res (Mem α × Nat × Int) := do
  let (m, r) ← uninitCopy trivial moved fuel m ib ie o
  .ok (m, r, count + (ie - ib))

/-- `destroy_at`, l.1028-1043.  For a trivially destructible type nothing happens: the storage may be used again at once, it counts as raw. -/
def destroyAt (m : Mem α) (a : Nat) : Res (Mem α) := match m a with
  | none => .error .deadAccess
  | some _ => .ok (upd m a none)

/-- `destroy`, l.1114-1124. -/
def destroy : Nat → Mem α → Nat → Nat → Res (Mem α)
  | fuel, m, b, e =>
    if b = e then .ok m
    else match fuel with
      | 0 => .error .diverge
      | fuel + 1 => do destroy fuel (← destroyAt m b) (b + 1) e

/-- `destroy` with a counter, l.1144-1157. -/
def destroyCount (fuel : Nat) (m : Mem α) (b e : Nat) (count : Int) : Res (Mem α × Int) := do
  let count := count - (e - b)
  .ok (← destroy fuel m b e, count)

/-- `destroy_n`, l.1204-1216. -/
def destroyN : Nat → Mem α → Nat → Res (Mem α × Nat)
  | 0, m, b => .ok (m, b)
  | n + 1, m, b => do destroyN n (← destroyAt m b) (b + 1)

/-- `memory_set`, l.2044-2050; `memory_clear`, l.1990-1996, is the same with 0. -/
def memorySet (v : Nat) : Nat → (Nat → Nat) → Nat → (Nat → Nat)
  | 0, m, _ => m
  | n + 1, m, p => memorySet v n (upd m p v) (p + 1)

/-- `memcmp` of the C library on bytes: the sign of the first difference. -/
def memcmp : List Nat → List Nat → Int
  | a :: as, b :: bs => if a < b then -1 else if b < a then 1 else memcmp as bs
  | _, _ => 0

/-- `mem_compare(sb, se, db)`, l.2357-2363: the bytes of the source and of the destination. -/
def memCompare (sb db : List Nat) : Int := memcmp db sb

end Etl.Memory
