import Verif.Algo.Range

/-!
# Model of array.h: the calls that change an array

Source: `/repo/include/etl/array.h`; the loops `move`, `move_backward` and `fill` are those of `/repo/include/etl/algorithm.h`.

`_buffer` is a list, iterators are indices into it.  An access outside is an error.
-/
namespace Etl.Arr
open Etl.Rng

variable {α : Type}

/-- How the type of the elements moves: what is left of an object moved from, and what becomes of one moved to itself. -/
structure Ty (α : Type) where
  gone : α → α
  self : α → α

/-- `*(b + j) = etl::move(*(b + i))`. -/
def moveOne (t : Ty α) (a : List α) (i j : Nat) : Res (List α) := do
  let v ← rd a i
  if i = j then wr a i (t.self v)
  else
    let a ← wr a i (t.gone v)
    wr a j v

/-- `move`, algorithm.h:289-302: returns the end of the destination. -/
def move (t : Ty α) : Nat → List α → Nat → Nat → Nat → Res (List α × Nat)
  | fuel, a, sb, se, db =>
    if sb = se then .ok (a, db)
    else match fuel with
      | 0 => .error .diverge
      | fuel + 1 => do move t fuel (← moveOne t a sb db) (sb + 1) se (db + 1)

/-- `move_backward`, algorithm.h:320-330. -/
def moveBackward (t : Ty α) : Nat → List α → Nat → Nat → Nat → Res (List α × Nat)
  | fuel, a, sb, se, de =>
    if sb = se then .ok (a, de)
    else match fuel with
      | 0 => .error .diverge
      | fuel + 1 => match de with
        | 0 => .error .outOfBounds
        | de + 1 => match se with
          | 0 => .error .outOfBounds
          | se + 1 => do moveBackward t fuel (← moveOne t a se de) sb se de

/-- `fill`, algorithm.h:551-560. -/
def fillRange (v : α) : Nat → List α → Nat → Nat → Res (List α)
  | fuel, a, b, e =>
    if b = e then .ok a
    else match fuel with
      | 0 => .error .diverge
      | fuel + 1 => do fillRange v fuel (← wr a b v) (b + 1) e

/-- `copy_s` into `[p, end())`: both versions, algorithm.h:2252-2305. -/
def copySAt (random : Bool) (vs a : List α) (p : Nat) : Res (List α × Nat) :=
  if random then
    let d_size := a.length - p
    Algo.copyN (if vs.length < d_size then vs.length else d_size) vs a p
  else Algo.copyS id vs a p

/-- `fill`, l.374-377. -/
def fill (v : α) (a : List α) : Res (List α) := fillRange v a.length a 0 a.length

/-- `swap`, l.383-391, the loop from `i` on. -/
def swap : Nat → Nat → List α → List α → Res (List α × List α)
  | 0, _, a, b => .ok (a, b)
  | n + 1, i, a, b => do
    let x ← rd a i
    let y ← rd b i
    let a ← wr a i y
    let b ← wr b i x
    swap n (i + 1) a b

/-- `assign(first, last)`, l.400-404. -/
def assign (random : Bool) (vs a : List α) : Res (List α × Nat) := copySAt random vs a 0

/-- `assign(first, last, value)`, l.413-423. -/
def assignFill (random : Bool) (vs : List α) (v : α) (a : List α) : Res (List α × Nat) := do
  let (a, p) ← copySAt random vs a 0
  let a ← fillRange v a.length a p a.length
  .ok (a, p)

/-- The parameter `value`: a value from elsewhere, or a reference to an element of this array (`parameter_t` is a reference unless the type is small). -/
inductive Arg (α : Type) where
  | val (v : α)
  | elem (i : Nat)

def Arg.read (a : List α) : Arg α → Res α
  | .val v => .ok v
  | .elem i => rd a i

/-- `insert(position, value)`, l.440-448; `insert_at`, l.430-433. -/
def insert (t : Ty α) (a : List α) (p : Nat) (x : Arg α) : Res (List α × Nat) := do
  if a.length = 0 then .error .outOfBounds  -- `end() - 1`
  else
    let (a, _) ← moveBackward t a.length a p (a.length - 1) a.length
    let a ← wr a p (← x.read a)
    .ok (a, p)

/-- `insert(position, first, last)`, l.468-489; `insert_at`, l.456-460. -/
def insertRange (t : Ty α) (random : Bool) (a : List α) (p : Nat) (vs : List α) : Res (List α × Nat) := do
  let source_size := vs.length
  let destination_space := a.length - p
  let (a, _) ←
    if source_size < destination_space then
      let length := a.length - (p + source_size)
      moveBackward t a.length a p (p + length) a.length
    else .ok (a, 0)
  let (a, _) ← copySAt random vs a p
  .ok (a, p)

/-- `erase(position)`, l.505-511; `erase_at`, l.495-498. -/
def erase (t : Ty α) (a : List α) (p : Nat) : Res (List α × Nat) := do
  let (a, _) ← move t a.length a (p + 1) a.length p
  .ok (a, p)

/-- `erase(first, last)`, l.530-535; `erase_range`, l.519-522. -/
def eraseRange (t : Ty α) (a : List α) (f l : Nat) : Res (List α × Nat) := do
  let (a, _) ← move t a.length a l a.length f
  .ok (a, f)

/-- `erase(position, value)`, l.552-560; `erase_at`, l.542-545. -/
def eraseFill (t : Ty α) (a : List α) (p : Nat) (x : Arg α) : Res (List α × Nat) := do
  let (a, _) ← move t a.length a (p + 1) a.length p
  let a ← wr a (a.length - 1) (← x.read a)
  .ok (a, p)

/-- `erase(first, last, value)`, l.578-586; `erase_range`, l.568-571.  The value is read again for every element. -/
def eraseRangeFill (t : Ty α) (a : List α) (f l : Nat) (v : α) : Res (List α × Nat) := do
  let (a, p) ← move t a.length a l a.length f
  let a ← fillRange v a.length a p a.length
  .ok (a, f)

end Etl.Arr
