import Verif.Flat.Model
import Verif.Common.Rng

/-!
# Model of histogram.h

Source: `/repo/include/etl/histogram.h`.

`w`: the width of `count_type`, taken as unsigned: counts are modulo 2^w.  (Signed counts overflow with undefined behaviour where unsigned ones wrap.)
-/
namespace Etl.Histogram
open Etl.Rng

/-! ## histogram -/

/-- `accumulator`, l.127; `start_index`, l.381 (of the version with the index given at run time; `none`: not initialised).  The version with `Start_Index` as a template parameter, l.137-256, has it always. -/
structure H where
  start : Option Int
  acc : List Nat
  deriving DecidableEq

/-- The constructors, l.154-157, l.276-280. -/
def init (start : Int) (n : Nat) : H := ⟨some start, List.replicate n 0⟩

/-- `accumulator[key - start_index]`: the index is a `size_t`. -/
def idx (h : H) (key : Int) : Res Nat := match h.start with
  | none => .error .deadAccess
  | some s => if 0 ≤ key - s then .ok (key - s).toNat else .error .outOfBounds

/-- `add(key)`, l.212-215, l.336-339. -/
def add (w : Nat) (h : H) (key : Int) : Res H := do
  let i ← idx h key
  let c ← rd h.acc i
  let acc ← wr h.acc i ((c + 1) % 2 ^ w)
  .ok { h with acc := acc }

/-- `add(first, last)`, l.220-228, l.344-352. -/
def addAll (w : Nat) : H → List Int → Res H
  | h, [] => .ok h
  | h, k :: ks => do addAll w (← add w h k) ks

/-- `operator []`, l.250-253, l.374-377. -/
def get (h : H) (key : Int) : Res Nat := do rd h.acc (← idx h key)

/-- `clear`, l.96-99. -/
def clear (h : H) : H := { h with acc := List.replicate h.acc.length 0 }

/-- `count`, l.120-123: the sum as a `size_t` of 64 bits. -/
def count (h : H) : Nat := h.acc.foldl (fun s c => (s + c) % 2 ^ 64) 0

/-- The copy and move constructors with the start index given at run time, l.296-309: `start_index` is not copied. -/
def copyCtor (o : H) : H := ⟨none, o.acc⟩
/-- The copy and move assignments of it, l.314-331. -/
def assign (h o : H) : H := { h with acc := o.acc }
/-- The copy constructor with a compile time start index, l.172-175: the index is part of the type. -/
def copyCtorStatic (o : H) : H := ⟨o.start, o.acc⟩

/-! ## sparse_histogram: over the model of flat_map -/

section
variable {κ : Type} (lt : κ → κ → Bool)

abbrev S (κ : Type) := Flat.St (κ × Nat)

/-- The default constructor, l.409-411. -/
def sinit (cap : Nat) (dbg triv : Bool) : S κ := Flat.init cap false true dbg triv

/-- `add(key)`, l.498-501: `++accumulator[key]`. -/
def sadd (w : Nat) (s : S κ) (k : κ) : Res (S κ × Flat.Out) := do
  let (s, o) ← Flat.step Prod.fst lt s (.index (k, 0))
  match o with
  | .it i =>
    let (k', c) ← Flat.readAt s i
    Flat.step Prod.fst lt s (.write i (k', (c + 1) % 2 ^ w))
  | o => .ok (s, o)

/-- `add(first, last)`, l.506-514; it ends at the first error. -/
def saddAll (w : Nat) : S κ → List κ → Res (S κ × Flat.Out)
  | s, [] => .ok (s, .ok)
  | s, k :: ks => do
    let (s, o) ← sadd lt w s k
    match o with
    | .ok => saddAll w s ks
    | o => .ok (s, o)

/-- `operator []`, l.536-551; `dk` is a default constructed key. -/
def sget (dk : κ) (s : S κ) (k : κ) : Res (κ × Nat) := do
  let i ← Flat.find Prod.fst lt s k
  if i ≠ Flat.size s then Flat.readAt s i else .ok (dk, 0)

/-- `size`, l.563-566. -/
def ssize (s : S κ) : Nat := Flat.size s

/-- `count`, l.579-592: the sum as a `count_type`. -/
def scount (w : Nat) (s : S κ) : Res Nat := do .ok ((← Flat.view s).foldl (fun a x => (a + x.2) % 2 ^ w) 0)

/-- `begin()`, `end()`, l.466-493: positions in the container. -/
def sbegin (_ : S κ) : Nat := 0
def send (_ : S κ) : Nat := 0

end

end Etl.Histogram
