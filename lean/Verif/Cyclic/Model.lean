import Verif.Common.Res

/-!
# Model of `etl::cyclic_value`

Source: `/repo/include/etl/cyclic_value.h`.  Both class templates (compile time limits l.64-317, run time limits l.328-613) share this model; with compile time
limits `setRange` is not available and `swap`/`=` exchange/copy `value` only, between objects with the same limits, which is the same effect.
`T` is any integer type with the range `[tmin, tmax]`; leaving it is the error `overflow`.
-/
namespace Etl.Cyclic

/-- The range of `T`, and of `int` (the parameter of `advance`). -/
structure Ty where
  tmin : Int
  tmax : Int
  imax : Int

structure St where
  value : Int
  first : Int
  last : Int
  deriving DecidableEq, Repr

/-- `++value` / `--value` on a `T`. -/
def arith (ty : Ty) (v : Int) : Res Int := if ty.tmin ≤ v ∧ v ≤ ty.tmax then .ok v else .error .overflow

/-- `set(T)`, l.111-123 and l.395-407. -/
def set (s : St) (v : Int) : St := { s with value := if v > s.last then s.last else if v < s.first then s.first else v }
/-- `set(first, last)`, l.384-389. -/
def setRange (_ : St) (f l : Int) : St := ⟨f, f, l⟩
/-- `to_first`, l.128 and l.412. -/
def toFirst (s : St) : St := { s with value := s.first }
/-- `to_last`, l.136 and l.420. -/
def toLast (s : St) : St := { s with value := s.last }
/-- `operator ++()`, l.186-198 and l.470-482. -/
def inc (ty : Ty) (s : St) : Res St := if s.value ≥ s.last then .ok { s with value := s.first } else do .ok { s with value := ← arith ty (s.value + 1) }
/-- `operator --()`, l.215-227 and l.499-511. -/
def dec (ty : Ty) (s : St) : Res St := if s.value ≤ s.first then .ok { s with value := s.last } else do .ok { s with value := ← arith ty (s.value - 1) }
/-- The loops of `advance`. -/
def repeatOp (f : St → Res St) : Nat → St → Res St
  | 0, s => .ok s
  | k + 1, s => do repeatOp f k (← f s)
/-- `advance(int n)`, l.145-161 and l.429-445; `-n` of the smallest `int` overflows. -/
def advance (ty : Ty) (s : St) (n : Int) : Res St :=
  if n > 0 then repeatOp (inc ty) n.toNat s
  else if -n > ty.imax then .error .overflow
  else repeatOp (dec ty) (-n).toNat s
/-- `operator ++(int)`, l.203-210: returns the old value. -/
def postInc (ty : Ty) (s : St) : Res (St × Int) := do .ok (← inc ty s, s.value)
/-- `operator --(int)`, l.232-239. -/
def postDec (ty : Ty) (s : St) : Res (St × Int) := do .ok (← dec ty s, s.value)
/-- constructors, l.71-83 and l.348-366 -/
def mk2 (f l : Int) : St := ⟨f, f, l⟩
def mk3 (f l i : Int) : St := set ⟨i, f, l⟩ i

/-- Operations on a pair of objects; the number printed is what the operation returns. -/
inductive Op where
  | set (v : Int) | setRange (f l : Int) | toFirst | toLast | inc | dec | advance (n : Int) | postInc | postDec
  | swap | assign   -- with the second object
  deriving Repr

def step (ty : Ty) (p : St × St) : Op → Res ((St × St) × Option Int)
  | .set v => .ok ((set p.1 v, p.2), none)
  | .setRange f l => .ok ((setRange p.1 f l, p.2), none)
  | .toFirst => .ok ((toFirst p.1, p.2), none)
  | .toLast => .ok ((toLast p.1, p.2), none)
  | .inc => do .ok ((← inc ty p.1, p.2), none)
  | .dec => do .ok ((← dec ty p.1, p.2), none)
  | .advance n => do .ok ((← advance ty p.1 n, p.2), none)
  | .postInc => do
    let (s, v) ← postInc ty p.1
    .ok ((s, p.2), some v)
  | .postDec => do
    let (s, v) ← postDec ty p.1
    .ok ((s, p.2), some v)
  | .swap => .ok ((p.2, p.1), none)      -- l.575-582
  | .assign => .ok ((p.2, p.2), none)    -- l.537-543

def run (ty : Ty) (p : St × St) : List Op → Res ((St × St) × List (Option Int))
  | [] => .ok (p, [])
  | o :: os => do
    let (p, r) ← step ty p o
    let (p, rs) ← run ty p os
    .ok (p, r :: rs)

end Etl.Cyclic
