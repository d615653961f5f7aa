import Verif.Common.Res

/-!
# Model of multi_range

Source: `/repo/include/etl/multi_range.h`.

The ranges are numbered; `inner` are their links, and `r i` is the rest of range `i`.  The step and the comparison (virtual objects, l.215-370) are any functions of the values.
A loop or a recursion that does not end is the error `diverge`: the fuel bounds the number of ranges on the way.
-/
namespace Etl.MultiRange

/-- The members of a `multi_range`, l.237-238, l.518-527, without `inner`. -/
structure Rng (α : Type) where
  first : α
  last : α
  cur : α
  stp : α → α
  cmp : α → α → Bool
  done : Bool

variable {α : Type}

abbrev Links := Nat → Option Nat
abbrev Heap (α : Type) := Nat → Rng α

/-- The constructors, l.361-432, l.184-188. -/
def make (first last : α) (stp : α → α) (cmp : α → α → Bool) : Rng α := ⟨first, last, first, stp, cmp, true⟩

/-! ## Links -/

/-- The loop of `is_valid`, l.195-210. -/
def isValid (inner : Links) (self : Nat) : Nat → Option Nat → Res Bool
  | _, none => .ok true
  | 0, some _ => .error .diverge
  | fuel + 1, some p => if p = self then .ok false else isValid inner self fuel (inner p)

/-- `set_last`, l.215-226: the last range reached from `p`. -/
def lastOf (inner : Links) : Nat → Nat → Res Nat
  | 0, _ => .error .diverge
  | fuel + 1, p => match inner p with
    | none => .ok p
    | some q => lastOf inner fuel q

/-- `insert`, l.78-92.  `none`: the assertion fails (circular reference). -/
def insert (fuel : Nat) (inner : Links) (self x : Nat) : Res (Option Links) := do
  if ← isValid inner self fuel (some x) then
    let nxt := inner self
    let inner := upd inner self (some x)
    let l ← lastOf inner fuel x
    .ok (some (upd inner l nxt))
  else .ok none

/-- `append`, l.97-111. -/
def append (inner : Links) (x : Nat) (vf : Nat) : Nat → Nat → Res (Option Links)
  | 0, _ => .error .diverge
  | fuel + 1, self => do
    if ← isValid inner self vf (some x) then
      match inner self with
      | some q => append inner x vf fuel q
      | none => .ok (some (upd inner self (some x)))
    else .ok none

/-- `detach`, l.116-119. -/
def detach (inner : Links) (self : Nat) : Links := upd inner self none
/-- `detach_all`, l.124-132. -/
def detachAll : Nat → Links → Nat → Res Links
  | 0, _, _ => .error .diverge
  | fuel + 1, inner, self => match inner self with
    | none => .ok (detach inner self)
    | some q => do .ok (detach (← detachAll fuel inner q) self)

/-- `number_of_ranges`, l.145-158: the count from `p` on. -/
def numberOf (inner : Links) : Nat → Option Nat → Nat → Res Nat
  | _, none, count => .ok count
  | 0, some _, _ => .error .diverge
  | fuel + 1, some p, count => numberOf inner fuel (inner p) (count + 1)
def numberOfRanges (fuel : Nat) (inner : Links) (self : Nat) : Res Nat := numberOf inner fuel (inner self) 1

/-! ## Iteration -/

/-- `start`, l.453-462. -/
def start (inner : Links) : Nat → Heap α → Nat → Res (Heap α)
  | 0, _, _ => .error .diverge
  | fuel + 1, h, i => do
    let h ← match inner i with
      | none => .ok h
      | some j => start inner fuel h j
    .ok (upd h i { h i with cur := (h i).first, done := !(h i).cmp (h i).first (h i).last })

/-- `step`, l.499-511, and the assignment to `has_completed`. -/
def step (h : Heap α) (i : Nat) : Heap α :=
  let c := (h i).stp (h i).cur
  let rolled := !(h i).cmp c (h i).last
  upd h i { h i with cur := if rolled then (h i).first else c, done := rolled }

/-- `next`, l.467-485. -/
def next (inner : Links) : Nat → Heap α → Nat → Res (Heap α)
  | 0, _, _ => .error .diverge
  | fuel + 1, h, i =>
    let h := upd h i { h i with done := false }
    match inner i with
    | some j => do
      let h ← next inner fuel h j
      if (h j).done then .ok (step h i) else .ok h
    | none => .ok (step h i)

/-- `for (; !completed(); next()) …` of the user and of `number_of_iterations`, l.163-173: the values of the ranges `ids` in each round. -/
def rounds (inner : Links) (fuel : Nat) (ids : List Nat) (i : Nat) : Nat → Heap α → Res (List (List α) × Heap α)
  | 0, _ => .error .diverge
  | n + 1, h =>
    if (h i).done then .ok ([], h)
    else do
      let v := ids.map (fun k => (h k).cur)
      let h ← next inner fuel h i
      let (vs, h) ← rounds inner fuel ids i n h
      .ok (v :: vs, h)

/-- `for (start(); !completed(); next()) …`, with at most `n` rounds. -/
def iterate (inner : Links) (fuel n : Nat) (ids : List Nat) (h : Heap α) (i : Nat) : Res (List (List α) × Heap α) := do
  rounds inner fuel ids i n (← start inner fuel h i)

/-- `number_of_iterations`, l.163-173. -/
def numberOfIterations (inner : Links) (fuel n : Nat) (h : Heap α) (i : Nat) : Res (Nat × Heap α) := do
  let (vs, h) ← iterate inner fuel n [] h i
  .ok (vs.length, h)

end Etl.MultiRange
