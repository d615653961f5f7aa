import Verif.Common.Res

/-!
# Model of multi_span.h

Source: `/repo/include/etl/multi_span.h`.

The list of spans is the list of what they show.  An iterator is the number of its span (`p_current_span`; the number of spans is the end of the list) and the position in it (`p_value`; `none` is the null pointer).  `iterator` and `const_iterator` have the same code; the model has it once.  Forming a pointer before the beginning of a span is an error.
-/
namespace Etl.MultiSpan
variable {α : Type}

structure It where
  cur : Nat
  p : Option Nat
  deriving DecidableEq

/-- A span of the list. -/
def span (l : List (List α)) (i : Nat) : Res (List α) := match l[i]? with | some s => .ok s | none => .error .outOfBounds

/-- `while ((p_current_span != end) && p_current_span->empty()) ++p_current_span`, l.242-245; the `do` loop of `++`, l.107-110, after its first increment. -/
def skipUp (l : List (List α)) : Nat → Nat → Res Nat
  | 0, _ => .error .diverge
  | fuel + 1, i => do
    if i ≠ l.length then
      if (← span l i).isEmpty then skipUp l fuel (i + 1) else .ok i
    else .ok i

/-- `p_value = begin of the span`, or null at the end, l.247-254, l.112-119. -/
def place (l : List (List α)) (i : Nat) : It := if i ≠ l.length then ⟨i, some 0⟩ else ⟨i, none⟩

/-- The constructor of an iterator, l.235-256. -/
def mk (l : List (List α)) (i : Nat) : Res It := do
  if i ≠ l.length then .ok (place l (← skipUp l (l.length + 1) i)) else .ok ⟨i, none⟩
/-- `begin`, `end`, l.535-562. -/
def begin_ (l : List (List α)) : Res It := mk l 0
def end_ (l : List (List α)) : Res It := mk l l.length

/-- `operator ++`, l.99-124. -/
def next (l : List (List α)) (it : It) : Res It := do
  if it.cur ≠ l.length then
    match it.p with
    | none => .error .nullDeref
    | some p =>
      if p + 1 = (← span l it.cur).length then .ok (place l (← skipUp l (l.length + 1) (it.cur + 1)))
      else .ok ⟨it.cur, some (p + 1)⟩
  else .ok it

/-- `p_value = end of the span; --p_value`. -/
def lastOf (l : List (List α)) (i : Nat) : Res It := do
  let n := (← span l i).length
  if n = 0 then .error .outOfBounds else .ok ⟨i, some (n - 1)⟩

/-- `do { --p_current_span; } while ((p_current_span != begin) && p_current_span->empty())`, l.149-152. -/
def skipDown (l : List (List α)) : Nat → Nat → Res Nat
  | 0, _ => .error .diverge
  | fuel + 1, i =>
    if i = 0 then .error .outOfBounds
    else if i - 1 ≠ 0 then do
      if (← span l (i - 1)).isEmpty then skipDown l fuel (i - 1) else .ok (i - 1)
    else .ok (i - 1)

/-- `operator --`, l.137-168. -/
def prev (l : List (List α)) (it : It) : Res It := do
  if it.cur = l.length then
    if l.length = 0 then .error .outOfBounds else lastOf l (l.length - 1)
  else if it.cur ≠ 0 ∨ it.p ≠ some 0 then
    if it.p = some 0 then lastOf l (← skipDown l (l.length + 1) it.cur)
    else match it.p with
      | none => .error .nullDeref
      | some p => .ok ⟨it.cur, some (p - 1)⟩
  else .ok ⟨it.cur, none⟩

/-- `operator *`, l.180-207. -/
def deref (l : List (List α)) (it : It) : Res α := do
  match it.p with
  | none => .error .nullDeref
  | some p => match (← span l it.cur)[p]? with | some x => .ok x | none => .error .outOfBounds

/-- `operator []`, l.599-613: the size of the span is read before the number of it is checked. -/
def findSpan (l : List (List α)) : Nat → Nat → Nat → Res (Nat × Nat)
  | 0, _, _ => .error .diverge
  | fuel + 1, i, index => do
    let n := (← span l index).length
    if n ≤ i ∧ index < l.length then findSpan l fuel (i - n) (index + 1) else .ok (i, index)
def index (l : List (List α)) (i : Nat) : Res α := do
  let (i, k) ← findSpan l (l.length + 1) i 0
  match (← span l k)[i]? with | some x => .ok x | none => .error .outOfBounds

/-- `size`, l.618-630; `size_bytes`, l.650-662, is the same with the sizes in bytes; `empty`, l.635-645; `size_spans`, l.667-670. -/
def size (l : List (List α)) : Nat := l.foldl (fun t s => t + s.length) 0
def empty (l : List (List α)) : Bool := if l.isEmpty then true else size l == 0
def sizeSpans (l : List (List α)) : Nat := l.length

/-- A loop `for (it = begin(); it != end(); ++it)` of a user. -/
def walk (l : List (List α)) : Nat → It → Res (List α)
  | 0, _ => .error .diverge
  | fuel + 1, it => do
    if it = (← end_ l) then .ok [] else
    let x ← deref l it
    .ok (x :: (← walk l fuel (← next l it)))
/-- A loop with a reverse iterator: it shows the element before its base. -/
def walkBack (l : List (List α)) : Nat → It → Res (List α)
  | 0, _ => .error .diverge
  | fuel + 1, it => do
    if it = (← begin_ l) then .ok [] else
    let q ← prev l it
    .ok ((← deref l q) :: (← walkBack l fuel q))

end Etl.MultiSpan
