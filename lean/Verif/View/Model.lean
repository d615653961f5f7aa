import Verif.Algo.Range

/-!
# Model of span and basic_string_view

Sources: `/repo/include/etl/span.h`, `/repo/include/etl/string_view.h`.

The source is an array, a list `m`; a pointer is a position `0 … m.length` in it, and forming any other pointer is undefined.  Reading is modelled strictly: a read through a view outside of the view itself is an error,
even if the source goes on there.  `span<T, dynamic_extent>` and `basic_string_view` are the same pair of pointers; `span<T, N>` is one pointer.
-/
namespace Etl.View
open Etl.Algo

variable {α : Type}

/-- The members `pbegin`/`pend` (span.h l.821-822), `mbegin`/`mend` (string_view.h l.861-862).  A default constructed view holds two null pointers. -/
structure View where
  null : Bool
  beg : Nat
  fin : Nat
  deriving DecidableEq

/-- the default constructors, span.h l.494-498, string_view.h l.119-123 -/
def empty : View := ⟨true, 0, 0⟩
/-- from a container or an array, span.h l.526-560, string_view.h l.128-132 -/
def whole (m : List α) : View := ⟨false, 0, m.length⟩

/-- `p + n` and `p - n` on pointers of the view. -/
def fwd (m : List α) (v : View) (p n : Nat) : Res Nat :=
  if v.null then (if n = 0 then .ok p else .error .nullDeref) else if p + n ≤ m.length then .ok (p + n) else .error .outOfBounds
def bwd (v : View) (p n : Nat) : Res Nat :=
  if v.null then (if n = 0 then .ok p else .error .nullDeref) else if n ≤ p then .ok (p - n) else .error .outOfBounds
/-- `pbegin[i]`, `*(pend - 1)` -/
def rd (m : List α) (v : View) (i : Nat) : Res α :=
  if v.null ∨ v.fin ≤ v.beg + i then .error .outOfBounds else match m[v.beg + i]? with
    | none => .error .outOfBounds
    | some x => .ok x

/-- `size`, span.h l.683-686, string_view.h l.264-267; `empty`, l.675-678, l.256-259. -/
def size (v : View) : Nat := v.fin - v.beg
def isEmpty (v : View) : Bool := v.beg == v.fin
/-- the elements between two pointers of the view, as the algorithms see them -/
def elems (m : List α) (v : View) : List α := if v.null then [] else (m.drop v.beg).take (v.fin - v.beg)

/-- `front`, `back`, `operator []`, span.h l.572-583, l.738-741; string_view.h l.174-187, l.321-324. -/
def front (m : List α) (v : View) : Res α := rd m v 0
def back (m : List α) (v : View) : Res α := if v.fin = 0 then .error .outOfBounds else rd m v (v.fin - 1 - v.beg)
def at? (m : List α) (v : View) (i : Nat) : Res α := rd m v i
/-- `at`: `none` is the error.  span.h l.718-732, string_view.h l.329-334. -/
def atChecked (m : List α) (v : View) (i : Nat) : Res (Option α) :=
  if v.null then .ok none else if i < size v then (match rd m v i with
    | .error u => .error u
    | .ok x => .ok (some x)) else .ok none

/-! ## span -/

/-- `first`, span.h l.746-758. -/
def first (m : List α) (v : View) (n : Nat) : Res View := match fwd m v v.beg n with
  | .error u => .error u
  | .ok e => .ok { v with fin := e }
/-- `last`, span.h l.763-775. -/
def last (m : List α) (v : View) (n : Nat) : Res View := match bwd v v.fin n with
  | .error u => .error u
  | .ok b => .ok { v with beg := b }
/-- `subspan`, span.h l.782-813; `none` is `dynamic_extent`. -/
def subspan (m : List α) (v : View) (offset : Nat) (count : Option Nat) : Res View := match fwd m v v.beg offset with
  | .error u => .error u
  | .ok b => match count with
    | none => .ok { v with beg := b }
    | some n => match fwd m v b n with
      | .error u => .error u
      | .ok e => .ok { v with beg := b, fin := e }
/-- `operator ==` on spans compares the pointers, span.h l.851-857. -/
def spanEq (v w : View) : Bool := v.null == w.null && v.beg == w.beg && size v == size w
/-- `etl::equal` on spans of one source, span.h l.878-885. -/
def spanEqual [BEq α] (m : List α) (v w : View) : Bool := (isEmpty v && isEmpty w) || spanEq v w || equal4 (fun x y => x == y) (elems m v) (elems m w)

/-- `span<T, Extent>`: the constructor from iterators ignores the size, span.h l.85-100; every member computes the end as `pbegin + Extent`. -/
def fixed (extent b _size : Nat) : View := ⟨false, b, b + extent⟩

/-! ## basic_string_view -/

/-- `remove_prefix`, `remove_suffix`, string_view.h l.388-399. -/
def removePrefix (m : List α) (v : View) (n : Nat) : Res View := match fwd m v v.beg n with
  | .error u => .error u
  | .ok b => .ok { v with beg := b }
def removeSuffix (v : View) (n : Nat) : Res View := match bwd v v.fin n with
  | .error u => .error u
  | .ok e => .ok { v with fin := e }
/-- `substr`, l.371-383; `none` is `npos`. -/
def substr (m : List α) (v : View) (position : Nat) (count : Option Nat) : Res View :=
  if position < size v then match fwd m v v.beg position with
    | .error u => .error u
    | .ok b => match fwd m v b (min (count.getD (size v - position)) (size v - position)) with
      | .error u => .error u
      | .ok e => .ok { v with beg := b, fin := e }
  else .ok empty
/-- `copy`, l.354-366: the values written to the destination. -/
def copyLoop (m : List α) (v : View) : Nat → Nat → Res (List α)
  | 0, _ => .ok []
  | n + 1, i => match rd m v i with
    | .error u => .error u
    | .ok x => match copyLoop m v n (i + 1) with
      | .error u => .error u
      | .ok l => .ok (x :: l)
def copy (m : List α) (v : View) (count position : Nat) : Res (List α) := if position < size v then copyLoop m v (min count (size v - position)) position else .ok []

/-- `operator ==`, `operator <`, l.809-837. -/
def svEq [BEq α] (m m2 : List α) (v w : View) : Bool := size v == size w && equal4 (fun x y => x == y) (elems m v) (elems m2 w)
def svLt (lt : α → α → Bool) (m m2 : List α) (v w : View) : Bool := lexCompare lt (elems m v) (elems m2 w)
/-- `compare(view)`, l.404-407. -/
def compare [BEq α] (lt : α → α → Bool) (m m2 : List α) (v w : View) : Int := if svEq m m2 v w then 0 else if svLt lt m2 m w v then 1 else -1
/-- `compare(position, count, view)`, l.409-419. -/
def compareSub [BEq α] (lt : α → α → Bool) (m m2 : List α) (v : View) (position : Nat) (count : Option Nat) (w : View) : Res Int := match substr m v position count with
  | .error u => .error u
  | .ok s => .ok (compare lt m m2 s w)
/-- The loop of `compare(text)`, l.421-452: the remaining elements of the view, and the memory from the text pointer on. -/
def cmpText [DecidableEq α] (lt : α → α → Bool) (zero : α) : List α → List α → Res Int
  | _, [] => .error .outOfBounds
  | [], t :: _ => .ok (if t = zero then 0 else -1)
  | x :: xs, t :: ts => if t = zero then .ok 1 else if lt x t then .ok (-1) else if lt t x then .ok 1 else cmpText lt zero xs ts
/-- `TTraits::length(text)` -/
def strlen [DecidableEq α] (zero : α) : List α → Res Nat
  | [] => .error .outOfBounds
  | t :: ts => if t = zero then .ok 0 else match strlen zero ts with
    | .error u => .error u
    | .ok n => .ok (n + 1)
/-- `starts_with(view)`, l.467-471. -/
def startsWith [BEq α] (lt : α → α → Bool) (m m2 : List α) (v w : View) : Res Bool :=
  if size w ≤ size v then (match compareSub lt m m2 v 0 (some (size w)) w with
    | .error u => .error u
    | .ok r => .ok (r == 0)) else .ok false
/-- `ends_with(view)`, l.489-493. -/
def endsWith [BEq α] (lt : α → α → Bool) (m m2 : List α) (v w : View) : Res Bool :=
  if size w ≤ size v then (match compareSub lt m m2 v (size v - size w) none w with
    | .error u => .error u
    | .ok r => .ok (r == 0)) else .ok false
/-- `starts_with(text)`, `ends_with(text)`, l.478-484, l.500-507. -/
def startsText [DecidableEq α] (lt : α → α → Bool) (zero : α) (m : List α) (v : View) (text : List α) : Res Bool := match strlen zero text with
  | .error u => .error u
  | .ok n => if n ≤ size v then (match substr m v 0 (some n) with
    | .error u => .error u
    | .ok s => match cmpText lt zero (elems m s) text with
      | .error u => .error u
      | .ok r => .ok (r == 0)) else .ok false
def endsText [DecidableEq α] (lt : α → α → Bool) (zero : α) (m : List α) (v : View) (text : List α) : Res Bool := match strlen zero text with
  | .error u => .error u
  | .ok n => if n ≤ size v then (match substr m v (size v - n) (some n) with
    | .error u => .error u
    | .ok s => match cmpText lt zero (elems m s) text with
      | .error u => .error u
      | .ok r => .ok (r == 0)) else .ok false

/-- `find(view, position)`, l.512-529; `none` is `npos`. -/
def find [BEq α] (m m2 : List α) (v w : View) (position : Nat) : Res (Option Nat) :=
  if size v < size w then .ok none else match fwd m v v.beg position with
    | .error u => .error u
    | .ok b =>
      if v.fin < b then .error .outOfBounds    -- the search runs past `end()`
      else .ok (if b + search (fun x y => x == y) (elems m2 w) (elems m { v with beg := b }) = v.fin then none else some (b + search (fun x y => x == y) (elems m2 w) (elems m { v with beg := b }) - v.beg))
/-- `contains`, l.785-788. -/
def contains [BEq α] (m m2 : List α) (v w : View) : Res Bool := match find m m2 v w 0 with
  | .error u => .error u
  | .ok r => .ok r.isSome
/-- `rfind(view, position)`, l.549-571; the position is already `min(position, size())`. -/
def rfind [BEq α] (m m2 : List α) (v w : View) (position : Option Nat) : Res (Option Nat) :=
  if size v < size w then .ok none else match fwd m v v.beg (min (position.getD (size v)) (size v)) with
    | .error u => .error u
    | .ok e => match findEnd (fun x y => x == y) (elems m2 w) (elems m { v with fin := e }) with
      | .error u => .error u
      | .ok r => .ok (if v.beg + r = v.fin then none else some r)

/-- The inner loop of `find_first_of` and the others, l.599-605: is `x` one of the characters from `j` on? -/
def oneOf [BEq α] (m2 : List α) (w : View) (x : α) : Nat → Nat → Res Bool
  | 0, _ => .ok false
  | n + 1, j => match rd m2 w j with
    | .error u => .error u
    | .ok y => if x == y then .ok true else oneOf m2 w x n (j + 1)
/-- The outer loop of `find_first_of` (`want = true`) and `find_first_not_of` (`false`), l.596-607, l.685-703: `n` positions to go. -/
def firstLoop [BEq α] (m m2 : List α) (v w : View) (want : Bool) : Nat → Nat → Res (Option Nat)
  | 0, _ => .ok none
  | n + 1, i => match rd m v i with
    | .error u => .error u
    | .ok x => match oneOf m2 w x (size w) 0 with
      | .error u => .error u
      | .ok f => if f == want then .ok (some i) else firstLoop m m2 v w want n (i + 1)
/-- `find_first_of`, `find_first_not_of`, l.591-612, l.680-709. -/
def findFirst [BEq α] (m m2 : List α) (v w : View) (want : Bool) (position : Nat) : Res (Option Nat) :=
  if position < size v then firstLoop m m2 v w want (size v - position) position else .ok none
/-- The loop of `find_last_of` and `find_last_not_of`, l.643-657, l.740-762: `position + 1` steps to `rend()`. -/
def lastLoop [BEq α] (m m2 : List α) (v w : View) (want : Bool) : Nat → Res (Option Nat)
  | 0 => .ok none
  | p + 1 => match rd m v p with
    | .error u => .error u
    | .ok x => match oneOf m2 w x (size w) 0 with
      | .error u => .error u
      | .ok f => if f == want then .ok (some p) else lastLoop m m2 v w want p
/-- `find_last_of`, `find_last_not_of`, l.632-660, l.729-765. -/
def findLast [BEq α] (m m2 : List α) (v w : View) (want : Bool) (position : Option Nat) : Res (Option Nat) :=
  if isEmpty v then .ok none else lastLoop m m2 v w want (min (position.getD (size v - 1)) (size v - 1) + 1)

end Etl.View
