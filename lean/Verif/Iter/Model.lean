import Verif.Common.Rng
/-!
# Iterators: include/etl/iterator.h, include/etl/fixed_iterator.h

An iterator type is the record of its operations; adaptors are functions from records to records.  A pointer into an array of `l.length` elements is
a position; moving it outside `[0, length]`, or dereferencing the end, is undefined.
-/
namespace Etl.Iter
open Etl.Rng

variable {ι α C : Type}

/-- the operations of an iterator type; a mutable element is not modelled, `deref` is its value -/
structure It (ι α : Type) where
  inc : ι → Res ι
  dec : ι → Res ι
  add : ι → Int → Res ι
  sub : ι → Int → Res ι
  deref : ι → Res α
  eq : ι → ι → Bool
  lt : ι → ι → Bool
  diff : ι → ι → Int

/-- a pointer into an array -/
def ptr (l : List α) : It Nat α where
  inc p := if p < l.length then .ok (p + 1) else .error .outOfBounds
  dec p := if 0 < p then .ok (p - 1) else .error .outOfBounds
  add p n := if 0 ≤ (p : Int) + n ∧ (p : Int) + n ≤ l.length then .ok ((p : Int) + n).toNat else .error .outOfBounds
  sub p n := if 0 ≤ (p : Int) - n ∧ (p : Int) - n ≤ l.length then .ok ((p : Int) - n).toNat else .error .outOfBounds
  deref p := rd l p
  eq p q := p == q
  lt p q := decide (p < q)
  diff p q := (p : Int) - q

/-- `reverse_iterator`, iterator.h:226-402 -/
def rev (I : It ι α) : It ι α where
  inc := I.dec
  dec := I.inc
  add i n := I.sub i n
  sub i n := I.add i n
  deref i := do let t ← I.dec i; I.deref t
  eq a b := I.eq a b
  lt a b := I.lt b a
  diff a b := I.diff b a

/-- `move_iterator`, iterator.h:410-580: every operation is that of the underlying iterator; `*it` is the element as an rvalue. -/
def mov (I : It ι α) : It ι α where
  inc := I.inc
  dec := I.dec
  add i n := I.add i n
  sub i n := I.sub i n
  deref i := I.deref i
  eq a b := I.eq a b
  lt a b := I.lt a b
  diff a b := I.diff a b

/-- `fixed_iterator`, fixed_iterator.h:52-277: the moving operations do nothing. -/
def fixed (I : It ι α) : It ι α where
  inc i := .ok i
  dec i := .ok i
  add i _ := .ok i
  sub i _ := .ok i
  deref i := I.deref i
  eq a b := I.eq a b
  lt a b := I.lt a b
  diff a b := I.diff a b

/-- the derived operators, iterator.h:336-402 and 507-575: `!=`, `>`, `<=`, `>=`, `it[n]` -/
def ne (I : It ι α) (a b : ι) : Bool := !I.eq a b
def gt (I : It ι α) (a b : ι) : Bool := I.lt b a
def le (I : It ι α) (a b : ι) : Bool := !I.lt b a
def ge (I : It ι α) (a b : ι) : Bool := !I.lt a b
def index (I : It ι α) (a : ι) (n : Int) : Res α := do let t ← I.add a n; I.deref t

/-- The categories `advance` has an overload for; there is none for `input_iterator_tag`. -/
inductive Cat where
  | output | forward | bidirectional | random
  deriving DecidableEq

/-- `n` times `++itr` or `--itr` -/
def times (step : ι → Res ι) : Nat → ι → Res ι
  | 0, i => .ok i
  | n + 1, i => do let j ← step i; times step n j

/-- `advance`, iterator.h:94-144: `while (n--) ++itr` for output and forward iterators goes on past the end for a negative `n`;
`if (n > 0) while (n--) ++itr else while (n++) --itr` for bidirectional ones; `itr += n` for random access ones. -/
def advance (I : It ι α) (c : Cat) (i : ι) (n : Int) : Res ι :=
  match c with
  | .output | .forward => if n < 0 then .error .outOfBounds else times I.inc n.toNat i
  | .bidirectional => if n > 0 then times I.inc n.toNat i else times I.dec (-n).toNat i
  | .random => I.add i n

/-- `while (first != last) { ++d; ++first; }` -/
def countLoop (I : It ι α) : Nat → ι → ι → Int → Res Int
  | 0, _, _, _ => .error .diverge
  | k + 1, first, last, d => if I.eq first last then .ok d else do let j ← I.inc first; countLoop I k j last (d + 1)
/-- `distance`, iterator.h:147-202 -/
def distance (I : It ι α) (c : Cat) (fuel : Nat) (first last : ι) : Res Int :=
  match c with
  | .random => .ok (I.diff last first)
  | _ => countLoop I fuel first last 0

/-- `prev` and `next`, iterator.h:206-222 -/
def prev (I : It ι α) (c : Cat) (i : ι) (n : Int) : Res ι := advance I c i (-n)
def next (I : It ι α) (c : Cat) (i : ι) (n : Int) : Res ι := advance I c i n

/-- A loop of the caller: `while (first != last) { visit(*first); ++first; }`. -/
def traverse (I : It ι α) : Nat → ι → ι → Res (List α)
  | 0, _, _ => .error .diverge
  | k + 1, first, last => if I.eq first last then .ok [] else do
      let x ← I.deref first
      let j ← I.inc first
      let r ← traverse I k j last
      .ok (x :: r)

/-- `back_insert_iterator`, `front_insert_iterator`, `push_insert_iterator`, iterator.h:588-835: assigning through the iterator calls `push_back`, `push_front`,
`push`; `*` and `++` do nothing.  Copying a range to one calls it for every element. -/
def copyTo (push : C → α → Res C) : List α → C → Res C
  | [], c => .ok c
  | x :: l, c => do let c ← push c x; copyTo push l c

end Etl.Iter
