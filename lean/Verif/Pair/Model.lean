/-!
# `pair`, `swap`, `exchange`, `coordinate_2d` of `utility.h`

Source: `/repo/include/etl/utility.h`.  The operators of the member types are parameters; objects are cells of a store, numbered.  Moving is taken to give the value and to leave the source to be assigned.
-/
namespace Etl.Pair

/-- The operators of a member type that are used. -/
structure Ops (α : Type) where
  lt : α → α → Bool
  gt : α → α → Bool
  eq : α → α → Bool

section Compare
variable {α β : Type} (p : Ops α) (q : Ops β)

/-- `operator ==`, l.336-342: `==` on the first members, `<` and `>` on the second. -/
def eq (a b : α × β) : Bool := p.eq a.1 b.1 && !q.lt a.2 b.2 && !q.gt a.2 b.2
/-- `operator !=`, l.345-349. -/
def ne (a b : α × β) : Bool := !eq p q a b
/-- `operator <`, l.351-356. -/
def lt (a b : α × β) : Bool := p.lt a.1 b.1 || (!p.lt b.1 a.1 && q.lt a.2 b.2)
/-- `operator >`, `<=`, `>=`, l.359-378. -/
def gt (a b : α × β) : Bool := lt p q b a
def le (a b : α × β) : Bool := !lt p q b a
def ge (a b : α × β) : Bool := !lt p q a b

/-- `coordinate_2d::operator ==`, `!=`, l.552-560. -/
def coordEq (a b : α × α) : Bool := p.eq a.1 b.1 && p.eq a.2 b.2
def coordNe (a b : α × α) : Bool := !coordEq p a b
end Compare

/-- The objects: a value for each address. -/
abbrev Store (α : Type) := Nat → α
def put {α : Type} (m : Store α) (i : Nat) (v : α) : Store α := fun j => if j = i then v else m j

/-- `swap(a, b)`, l.139-145: `temp = a; a = b; b = temp`. -/
def swap {α : Type} (m : Store α) (a b : Nat) : Store α :=
  let temp := m a
  let m := put m a (m b)
  put m b temp
/-- The loop of `swap` of arrays, l.147-154: `n` rounds to go, from `i` on. -/
def swapLoop {α : Type} (a b : Nat) : Nat → Nat → Store α → Store α
  | 0, _, m => m
  | n + 1, i, m => swapLoop a b n (i + 1) (swap m (a + i) (b + i))
/-- `swap(T(&)[N], T(&)[N])`. -/
def swapArray {α : Type} (N : Nat) (m : Store α) (a b : Nat) : Store α := swapLoop a b N 0 m
/-- `pair::swap`, l.261-267, and `swap(pair&, pair&)`, l.329-333: the first members and the second ones. -/
def swapPair {α β : Type} (m1 : Store α) (m2 : Store β) (a b : Nat) : Store α × Store β := (swap m1 a b, swap m2 a b)
/-- `pair::operator =`, l.269-302: member by member. -/
def assignPair {α β : Type} (m1 : Store α) (m2 : Store β) (a b : Nat) : Store α × Store β := (put m1 a (m1 b), put m2 a (m2 b))
/-- `exchange(object, new_value)`, l.453-467; the new value may be the object itself: it is read after `old_value`. -/
def exchange {α : Type} (m : Store α) (a : Nat) (new : Store α → α) : α × Store α :=
  let old := m a
  (old, put m a (new m))

end Etl.Pair
