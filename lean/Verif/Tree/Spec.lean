import Verif.Common.Order

/-!
# What an ordered map or set is

The contents are a sequence of elements, each at a position (what an iterator points to).  `end()` is position 0.
`key` is the part of an element that is compared, `lt` the comparator.
-/
namespace Etl.Tree.Spec
variable {α K : Type} (key : α → K) (lt : K → K → Bool)

/-- Elements in iteration order, with their positions. -/
abbrev Seq (α : Type) := List (Nat × α)

/-- The position of an element, or `end()`. -/
def posOf : Option (Nat × α) → Nat
  | some e => e.1
  | none => 0

/-- Equivalence of keys. -/
def same (k : K) (e : Nat × α) : Bool := !lt (key e.2) k && !lt k (key e.2)

/-- The element with a key equivalent to `k`. -/
def lookup (k : K) (l : Seq α) : Option (Nat × α) := l.find? (same key lt k)

/-- A new element goes after the smaller and before the greater elements; nothing else moves. -/
def place (n : Nat) (v : α) (l : Seq α) : Seq α :=
  l.filter (fun e => lt (key e.2) (key v)) ++ (n, v) :: l.filter (fun e => lt (key v) (key e.2))

/-- Errors: the container is full, the key is not there, the pool has no item left. -/
inductive Fail where
  | full | outOfBounds | noMemory
  deriving DecidableEq, Repr

/-- Outcome of an operation. -/
inductive Out (α : Type) where
  | ins (pos : Nat) (isNew : Bool)
  | fail (e : Fail)
  | num (n : Nat)
  | pos (p : Nat)
  | elem (v : α)
  | elems (vs : List α)
  | flag (b : Bool)
  | done
  deriving DecidableEq, Repr

/-- Insertion of `v` into a container of capacity `cap`: nothing happens if an equivalent element is there; on a full container the insertion fails, except that a set
finds the equivalent element. -/
def Insert (isSet : Bool) (cap : Nat) (l : Seq α) (v : α) (l' : Seq α) (o : Out α) : Prop :=
  match lookup key lt (key v) l with
  | some e => l' = l ∧ o = if l.length = cap ∧ isSet = false then .fail .full else .ins e.1 false
  | none => if l.length = cap then l' = l ∧ o = .fail .full
      else ∃ n, n ≠ 0 ∧ (∀ e ∈ l, e.1 ≠ n) ∧ l' = place key lt n v l ∧ o = .ins n true

/-- Insertion of a range: one element after the other, up to the first failure. -/
def InsertAll (isSet : Bool) (cap : Nat) (l : Seq α) : List α → Seq α → Out α → Prop
  | [], l', o => l' = l ∧ o = .done
  | v :: vs, l', o => ∃ l1 o1, Insert key lt isSet cap l v l1 o1 ∧ match o1 with
      | .fail e => l' = l1 ∧ o = .fail e
      | _ => InsertAll isSet cap l1 vs l' o

/-- `map[k]`: the position of the element, created with the value `mk k` if it is missing. -/
def Index (mk : K → α) (cap : Nat) (l : Seq α) (k : K) (l' : Seq α) (o : Out α) : Prop :=
  match lookup key lt k l with
  | some e => l' = l ∧ o = .pos e.1
  | none => if l.length = cap then l' = l ∧ o = .fail .full
      else ∃ n, n ≠ 0 ∧ (∀ e ∈ l, e.1 ≠ n) ∧ l' = place key lt n (mk k) l ∧ o = .pos n

inductive Op (α K : Type) where
  | insert (v : α)
  | insertRange (vs : List α)
  | index (mk : K → α) (k : K)
  | write (p : Nat) (g : α → α)
  | eraseKey (k : K)
  | eraseAt (p : Nat)
  | eraseRange (p q : Nat)
  | clear
  | assign (vs : List α)
  | find (k : K)
  | lowerBound (k : K)
  | upperBound (k : K)
  | contains (k : K)
  | count (k : K)
  | at (k : K)
  | begin
  | next (p : Nat)
  | prev (p : Nat)
  | deref (p : Nat)
  | forward
  | backward
  | size
  | empty
  | full
  | available

/-- What the caller must respect: iterators point to elements, a range is a range of the container, and what is written keeps the key. -/
def Legal (l : Seq α) : Op α K → Prop
  | .index mk k => key (mk k) = k
  | .write p g => (∃ e ∈ l, e.1 = p) ∧ ∀ v, key (g v) = key v
  | .eraseAt p => ∃ e ∈ l, e.1 = p
  | .eraseRange p q => ∃ X Y Z : Seq α, l = X ++ Y ++ Z ∧ p = posOf (Y ++ Z).head? ∧ q = posOf Z.head?
  | .next p => ∃ e ∈ l, e.1 = p
  | .prev p => (p = 0 ∨ ∃ e ∈ l, e.1 = p) ∧ p ≠ posOf l.head?
  | .deref p => ∃ e ∈ l, e.1 = p
  | _ => True

/-- The effect and outcome of an operation. -/
def Step (isSet : Bool) (cap : Nat) (l : Seq α) : Op α K → Seq α → Out α → Prop
  | .insert v, l', o => Insert key lt isSet cap l v l' o
  | .insertRange vs, l', o => InsertAll key lt isSet cap l vs l' o
  | .index mk k, l', o => Index key lt mk cap l k l' o
  | .write p g, l', o => (∃ X v Y, l = X ++ (p, v) :: Y ∧ l' = X ++ (p, g v) :: Y) ∧ o = .done
  | .eraseKey k, l', o => l' = l.filter (fun e => !same key lt k e) ∧ o = .num (l.length - l'.length) ∧ l.length ≤ l'.length + 1
  | .eraseAt p, l', o => ∃ X v Y, l = X ++ (p, v) :: Y ∧ l' = X ++ Y ∧ o = .pos (posOf Y.head?)
  | .eraseRange p q, l', o => (∃ X Y Z : Seq α, l = X ++ Y ++ Z ∧ p = posOf (Y ++ Z).head? ∧ q = posOf Z.head? ∧ l' = X ++ Z) ∧ o = .pos q
  | .clear, l', o => l' = [] ∧ o = .done
  | .assign vs, l', o => InsertAll key lt isSet cap [] vs l' o
  | .find k, l', o => l' = l ∧ o = .pos (posOf (lookup key lt k l))
  | .lowerBound k, l', o => l' = l ∧ o = .pos (posOf (l.find? (fun e => !lt (key e.2) k)))
  | .upperBound k, l', o => l' = l ∧ o = .pos (posOf (l.find? (fun e => lt k (key e.2))))
  | .contains k, l', o => l' = l ∧ o = .flag (l.any (same key lt k))
  | .count k, l', o => l' = l ∧ o = .num (l.countP (same key lt k))
  | .at k, l', o => l' = l ∧ o = match lookup key lt k l with
      | some e => .elem e.2
      | none => .fail .outOfBounds
  | .begin, l', o => l' = l ∧ o = .pos (posOf l.head?)
  | .next p, l', o => l' = l ∧ ∃ X v Y, l = X ++ (p, v) :: Y ∧ o = .pos (posOf Y.head?)
  | .prev p, l', o => l' = l ∧ ∃ X e Y, l = X ++ e :: Y ∧ p = posOf Y.head? ∧ o = .pos e.1
  | .deref p, l', o => l' = l ∧ ∃ v, (p, v) ∈ l ∧ o = .elem v
  | .forward, l', o => l' = l ∧ o = .elems (l.map Prod.snd)
  | .backward, l', o => l' = l ∧ o = .elems (l.reverse.map Prod.snd)
  | .size, l', o => l' = l ∧ o = .num l.length
  | .empty, l', o => l' = l ∧ o = .flag l.isEmpty
  | .full, l', o => l' = l ∧ o = .flag (decide (l.length = cap))
  | .available, l', o => l' = l ∧ o = .num (cap - l.length)

/-- A history: the sequence of operations, their outcomes and the final contents. -/
inductive History (isSet : Bool) (cap : Nat) : Seq α → List (Op α K) → List (Out α) → Seq α → Prop where
  | nil (l : Seq α) : History isSet cap l [] [] l
  | cons {l l1 l2 : Seq α} {op : Op α K} {o : Out α} {ops : List (Op α K)} {os : List (Out α)} :
      Legal key l op → Step key lt isSet cap l op l1 o → History isSet cap l1 ops os l2 → History isSet cap l (op :: ops) (o :: os) l2

end Etl.Tree.Spec
