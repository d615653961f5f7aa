import Verif.Tree.Spec

/-!
# What an ordered multimap or multiset is

As for maps and sets (`Verif/Tree/Spec.lean`) the contents are a sequence of elements, each at a position; `end()` is position 0.
Here several elements may have equivalent keys.
-/
namespace Etl.MTree.Spec
open Etl.Tree.Spec (Seq Out Fail posOf same lookup)

variable {α K : Type} (key : α → K) (lt : K → K → Bool)

/-- A new element goes after the smaller and the equivalent elements and before the greater ones; nothing else moves. -/
def place (n : Nat) (v : α) (l : Seq α) : Seq α :=
  l.filter (fun e => !lt (key v) (key e.2)) ++ (n, v) :: l.filter (fun e => lt (key v) (key e.2))

/-- Insertion into a container of capacity `cap`. -/
def Insert (cap : Nat) (l : Seq α) (v : α) (l' : Seq α) (o : Out α) : Prop :=
  if l.length = cap then l' = l ∧ o = .fail .full
  else ∃ n, n ≠ 0 ∧ (∀ e ∈ l, e.1 ≠ n) ∧ l' = place key lt n v l ∧ o = .pos n

/-- Insertion of a range: one element after the other, up to the first failure. -/
def InsertAll (cap : Nat) (l : Seq α) : List α → Seq α → Out α → Prop
  | [], l', o => l' = l ∧ o = .done
  | v :: vs, l', o => ∃ l1 o1, Insert key lt cap l v l1 o1 ∧ match o1 with
      | .fail e => l' = l1 ∧ o = .fail e
      | _ => InsertAll cap l1 vs l' o

inductive Op (α K : Type) where
  | insert (v : α)
  | insertRange (vs : List α)
  | write (p : Nat) (g : α → α)
  | eraseKey (k : K)
  | eraseAt (p : Nat)
  | eraseRange (p q : Nat)
  | clear
  | assign (vs : List α)
  | find (k : K)
  | lowerBound (k : K)
  | upperBound (k : K)
  | contains (k : K)
  | count (k : K)
  | begin
  | next (p : Nat)
  | prev (p : Nat)
  | deref (p : Nat)
  | forward
  | backward
  | size
  | empty
  | full
  | available

/-- What the caller must respect in any container: iterators point to elements, a range is a range of the container, and what is written keeps the key. -/
def Legal (l : Seq α) : Op α K → Prop
  | .write p g => (∃ e ∈ l, e.1 = p) ∧ ∀ v, key (g v) = key v
  | .eraseAt p => ∃ e ∈ l, e.1 = p
  | .eraseRange p q => ∃ X Y Z : Seq α, l = X ++ Y ++ Z ∧ p = posOf (Y ++ Z).head? ∧ q = posOf Z.head?
  | .next p => ∃ e ∈ l, e.1 = p
  | .prev p => (p = 0 ∨ ∃ e ∈ l, e.1 = p) ∧ p ≠ posOf l.head?
  | .deref p => ∃ e ∈ l, e.1 = p
  | _ => True

/-- What the caller must respect here to keep the elements ordered: an element is only erased through an iterator if no element before it is equivalent to it.
(`erase_iterator_breaks_order` in `Props.lean` shows what happens otherwise.) -/
def Safe (l : Seq α) : Op α K → Prop
  | .eraseAt p => ∀ X v Y, l = X ++ (p, v) :: Y → ∀ e ∈ X, lt (key e.2) (key v) = true
  | .eraseRange p q => ∀ X Y Z : Seq α, l = X ++ Y ++ Z → p = posOf (Y ++ Z).head? → q = posOf Z.head? → ∀ y ∈ Y, ∀ e ∈ X, lt (key e.2) (key y.2) = true
  | _ => True

/-- The effect and outcome of an operation. -/
def Step (cap : Nat) (l : Seq α) : Op α K → Seq α → Out α → Prop
  | .insert v, l', o => Insert key lt cap l v l' o
  | .insertRange vs, l', o => InsertAll key lt cap l vs l' o
  | .write p g, l', o => (∃ X v Y, l = X ++ (p, v) :: Y ∧ l' = X ++ (p, g v) :: Y) ∧ o = .done
  | .eraseKey k, l', o => l' = l.filter (fun e => !same key lt k e) ∧ o = .num (l.countP (same key lt k))
  | .eraseAt p, l', o => ∃ X v Y, l = X ++ (p, v) :: Y ∧ l' = X ++ Y ∧ o = .pos (posOf Y.head?)
  | .eraseRange p q, l', o => (∃ X Y Z : Seq α, l = X ++ Y ++ Z ∧ p = posOf (Y ++ Z).head? ∧ q = posOf Z.head? ∧ l' = X ++ Z) ∧ o = .pos q
  | .clear, l', o => l' = [] ∧ o = .done
  | .assign vs, l', o => InsertAll key lt cap [] vs l' o
  | .find k, l', o => l' = l ∧ o = .pos (posOf (lookup key lt k l))
  | .lowerBound k, l', o => l' = l ∧ o = .pos (posOf (l.find? (fun e => !lt (key e.2) k)))
  | .upperBound k, l', o => l' = l ∧ o = .pos (posOf (l.find? (fun e => lt k (key e.2))))
  | .contains k, l', o => l' = l ∧ o = .flag (l.any (same key lt k))
  | .count k, l', o => l' = l ∧ o = .num (l.countP (same key lt k))
  | .begin, l', o => l' = l ∧ o = .pos (posOf l.head?)
  | .next p, l', o => l' = l ∧ ∃ X v Y, l = X ++ (p, v) :: Y ∧ o = .pos (posOf Y.head?)
  | .prev p, l', o => l' = l ∧ ∃ X e Y, l = X ++ e :: Y ∧ p = posOf Y.head? ∧ o = .pos e.1
  | .deref p, l', o => l' = l ∧ ∃ v, (p, v) ∈ l ∧ o = .elem v
  | .forward, l', o => l' = l ∧ o = .elems (l.map Prod.snd)
  | .backward, l', o => l' = l ∧ o = .elems (l.reverse.map Prod.snd)
  | .size, l', o => l' = l ∧ o = .num l.length
  | .empty, l', o => l' = l ∧ o = .flag l.isEmpty
  | .full, l', o => l' = l ∧ o = .flag (decide (l.length = cap))
  | .available, l', o => l' = l ∧ o = .num (cap - l.length)

/-- A history: the sequence of operations, their outcomes and the final contents. -/
inductive History (cap : Nat) : Seq α → List (Op α K) → List (Out α) → Seq α → Prop where
  | nil (l : Seq α) : History cap l [] [] l
  | cons {l l1 l2 : Seq α} {op : Op α K} {o : Out α} {ops : List (Op α K)} {os : List (Out α)} :
      Legal key l op → Safe key lt l op → Step key lt cap l op l1 o → History cap l1 ops os l2 → History cap l (op :: ops) (o :: os) l2

/-- Insertion that promises no place. -/
def InsertAny (cap : Nat) (l : Seq α) (v : α) (l' : Seq α) (o : Out α) : Prop :=
  if l.length = cap then l' = l ∧ o = .fail .full
  else ∃ n X Y, n ≠ 0 ∧ (∀ e ∈ l, e.1 ≠ n) ∧ l = X ++ Y ∧ l' = X ++ (n, v) :: Y ∧ o = .pos n

def InsertAllAny (cap : Nat) (l : Seq α) : List α → Seq α → Out α → Prop
  | [], l', o => l' = l ∧ o = .done
  | v :: vs, l', o => ∃ l1 o1, InsertAny cap l v l1 o1 ∧ match o1 with
      | .fail e => l' = l1 ∧ o = .fail e
      | _ => InsertAllAny cap l1 vs l' o

/-- Calls that do not search for a key. -/
def NoSearch : Op α K → Prop
  | .eraseKey _ | .find _ | .lowerBound _ | .upperBound _ | .contains _ | .count _ => False
  | _ => True

/-- The effect of the calls that do not search, when elements have been erased through arbitrary iterators: the same elements, but those before an erased one may change places. -/
def StepAny (cap : Nat) (l : Seq α) : Op α K → Seq α → Out α → Prop
  | .insert v, l', o => InsertAny cap l v l' o
  | .insertRange vs, l', o => InsertAllAny cap l vs l' o
  | .assign vs, l', o => InsertAll key lt cap [] vs l' o
  | .eraseAt p, l', o => ∃ X X' v Y, l = X ++ (p, v) :: Y ∧ X'.Perm X ∧ l' = X' ++ Y ∧ o = .pos (posOf Y.head?)
  | .eraseRange p q, l', o => (∃ X X' Y Z : Seq α, l = X ++ Y ++ Z ∧ p = posOf (Y ++ Z).head? ∧ q = posOf Z.head? ∧ X'.Perm X ∧ l' = X' ++ Z) ∧ o = .pos q
  | op, l', o => Step key lt cap l op l' o

/-- A history of such calls. -/
inductive HistoryAny (cap : Nat) : Seq α → List (Op α K) → List (Out α) → Seq α → Prop where
  | nil (l : Seq α) : HistoryAny cap l [] [] l
  | cons {l l1 l2 : Seq α} {op : Op α K} {o : Out α} {ops : List (Op α K)} {os : List (Out α)} :
      Legal key l op → NoSearch op → StepAny key lt cap l op l1 o → HistoryAny cap l1 ops os l2 → HistoryAny cap l (op :: ops) (o :: os) l2

end Etl.MTree.Spec
