import Verif.Spsc.Model

/-!
# Sequential specification of an SPSC queue

`Accepts size t q f a`: the trace `t` of completed calls is a legal history of a bounded FIFO queue of
capacity `size`, ending with contents `q`.  `f` is the number of free places the producer is sure of and `a`
the number of elements the consumer is sure of; a call first refreshes its side's number to any
value between the old one and the true one.
-/
namespace Etl.Spsc

variable {α : Type}

inductive Accepts (size : Nat) : List (Ev α) → List α → Nat → Nat → Prop where
  | nil : Accepts size [] [] size 0
  /-- a producer may learn of consumption at any time -/
  | learnP {t q f a f'} : Accepts size t q f a → f ≤ f' → f' + q.length ≤ size → Accepts size t q f' a
  /-- a consumer may learn of production at any time -/
  | learnC {t q f a a'} : Accepts size t q f a → a ≤ a' → a' ≤ q.length → Accepts size t q f a'
  | pushed {t q f a v} : Accepts size t q (f + 1) a → Accepts size (t ++ [.pushed v]) (q ++ [v]) f a
  | pushFull {t q a v} : Accepts size t q 0 a → Accepts size (t ++ [.pushFull v]) q 0 a
  | popped {t q f a v} : Accepts size t (v :: q) f (a + 1) → Accepts size (t ++ [.popped v]) q f a
  | discarded {t q f a v} : Accepts size t (v :: q) f (a + 1) → Accepts size (t ++ [.discarded]) q f a
  | popEmpty {t q f} : Accepts size t q f 0 → Accepts size (t ++ [.popEmpty]) q f 0
  | front {t q f a v} : Accepts size t (v :: q) f (a + 1) → Accepts size (t ++ [.front v]) (v :: q) f (a + 1)
  | frontEmpty {t q f} : Accepts size t q f 0 → Accepts size (t ++ [.frontEmpty]) q f 0
  | full {t q f a} : Accepts size t q f a → Accepts size (t ++ [.pFull (f == 0)]) q f a
  | empty {t q f a} : Accepts size t q f a → Accepts size (t ++ [.cEmpty (a == 0)]) q f a
  | pSize {t q f a} : Accepts size t q f a → Accepts size (t ++ [.pSize (size - f)]) q f a
  | cSize {t q f a} : Accepts size t q f a → Accepts size (t ++ [.cSize a]) q f a

/-- Values of the successful `push`/`emplace` calls, in order. -/
def pushes : List (Ev α) → List α
  | [] => []
  | .pushed v :: t => v :: pushes t
  | _ :: t => pushes t

/-- The successful `pop` calls in order: `some v` for `pop(value)` delivering `v`, `none` for the discarding `pop()`. -/
def pops : List (Ev α) → List (Option α)
  | [] => []
  | .popped v :: t => some v :: pops t
  | .discarded :: t => none :: pops t
  | _ :: t => pops t

end Etl.Spsc
