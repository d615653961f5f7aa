import Verif.Deque.Props

/-!
# C11: `swap` of deque iterators

Source: `/repo/include/etl/deque.h` l.459-464 (`iterator::swap`), l.717-721 (`const_iterator::swap`), l.343-346 (`operator *`), l.243-263, l.487-491 (the members).  There may be any number of deques, numbered.
-/
namespace Etl.Deque
variable {α : Type}

/-- An iterator, l.487-491: `index`, and the deque `p_deque` and `p_buffer` point to. -/
structure It where
  index : Nat
  home : Nat
  deriving DecidableEq

/-- `operator *`, l.343-346. -/
def It.deref (d : Nat → St α) (a : It) : Res α := (d a.home).mem.read a.index
/-- `begin() + i` of deque `x`. -/
def at_ (d : Nat → St α) (x i : Nat) : It := ⟨add (bs (d x)) (d x).b i, x⟩
/-- `swap(other)`, l.459-464, l.717-721: only the indices are exchanged.  The result is the iterator and the other one afterwards. -/
def It.swap (a b : It) : It × It := ({ a with index := b.index }, { b with index := a.index })

/-- Exchanging two iterators of the same deque, after any history: each is the other before, so what is read through them is exchanged.
For iterators of two deques this is false (`swap_of_two_deques`). -/
theorem C11_iterator_swap_same_deque {d : Nat → St α} {x cap : Nat} {sms check : Bool} {l : List α} (h : Good cap sms check (d x) l) {i j : Nat} (hi : i < l.length) (hj : j < l.length) :
    It.swap (at_ d x i) (at_ d x j) = (at_ d x j, at_ d x i) ∧ (It.swap (at_ d x i) (at_ d x j)).1.deref d = .ok l[j] ∧ (It.swap (at_ d x i) (at_ d x j)).2.deref d = .ok l[i] := by
  have g := (shows_of_good h).index
  exact ⟨rfl, (g j l[j] (List.getElem?_eq_getElem hj)).1, (g i l[i] (List.getElem?_eq_getElem hi)).1⟩

/-- Iterators of two deques are not exchanged: each stays in its deque, at the index of the other. -/
theorem swap_of_two_deques {a b : It} (h : a.home ≠ b.home) : (It.swap a b).1.home = a.home ∧ (It.swap a b).2.home = b.home ∧ It.swap a b ≠ (b, a) := by
  refine ⟨rfl, rfl, fun q => h ?_⟩
  exact congrArg (fun p : It × It => p.1.home) q

/-- Of the deques 1, 2 and 7, 8, 9: after the exchange of `begin() + 1` and `begin() + 2` the first iterator is the end of the first deque, where there is no element, and the second reads 8 instead of 2. -/
theorem swap_of_two_deques_reads :
    (match run (init 3 false true) [.pushBack 1, .pushBack (2 : Nat)], run (init 3 false true) [.pushBack 7, .pushBack 8, .pushBack (9 : Nat)] with
      | .ok (s, _), .ok (t, _) =>
        let d : Nat → St Nat := fun x => if x = 0 then s else t
        let p := It.swap (at_ d 0 1) (at_ d 1 2)
        some ((at_ d 0 1).deref d, (at_ d 1 2).deref d, p.1.deref d, p.2.deref d)
      | _, _ => none) = some (.ok 2, .ok 9, .error .deadAccess, .ok 8) := rfl

end Etl.Deque
