import Verif.Common.Res

/-!
# Linearizability of an object that any number of threads use

A small specification, independent of the models of `etl::atomic`: histories of calls and returns, and what it means that every call takes effect at one moment between its call and its return.
-/
namespace Etl.Atomic
variable {O R S : Type}

/-- What happens: thread `t` calls, its call takes effect (not visible from outside), it returns. -/
inductive Ev (O R : Type) where
  | inv (t : Nat) (o : O)
  | lin (t : Nat) (o : O) (r : R)
  | ret (t : Nat) (o : O) (r : R)

/-- What can be seen from outside: calls and returns. -/
def visible : List (Ev O R) → List (Ev O R)
  | [] => []
  | .lin _ _ _ :: t => visible t
  | e :: t => e :: visible t

/-- The operations in the order in which they take effect. -/
def lins : List (Ev O R) → List (O × R)
  | [] => []
  | .lin _ o r :: t => (o, r) :: lins t
  | _ :: t => lins t

/-- Where a thread is: between calls; in a call that has not taken effect; in one that has. -/
inductive Phase (O R : Type) where
  | out
  | before (o : O)
  | after (o : O) (r : R)

/-- What one event does with the phase of thread `t`; not for an event that cannot come now. -/
inductive Next (t : Nat) : Phase O R → Ev O R → Phase O R → Prop where
  | inv (o) : Next t .out (.inv t o) (.before o)
  | lin (o r) : Next t (.before o) (.lin t o r) (.after o r)
  | ret (o r) : Next t (.after o r) (.ret t o r) .out
  | inv' {p u o} (h : u ≠ t) : Next t p (.inv u o) p
  | lin' {p u o r} (h : u ≠ t) : Next t p (.lin u o r) p
  | ret' {p u o r} (h : u ≠ t) : Next t p (.ret u o r) p
/-- The events of thread `t` in a history follow each other: call, effect, return with the result of the effect. -/
inductive Follows (t : Nat) : List (Ev O R) → Phase O R → Prop where
  | nil : Follows t [] .out
  | snoc {h p e q} (a : Follows t h p) (b : Next t p e q) : Follows t (h ++ [e]) q

/-- The operations, one after the other, are possible for the object with the sequential specification `spec`. -/
inductive Legal (spec : S → O → S → R → Prop) : S → List (O × R) → S → Prop where
  | nil (s) : Legal spec s [] s
  | snoc {s h s1 o r s2} (a : Legal spec s h s1) (b : spec s1 o s2 r) : Legal spec s (h ++ [(o, r)]) s2

/-- The history `h` of calls and returns is linearizable: moments for the effects can be put into it, such that each is between the call and the return and the effects in this order are a sequential execution. -/
def Linearizable (spec : S → O → S → R → Prop) (s : S) (h : List (Ev O R)) (s' : S) : Prop :=
  ∃ h', visible h' = h ∧ (∀ t, ∃ p, Follows t h' p) ∧ Legal spec s (lins h') s'

theorem lins_append (a b : List (Ev O R)) : lins (a ++ b) = lins a ++ lins b := by
  induction a with
  | nil => rfl
  | cons e a ih => cases e <;> simp [lins, ih]

end Etl.Atomic
