/-!
# Outcomes

Operations of the model that can hit C++ undefined behaviour return `Except UB _`.
`ub` is never caught: a theorem that says a run is `.ok` says no undefined behaviour occurred.
-/
namespace Etl

/-- The kinds of undefined behaviour the models can exhibit. -/
inductive UB where
  | dataRace        -- conflicting non-atomic accesses not ordered by happens-before
  | constructLive   -- placement-new over a live object (its destructor is never run: a leak)
  | deadAccess      -- read / assign / destroy of storage holding no live object
  | outOfBounds     -- access outside the array
  | nullDeref       -- dereference of a null / invalid pointer
  | divByZero
  | overflow        -- signed overflow / shift too wide
  | diverge         -- infinite loop without side effects
  deriving DecidableEq, Repr

abbrev Res (α : Type u) := Except UB α

/-- Pointwise update of a function (memory write). -/
def upd {β : Type u} (f : Nat → β) (i : Nat) (v : β) : Nat → β :=
  fun j => if j = i then v else f j

@[simp] theorem upd_same {β : Type u} (f : Nat → β) (i : Nat) (v : β) : upd f i v i = v := by
  simp [upd]

theorem upd_other {β : Type u} (f : Nat → β) {i j : Nat} (v : β) (h : j ≠ i) :
    upd f i v j = f j := by
  simp [upd, h]

end Etl
