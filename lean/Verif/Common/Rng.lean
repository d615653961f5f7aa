import Verif.Common.Res
/-!
# Random access ranges

A range `[first, last)` of a C++ algorithm is modelled as a list; an access outside it is undefined behaviour.  Moves are modelled as
copies (the moved-from value stays behind); every algorithm modelled with them overwrites the source before the caller sees it.
-/
namespace Etl.Rng

variable {α : Type}

/-- `*(first + i)` as a value -/
def rd (a : List α) (i : Nat) : Res α := match a[i]? with
  | some x => .ok x
  | none => .error .outOfBounds

/-- `*(first + i) = x` -/
def wr (a : List α) (i : Nat) (x : α) : Res (List α) := if i < a.length then .ok (a.set i x) else .error .outOfBounds

/-- `swap(*(first + i), *(first + j))` -/
def swp (a : List α) (i j : Nat) : Res (List α) :=
  match rd a i with
  | .error u => .error u
  | .ok x => match rd a j with
    | .error u => .error u
    | .ok y => .ok ((a.set i y).set j x)

theorem rd_ok {a : List α} {i : Nat} {x : α} : rd a i = .ok x ↔ a[i]? = some x := by
  unfold rd; split <;> simp_all
theorem rd_lt {a : List α} {i : Nat} (h : i < a.length) : rd a i = .ok a[i] := by rw [rd_ok]; exact List.getElem?_eq_getElem h
theorem wr_lt {a : List α} {i : Nat} (x : α) (h : i < a.length) : wr a i x = .ok (a.set i x) := by unfold wr; rw [if_pos h]
theorem swp_lt {a : List α} {i j : Nat} (hi : i < a.length) (hj : j < a.length) : swp a i j = .ok ((a.set i a[j]).set j a[i]) := by
  unfold swp; rw [rd_lt hi, rd_lt hj]

theorem swp_perm {a : List α} {i j : Nat} (hi : i < a.length) (hj : j < a.length) : ((a.set i a[j]).set j a[i]).Perm a := List.set_set_perm hi hj

theorem get_swap {a : List α} {i j : Nat} (hi : i < a.length) (hj : j < a.length) (k : Nat) :
    ((a.set i a[j]).set j a[i])[k]? = if k = j then a[i]? else if k = i then a[j]? else a[k]? := by
  rw [List.getElem?_set, List.getElem?_set]
  simp only [List.length_set]
  by_cases h1 : j = k
  · subst h1; simp [hj, hi]
  · by_cases h2 : i = k
    · subst h2; simp [h1, hi, hj, Ne.symm h1]
    · simp [h1, h2, Ne.symm h1, Ne.symm h2]

end Etl.Rng
