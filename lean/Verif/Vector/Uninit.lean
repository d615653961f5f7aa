import Verif.Vector.Props

/-!
# C09: `reserve` and `uninitialized_resize` of the vector

Source: `/repo/include/etl/vector.h` l.243-274.
-/
namespace Etl.Vector
open Mem
variable {α : Type}

/-- `uninitialized_resize(new_size)`, l.247-264: `p_end` is moved, no element is constructed or destroyed. -/
def uninitializedResize (s : St α) (newSize : Nat) : St α × Option Err := if newSize ≤ s.mem.cap then ({ s with n := newSize }, none) else (s, some .full)
/-- `reserve(n)`, l.270-274. -/
def reserve (s : St α) (k : Nat) : St α × Option Err := if k ≤ s.mem.cap then (s, none) else (s, some .outOfBounds)

/-- C09, `reserve`, after any history: nothing changes, and the error is raised exactly if the request is for more than the capacity. -/
theorem C09_reserve {cap : Nat} {sms check debug : Bool} {s : St α} {l : List α} (h : Good cap sms check debug s l) (k : Nat) :
    (reserve s k).1 = s ∧ Shows cap (reserve s k).1 l ∧ (reserve s k).2 = if k ≤ cap then none else some .outOfBounds := by
  have hs : (reserve s k).1 = s := by unfold reserve; split <;> rfl
  refine ⟨hs, by rw [hs]; exact shows_of_good h, ?_⟩
  unfold reserve; rw [h.cap]; split <;> rfl

/-- C09, `uninitialized_resize`, after any history: a size above the capacity is refused and nothing changes.  Otherwise the size is the one asked for and the elements below it that existed are as before, at the same places.  If
the vector has grown and the caller constructs the new elements, it is the vector of the old and the new elements. -/
theorem C09_uninitialized_resize {cap : Nat} {sms check debug : Bool} {s : St α} {l : List α} (h : Good cap sms check debug s l) (k : Nat) :
    (cap < k → uninitializedResize s k = (s, some .full)) ∧
    (k ≤ cap → (uninitializedResize s k).2 = none ∧ size (uninitializedResize s k).1 = k ∧ available (uninitializedResize s k).1 = cap - k ∧
      (∀ (i : Nat) (v : α), i < k → l[i]? = some v → index (uninitializedResize s k).1 i = .ok v ∧ atIdx (uninitializedResize s k).1 i = .ok (.ok v)) ∧
      (∀ i, k ≤ i → atIdx (uninitializedResize s k).1 i = .ok (.error .outOfBounds)) ∧
      (∀ vs : List α, l.length + vs.length = k → ∃ m, (uninitializedResize s k).1.mem.copyNew l.length vs = .ok m ∧ Good cap sms check debug { (uninitializedResize s k).1 with mem := m } (l ++ vs))) := by
  have hn := h.n; have hcap := h.cap; have hle := h.mem.1
  constructor
  · intro hk; unfold uninitializedResize; rw [if_neg (by omega)]
  · intro hk
    have e : uninitializedResize s k = ({ s with n := k }, none) := by unfold uninitializedResize; rw [if_pos (by omega)]
    rw [e]
    refine ⟨rfl, rfl, by simp [available, hcap], fun i v hi hv => ?_, fun i hi => by simp [atIdx]; omega, fun vs hvs => ?_⟩
    · obtain ⟨h1, h2⟩ := (shows_of_good h).index i v hv
      exact ⟨h1, by
        have h3 : s.mem.read i = .ok v := h1
        simp [atIdx, hi, h3, bind, Except.bind]⟩
    · obtain ⟨m, e2, s1, c1⟩ := copyNew_ok vs s.mem l.length (by omega) (fun j h1 _ => h.mem.israw h1)
      refine ⟨m, e2, s1.1.trans h.cap, s1.2.trans h.sms, h.chk, h.dbg, by simp; omega, by simp [s1.1]; omega, fun j => ?_⟩
      rw [c1]
      unfold cellOf
      by_cases hj : l.length ≤ j
      · rw [if_pos hj, List.getElem?_append_right hj]
        cases hv : vs[j - l.length]? with
        | some v => rfl
        | none => simp only; rw [h.mem.2, cellOf_ge hj]
      · rw [if_neg hj, List.getElem?_append_left (by omega)]
        simp only; rw [h.mem.2]; rfl

/-- Finding: shrinking destroys nothing: the element behind the new end is still alive and is never destroyed; the next `push_back` constructs another over it. -/
theorem uninitialized_shrink_leaks : (match run (init 4 true true true) [.pushBack 7, .pushBack (8 : Nat)] with
    | .ok (s, _) =>
      let t := (uninitializedResize s 1).1
      some (size t, t.mem.cell 1, (step t (.pushBack 9)).map (fun p => p.1.n), (initialise t).map (fun u => u.mem.cell 1))
    | .error _ => none) = some (1, .live 8, .error .constructLive, .ok (.live 8)) := rfl

example : (match run (init 4 true true true) [.pushBack 7, .pushBack (8 : Nat)] with
    | .ok (s, _) => ((uninitializedResize s 4).1.n, (uninitializedResize s 5).2, (reserve s 4).2, (reserve s 5).2) = (4, some .full, none, some .outOfBounds)
    | .error _ => False) := rfl

end Etl.Vector
