import Verif.Algo.Search

/-! # Partition points of lists: what the binary searches give, as filters -/
namespace Etl.Algo
variable {α β : Type}

theorem partitioned_of_pairwise {a : List α} {p : α → Bool} (h : a.Pairwise (fun y z => p z = true → p y = true)) : Partitioned a p 0 a.length := by
  intro i j y z _ hij hj hy hz hp
  by_cases e : i = j
  · subst e; rw [hy] at hz; cases hz; exact hp
  · obtain ⟨hi, rfl⟩ := List.getElem?_eq_some_iff.1 hy
    obtain ⟨hj, rfl⟩ := List.getElem?_eq_some_iff.1 hz
    exact List.pairwise_iff_getElem.1 h i j hi hj (by omega) hp

theorem boundary_filter {a : List α} {p : α → Bool} {r : Nat} (h : IsBoundary a p 0 a.length r) :
    a.take r = a.filter p ∧ a.drop r = a.filter (fun x => !p x) := by
  obtain ⟨_, hr, hlo, hhi⟩ := h
  have h1 : ∀ x ∈ a.take r, p x = true := by
    intro x hx
    obtain ⟨i, hi⟩ := List.mem_iff_getElem?.1 hx
    have hir : i < r := by
      obtain ⟨hl, _⟩ := List.getElem?_eq_some_iff.1 hi
      simp at hl; omega
    rw [List.getElem?_take_of_lt hir] at hi
    exact hlo i x (by omega) hir hi
  have h2 : ∀ x ∈ a.drop r, p x = false := by
    intro x hx
    obtain ⟨i, hi⟩ := List.mem_iff_getElem?.1 hx
    rw [List.getElem?_drop] at hi
    have : r + i < a.length := (List.getElem?_eq_some_iff.1 hi).1
    exact hhi (r + i) x (by omega) this hi
  have e1 : a.filter p = a.take r := by
    conv => lhs; rw [← List.take_append_drop r a]
    rw [List.filter_append, List.filter_eq_self.2 h1, List.filter_eq_nil_iff.2 (fun x hx => by simp [h2 x hx]), List.append_nil]
  have e2 : a.filter (fun x => !p x) = a.drop r := by
    conv => lhs; rw [← List.take_append_drop r a]
    rw [List.filter_append, List.filter_eq_nil_iff.2 (fun x hx => by simp [h1 x hx]), List.nil_append,
      List.filter_eq_self.2 (fun x hx => by simp [h2 x hx])]
  exact ⟨e1.symm, e2.symm⟩

theorem lowerBound_filter (a : List α) (v : β) (cmp : α → β → Bool) (h : a.Pairwise (fun y z => cmp z v = true → cmp y v = true)) :
    ∃ r, lowerBound a 0 a.length v cmp = .ok r ∧ r ≤ a.length ∧ a.take r = a.filter (fun x => cmp x v) ∧ a.drop r = a.filter (fun x => !cmp x v) := by
  obtain ⟨r, e, hb⟩ := C21_lower_bound a 0 a.length (by omega) (Nat.le_refl _) v cmp (partitioned_of_pairwise h)
  exact ⟨r, e, hb.hi, boundary_filter hb⟩

theorem upperBound_filter (a : List α) (v : β) (cmp : β → α → Bool) (h : a.Pairwise (fun y z => cmp v y = true → cmp v z = true)) :
    ∃ r, upperBound a 0 a.length v cmp = .ok r ∧ r ≤ a.length ∧ a.take r = a.filter (fun x => !cmp v x) ∧ a.drop r = a.filter (fun x => cmp v x) := by
  obtain ⟨r, e, hb⟩ := C21_upper_bound a 0 a.length (by omega) (Nat.le_refl _) v cmp (partitioned_of_pairwise (h.imp (by
    intro y z hyz hz
    cases hc : cmp v y
    · rfl
    · simp [hyz hc] at hz)))
  obtain ⟨h1, h2⟩ := boundary_filter hb
  refine ⟨r, e, hb.hi, h1, ?_⟩
  simpa using h2

/-- `equal_range` on a list sorted by a numeric key cuts it into smaller, equal and greater. -/
theorem equalRange_key (a : List α) (key : α → Nat) (v : Nat) (h : a.Pairwise (fun y z => key y ≤ key z)) :
    ∃ l r, equalRange a 0 a.length v (fun x v => decide (key x < v)) (fun v x => decide (v < key x)) = .ok (l, r) ∧ l ≤ r ∧ r ≤ a.length ∧
      a.take l = a.filter (fun x => decide (key x < v)) ∧ (a.take r).drop l = a.filter (fun x => decide (key x = v)) ∧ a.drop r = a.filter (fun x => decide (v < key x)) := by
  obtain ⟨l, e1, hl, h1, h2⟩ := lowerBound_filter a v (fun x v => decide (key x < v)) (h.imp (by intro y z hyz; simp; omega))
  obtain ⟨r, e2, hr, h3, h4⟩ := upperBound_filter a v (fun v x => decide (v < key x)) (h.imp (by intro y z hyz; simp; omega))
  have hlr : l ≤ r := by
    have c1 : l = (a.filter (fun x => decide (key x < v))).length := by rw [← h1]; simp; omega
    have c2 : r = (a.filter (fun x => !decide (v < key x))).length := by rw [← h3]; simp; omega
    rw [c1, c2]
    simp only [← List.countP_eq_length_filter]
    apply List.countP_mono_left
    intro x _; simp; omega
  refine ⟨l, r, by simp [equalRange, e1, e2], hlr, hr, h1, ?_, h4⟩
  have : (a.take r).drop l = (a.drop l).filter (fun x => !decide (v < key x)) := by
    have ht : a.take r = a.take l ++ (a.take r).drop l := by
      conv => lhs; rw [← List.take_append_drop l (a.take r)]
      rw [List.take_take, Nat.min_eq_left hlr]
    have hd : a.drop l = (a.take r).drop l ++ a.drop r := by
      conv => lhs; rw [← List.take_append_drop r a]
      rw [List.drop_append_of_le_length (by simp; omega)]
    rw [hd, List.filter_append]
    have g1 : ((a.take r).drop l).filter (fun x => !decide (v < key x)) = (a.take r).drop l := by
      rw [List.filter_eq_self]
      intro x hx
      have := List.mem_of_mem_drop hx
      rw [h3, List.mem_filter] at this
      exact this.2
    have g2 : (a.drop r).filter (fun x => !decide (v < key x)) = [] := by
      rw [List.filter_eq_nil_iff]
      intro x hx
      rw [h4, List.mem_filter] at hx
      simpa using hx.2
    rw [g1, g2, List.append_nil]
  rw [this, h2, List.filter_filter]
  apply List.filter_congr
  intro x _
  rw [Bool.eq_iff_iff]; simp; omega

end Etl.Algo
