import Verif.MultiSpan.Model
import Mathlib.Tactic.Linarith

/-!
# Properties of multi_span.h (C87): it shows the concatenation of its spans
-/
namespace Etl.MultiSpan
variable {α : Type} {l : List (List α)} {it : It} {k : Nat}

/-! ## Where an iterator stands -/

/-- The iterator `it` stands at the element `k` of the concatenation (at its end if `k` is its length): in its span `s` at the position `j`, with `k - j` elements in the spans before. -/
def At (l : List (List α)) (it : It) (k : Nat) : Prop :=
  (∃ s j, l[it.cur]? = some s ∧ it.p = some j ∧ j < s.length ∧ k = (l.take it.cur).flatten.length + j) ∨ (it = ⟨l.length, none⟩ ∧ k = l.flatten.length)

/-! ## Proofs -/

theorem off_succ {i : Nat} {s : List α} (h : l[i]? = some s) : (l.take (i + 1)).flatten.length = (l.take i).flatten.length + s.length := by
  rw [List.take_add_one, h]; simp
theorem off_mono {i j : Nat} (h : i ≤ j) : (l.take i).flatten.length ≤ (l.take j).flatten.length := by
  have : l.take i = (l.take j).take i := by rw [List.take_take]; congr 1; omega
  rw [this]
  have h2 := congrArg (fun x => (List.flatten x).length) (List.take_append_drop i (l.take j))
  simp only [List.flatten_append, List.length_append] at h2
  omega
theorem off_all : (l.take l.length).flatten.length = l.flatten.length := by rw [List.take_length]

theorem lt_len {i : Nat} {s : List α} (h : l[i]? = some s) : i < l.length := (List.getElem?_eq_some_iff.mp h).1
theorem span_eq {i : Nat} {s : List α} (h : l[i]? = some s) : span l i = .ok s := by unfold span; rw [h]

theorem at_cases (h : At l it k) : (k < l.flatten.length ∧ it.cur < l.length ∧ it.p.isSome) ∨ (k = l.flatten.length ∧ it = ⟨l.length, none⟩) := by
  rcases h with ⟨s, j, h1, h2, h3, h4⟩ | ⟨h1, h2⟩
  · left
    have hl := lt_len h1
    have a := off_succ h1
    have b := off_mono (l := l) (i := it.cur + 1) (j := l.length) (by omega)
    rw [off_all] at b
    exact ⟨by omega, hl, by rw [h2]; rfl⟩
  · exact Or.inr ⟨h2, h1⟩

theorem skipUp_spec : ∀ (fuel i : Nat), i ≤ l.length → l.length < fuel + i → ∃ i', skipUp l fuel i = .ok i' ∧ At l (place l i') (l.take i).flatten.length := by
  intro fuel
  induction fuel with
  | zero => intro i h1 h2; omega
  | succ fuel ih =>
    intro i h1 h2
    unfold skipUp
    by_cases hi : i ≠ l.length
    · rw [if_pos hi]
      obtain ⟨s, hs⟩ : ∃ s, l[i]? = some s := ⟨_, List.getElem?_eq_getElem (by omega)⟩
      simp only [bind, Except.bind, span_eq hs]
      cases s with
      | nil =>
        obtain ⟨i', e, ha⟩ := ih (i + 1) (by omega) (by omega)
        refine ⟨i', by simpa using e, ?_⟩
        rw [off_succ hs] at ha; exact ha
      | cons x s =>
        refine ⟨i, by simp, ?_⟩
        unfold place
        rw [if_pos hi]
        exact Or.inl ⟨_, 0, hs, rfl, by simp, rfl⟩
    · rw [if_neg hi]
      have : i = l.length := by omega
      subst this
      refine ⟨_, rfl, ?_⟩
      unfold place
      rw [if_neg (by simp)]
      exact Or.inr ⟨rfl, off_all⟩

theorem skipDown_spec : ∀ (fuel i : Nat), i ≤ l.length → i < fuel → 0 < (l.take i).flatten.length → ∃ i' s, skipDown l fuel i = .ok i' ∧ l[i']? = some s ∧ s ≠ [] ∧ (l.take i).flatten.length = (l.take i').flatten.length + s.length := by
  intro fuel
  induction fuel with
  | zero => intro i _ h; omega
  | succ fuel ih =>
    intro i h1 h2 h3
    unfold skipDown
    have hi : i ≠ 0 := by rintro rfl; simp at h3
    rw [if_neg hi]
    obtain ⟨s, hs⟩ : ∃ s, l[i - 1]? = some s := ⟨_, List.getElem?_eq_getElem (by omega)⟩
    have ho := off_succ hs
    rw [show i - 1 + 1 = i by omega] at ho
    by_cases hz : i - 1 ≠ 0
    · rw [if_pos hz]
      simp only [bind, Except.bind, span_eq hs]
      cases s with
      | nil =>
        simp only [List.length_nil, Nat.add_zero] at ho
        obtain ⟨i', s', e, h⟩ := ih (i - 1) (by omega) (by omega) (by omega)
        exact ⟨i', s', by simpa using e, by rw [ho]; exact h⟩
      | cons x s => exact ⟨i - 1, _, by simp, hs, by simp, ho⟩
    · rw [if_neg hz]
      refine ⟨i - 1, s, rfl, hs, ?_, ho⟩
      rintro rfl
      have : i - 1 = 0 := by omega
      have h0 : (l.take (i - 1)).flatten.length = 0 := by rw [this]; rfl
      simp only [List.length_nil] at ho; omega

theorem lastOf_spec {i : Nat} {s : List α} (hs : l[i]? = some s) (hne : s ≠ []) : ∃ it', lastOf l i = .ok it' ∧ At l it' ((l.take i).flatten.length + s.length - 1) := by
  unfold lastOf
  simp only [bind, Except.bind, span_eq hs]
  have : 0 < s.length := List.length_pos_iff.mpr hne
  rw [if_neg (by omega)]
  exact ⟨_, rfl, Or.inl ⟨s, s.length - 1, hs, rfl, by omega, by simp only; omega⟩⟩

/-! ## Properties -/

/-- C87: `begin()` stands at the first element (at the end if there is none), `end()` at the end. -/
theorem C87_ends (l : List (List α)) : (∃ b, begin_ l = .ok b ∧ At l b 0) ∧ ∃ e, end_ l = .ok e ∧ At l e l.flatten.length := by
  constructor
  · unfold begin_ mk
    by_cases h : 0 ≠ l.length
    · rw [if_pos h]
      obtain ⟨i, e, ha⟩ := skipUp_spec (l := l) (l.length + 1) 0 (by omega) (by omega)
      simp only [bind, Except.bind, e]
      exact ⟨_, rfl, by simpa using ha⟩
    · rw [if_neg h]
      have hl : l = [] := List.length_eq_zero_iff.mp (by omega)
      subst hl
      exact ⟨_, rfl, Or.inr ⟨rfl, rfl⟩⟩
  · unfold end_ mk
    rw [if_neg (by simp)]
    exact ⟨_, rfl, Or.inr ⟨rfl, rfl⟩⟩

theorem at_mono {it' : It} {k' : Nat} (h : At l it k) (h' : At l it' k') (hlt : it.cur < it'.cur) : k < k' := by
  rcases h with ⟨s, j, h1, h2, h3, h4⟩ | ⟨h1, h2⟩
  · have a := off_succ h1
    rcases h' with ⟨s', j', g1, g2, g3, g4⟩ | ⟨g1, g2⟩
    · have b := off_mono (l := l) (i := it.cur + 1) (j := it'.cur) (by omega)
      omega
    · subst g1
      simp only at hlt
      have b := off_mono (l := l) (i := it.cur + 1) (j := l.length) (by omega)
      rw [off_all] at b
      omega
  · subst h1
    rcases at_cases h' with ⟨_, h, _⟩ | ⟨_, rfl⟩
    · simp only at hlt; omega
    · simp at hlt

/-- C87: two iterators compare equal exactly if they stand at the same place. -/
theorem C87_equal {it' : It} {k' : Nat} (h : At l it k) (h' : At l it' k') : it = it' ↔ k = k' := by
  constructor
  · intro e
    subst e
    rcases h with ⟨s, j, h1, h2, h3, h4⟩ | ⟨h1, h2⟩
    · rcases h' with ⟨s', j', g1, g2, g3, g4⟩ | ⟨g1, g2⟩
      · rw [h2] at g2; cases g2; omega
      · subst g1; cases h2
    · rcases h' with ⟨s', j', g1, g2, g3, g4⟩ | ⟨g1, g2⟩
      · subst h1; cases g2
      · omega
  · intro e
    subst e
    have hc : it.cur = it'.cur := by
      rcases Nat.lt_trichotomy it.cur it'.cur with c | c | c
      · have := at_mono h h' c; omega
      · exact c
      · have := at_mono h' h c; omega
    rcases h with ⟨s, j, h1, h2, h3, h4⟩ | ⟨h1, h2⟩
    · rcases h' with ⟨s', j', g1, g2, g3, g4⟩ | ⟨g1, g2⟩
      · have : j = j' := by rw [hc] at h4; omega
        subst this
        cases it; cases it'
        simp only at *
        subst hc; rw [h2, g2]
      · subst g1
        have := lt_len h1
        simp only at hc; omega
    · rcases h' with ⟨s', j', g1, g2, g3, g4⟩ | ⟨g1, g2⟩
      · subst h1
        have := lt_len g1
        simp only at hc; omega
      · rw [h1, g1]

/-- C87: `++` goes to the next element, over empty spans; at the end it does nothing. -/
theorem C87_next (h : At l it k) : ∃ it', next l it = .ok it' ∧ At l it' (if k < l.flatten.length then k + 1 else k) := by
  unfold next
  rcases h with ⟨s, j, h1, h2, h3, h4⟩ | ⟨rfl, rfl⟩
  · have hlt := lt_len h1
    have a := off_succ h1
    have b := off_mono (l := l) (i := it.cur + 1) (j := l.length) (by omega)
    rw [off_all] at b
    rw [if_pos (by omega), if_pos (by omega), h2]
    simp only [bind, Except.bind, span_eq h1]
    by_cases hj : j + 1 = s.length
    · rw [if_pos hj]
      obtain ⟨i, e, ha⟩ := skipUp_spec (l := l) (l.length + 1) (it.cur + 1) (by omega) (by omega)
      rw [e]
      refine ⟨_, rfl, ?_⟩
      rw [a] at ha
      rw [show k + 1 = (l.take it.cur).flatten.length + s.length by omega]; exact ha
    · rw [if_neg hj]
      exact ⟨_, rfl, Or.inl ⟨s, j + 1, h1, rfl, by omega, by simp only; omega⟩⟩
  · rw [if_neg (by simp), if_neg (by simp)]
    exact ⟨_, rfl, Or.inr ⟨rfl, rfl⟩⟩

/-- C87: `--` goes to the element before, if there is one, over empty spans.  What is missing: from `end()` if the last span is empty, where it leaves the span (`C87_finding_empty_last`). -/
theorem C87_prev_partial (h : At l it k) (hk : 0 < k) (he : k < l.flatten.length ∨ ∀ s, l.getLast? = some s → s ≠ []) : ∃ it', prev l it = .ok it' ∧ At l it' (k - 1) := by
  unfold prev
  rcases h with ⟨s, j, h1, h2, h3, h4⟩ | ⟨rfl, rfl⟩
  · have hlt := lt_len h1
    rw [if_neg (by omega)]
    cases j with
    | zero =>
      have hne : it.cur ≠ 0 := by
        intro e
        rw [e] at h4; simp at h4; omega
      rw [if_pos (Or.inl hne), if_pos h2]
      obtain ⟨i', s', e, hs, hn, ho⟩ := skipDown_spec (l := l) (l.length + 1) it.cur (by omega) (by omega) (by omega)
      simp only [bind, Except.bind, e]
      obtain ⟨it', e', ha⟩ := lastOf_spec hs hn
      refine ⟨it', e', ?_⟩
      rw [show k - 1 = (l.take i').flatten.length + s'.length - 1 by omega]; exact ha
    | succ j =>
      have hne : it.p ≠ some 0 := by rw [h2]; simp
      rw [if_pos (Or.inr hne), if_neg hne, h2]
      exact ⟨_, rfl, Or.inl ⟨s, j, h1, rfl, by omega, by simp only; omega⟩⟩
  · rw [if_pos rfl]
    have hl : l.length ≠ 0 := by
      intro e
      rw [List.length_eq_zero_iff] at e
      subst e; simp at hk
    rw [if_neg hl]
    obtain ⟨s, hs⟩ : ∃ s, l[l.length - 1]? = some s := ⟨_, List.getElem?_eq_getElem (by omega)⟩
    have hn := he.resolve_left (by omega) s (by rw [List.getLast?_eq_getElem?]; exact hs)
    obtain ⟨it', e', ha⟩ := lastOf_spec hs hn
    refine ⟨it', e', ?_⟩
    have := off_succ hs
    rw [show l.length - 1 + 1 = l.length by omega, off_all] at this
    rw [this]; exact ha

theorem flatten_get {i : Nat} {s : List α} (h : l[i]? = some s) {j : Nat} (hj : j < s.length) : l.flatten[(l.take i).flatten.length + j]? = s[j]? := by
  have hsplit : l = l.take i ++ s :: l.drop (i + 1) := by
    conv_lhs => rw [← List.take_append_drop i l]
    rw [List.drop_eq_getElem_cons (lt_len h)]
    have := (List.getElem?_eq_some_iff.mp h).2
    rw [this]
  conv_lhs => rw [hsplit]
  rw [List.flatten_append, List.flatten_cons]
  have e : (List.take i (List.take i l ++ s :: List.drop (i + 1) l)) = List.take i l := by rw [← hsplit]
  rw [e, List.getElem?_append_right (by omega), List.getElem?_append_left (by omega)]
  congr 1; omega

/-- C87: the iterator shows the element where it stands. -/
theorem C87_deref (h : At l it k) (hk : k < l.flatten.length) : ∃ x, l.flatten[k]? = some x ∧ deref l it = .ok x := by
  rcases h with ⟨s, j, h1, h2, h3, h4⟩ | ⟨rfl, rfl⟩
  · refine ⟨s[j], ?_, ?_⟩
    · rw [h4, flatten_get h1 h3]; exact List.getElem?_eq_getElem h3
    · unfold deref
      rw [h2]
      simp only [bind, Except.bind, span_eq h1]
      rw [List.getElem?_eq_getElem h3]
  · omega

theorem walk_spec : ∀ (fuel : Nat) (it : It) (k : Nat), At l it k → l.flatten.length < fuel + k → k ≤ l.flatten.length → walk l fuel it = .ok (l.flatten.drop k) := by
  intro fuel
  induction fuel with
  | zero => intro it k _ h1 h2; omega
  | succ fuel ih =>
    intro it k ha h1 h2
    obtain ⟨e, he, hae⟩ := (C87_ends l).2
    unfold walk
    simp only [bind, Except.bind, he]
    by_cases hk : k < l.flatten.length
    · have hne : it ≠ e := fun c => by have := (C87_equal ha hae).mp c; omega
      rw [if_neg hne]
      obtain ⟨x, hx, hd⟩ := C87_deref ha hk
      obtain ⟨it', hn, ha'⟩ := C87_next ha
      rw [if_pos hk] at ha'
      rw [hd, hn]
      simp only []
      rw [ih it' (k + 1) ha' (by omega) (by omega)]
      rw [List.drop_eq_getElem_cons hk]
      have := (List.getElem?_eq_some_iff.mp hx).2
      rw [this]
    · have : it = e := (C87_equal ha hae).mpr (by omega)
      rw [if_pos this, List.drop_of_length_le (by omega)]

/-- C87: a loop from `begin()` to `end()` sees all elements of all spans in order. -/
theorem C87_forward (l : List (List α)) : ∃ b, begin_ l = .ok b ∧ walk l (l.flatten.length + 1) b = .ok l.flatten := by
  obtain ⟨b, hb, ha⟩ := (C87_ends l).1
  refine ⟨b, hb, ?_⟩
  have := walk_spec (l.flatten.length + 1) b 0 ha (by omega) (by omega)
  simpa using this

theorem walkBack_spec (hl : ∀ s, l.getLast? = some s → s ≠ []) : ∀ (fuel : Nat) (it : It) (k : Nat), At l it k → k < fuel → walkBack l fuel it = .ok (l.flatten.take k).reverse := by
  intro fuel
  induction fuel with
  | zero => intro it k _ h1; omega
  | succ fuel ih =>
    intro it k ha h1
    obtain ⟨b, hb, hab⟩ := (C87_ends l).1
    unfold walkBack
    simp only [bind, Except.bind, hb]
    by_cases hk : 0 < k
    · have hne : it ≠ b := fun c => by have := (C87_equal ha hab).mp c; omega
      rw [if_neg hne]
      obtain ⟨q, hq, haq⟩ := C87_prev_partial ha hk (Or.inr hl)
      have hkl : k ≤ l.flatten.length := by rcases at_cases ha with ⟨h, _⟩ | ⟨h, _⟩ <;> omega
      obtain ⟨x, hx, hd⟩ := C87_deref haq (by omega)
      rw [hq]
      simp only []
      rw [hd, ih q (k - 1) haq (by omega)]
      simp only []
      obtain ⟨k, rfl⟩ : ∃ m, k = m + 1 := ⟨k - 1, by omega⟩
      simp only [Nat.add_sub_cancel] at hx ⊢
      rw [List.take_add_one, hx]; simp
    · have h0 : k = 0 := by omega
      subst h0
      have : it = b := (C87_equal ha hab).mpr rfl
      rw [if_pos this]; simp

/-- C87: a loop with reverse iterators sees them in the opposite order.  What is missing: lists whose last span is empty, see `C87_finding_empty_last`. -/
theorem C87_backward_partial (l : List (List α)) (hl : ∀ s, l.getLast? = some s → s ≠ []) : ∃ e, end_ l = .ok e ∧ walkBack l (l.flatten.length + 1) e = .ok l.flatten.reverse := by
  obtain ⟨e, he, ha⟩ := (C87_ends l).2
  refine ⟨e, he, ?_⟩
  have := walkBack_spec hl (l.flatten.length + 1) e _ ha (by omega)
  rw [List.take_length] at this; exact this

theorem findSpan_spec : ∀ (fuel i idx : Nat), l.length < fuel + idx → (l.take idx).flatten.length + i < l.flatten.length →
    ∃ i' idx' s, findSpan l fuel i idx = .ok (i', idx') ∧ l[idx']? = some s ∧ i' < s.length ∧ (l.take idx').flatten.length + i' = (l.take idx).flatten.length + i := by
  intro fuel
  induction fuel with
  | zero =>
    intro i idx h1 h2
    exfalso
    have := off_mono (l := l) (i := l.length) (j := idx) (by omega)
    rw [off_all] at this; omega
  | succ fuel ih =>
    intro i idx h1 h2
    have hlt : idx < l.length := by
      rcases Nat.lt_or_ge idx l.length with h | h
      · exact h
      · have := off_mono (l := l) (i := l.length) (j := idx) h
        rw [off_all] at this; omega
    obtain ⟨s, hs⟩ : ∃ s, l[idx]? = some s := ⟨_, List.getElem?_eq_getElem hlt⟩
    have ho := off_succ hs
    unfold findSpan
    simp only [bind, Except.bind, span_eq hs]
    by_cases hc : s.length ≤ i
    · rw [if_pos ⟨hc, hlt⟩]
      obtain ⟨i', idx', s', e, h⟩ := ih (i - s.length) (idx + 1) (by omega) (by omega)
      exact ⟨i', idx', s', e, h.1, h.2.1, by have := h.2.2; omega⟩
    · rw [if_neg (by omega)]
      exact ⟨i, idx, s, rfl, hs, by omega, rfl⟩

/-- C87: `[i]` is the element `i` of the concatenation, for every `i` below `size()`. -/
theorem C87_index (l : List (List α)) (i : Nat) (hi : i < l.flatten.length) : index l i = .ok l.flatten[i] := by
  obtain ⟨i', idx', s, e, hs, hlt, ho⟩ := findSpan_spec (l := l) (l.length + 1) i 0 (by omega) (by simpa using hi)
  unfold index
  simp only [bind, Except.bind, e, span_eq hs]
  have := flatten_get hs hlt
  rw [ho] at this
  simp only [List.take_zero, List.flatten_nil, List.length_nil, Nat.zero_add] at this
  rw [← this, List.getElem?_eq_getElem hi]

/-- C87: `size()` is the number of elements, `empty()` says if there are none, `size_spans()` is the number of spans. -/
theorem C87_size (l : List (List α)) : size l = l.flatten.length ∧ (empty l = true ↔ l.flatten = []) ∧ sizeSpans l = l.length := by
  have key : ∀ (l : List (List α)) (n : Nat), l.foldl (fun t s => t + s.length) n = n + l.flatten.length := by
    intro l
    induction l with
    | nil => intro n; rfl
    | cons s l ih => intro n; rw [List.foldl_cons, ih]; simp; omega
  have hsz : size l = l.flatten.length := by unfold size; rw [key]; omega
  refine ⟨hsz, ?_, rfl⟩
  unfold empty
  cases l with
  | nil => simp
  | cons s l =>
    rw [if_neg (by simp), hsz, beq_iff_eq, List.length_eq_zero_iff]

/-! ## Findings -/

/-- If the last span is empty, `--end()` (so the first step of a reverse iterator) forms a pointer before the beginning of this span, l.139-144: the loop that goes over empty spans is missing there. -/
theorem C87_finding_empty_last (l : List (List α)) : prev (l ++ [[]]) ⟨(l ++ [[]]).length, none⟩ = .error .outOfBounds := by
  unfold prev lastOf
  have hs : span (l ++ [[]]) ((l ++ [[]]).length - 1) = .ok [] := span_eq (by simp)
  rw [if_pos rfl, if_neg (by simp)]
  simp only [bind, Except.bind, hs]
  rfl

/-- `[i]` with `i` not below the size reads the size of a span behind the last one, l.607: the conditions of the loop are in the wrong order. -/
theorem C87_finding_index : index [[1, 2], [3]] 3 = .error .outOfBounds := rfl

/-! ## Examples -/

example : begin_ [[], [1, 2], [], [3]] = .ok ⟨1, some 0⟩ ∧ walk [[], [1, 2], [], [3]] 4 ⟨1, some 0⟩ = .ok [1, 2, 3] ∧ walkBack [[], [1, 2], [], [3]] 4 ⟨4, none⟩ = .ok [3, 2, 1] ∧ index [[], [1, 2], [], [3]] 2 = .ok 3 := ⟨rfl, rfl, rfl, rfl⟩
example : At [[], [1, 2], [], [3]] ⟨3, some 0⟩ 2 := Or.inl ⟨[3], 0, rfl, rfl, by decide, rfl⟩

end Etl.MultiSpan
