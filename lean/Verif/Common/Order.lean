import Mathlib.Tactic.ByContra
/-!
# Strict weak orders, sortedness and stability

Specification vocabulary shared by the sorting, searching and ordered-container properties.
-/
namespace Etl
variable {α β : Type}

/-- What C++ requires of a comparison object: a strict weak order. -/
structure StrictWeak (lt : α → α → Bool) : Prop where
  irrefl : ∀ a, lt a a = false
  trans : ∀ a b c, lt a b = true → lt b c = true → lt a c = true
  incomp : ∀ a b c, lt a b = false → lt b a = false → lt b c = false → lt c b = false → lt a c = false ∧ lt c a = false

namespace StrictWeak
variable {lt : α → α → Bool}

theorem asymm (h : StrictWeak lt) {a b : α} (hab : lt a b = true) : lt b a = false := by
  by_contra hn
  have hba : lt b a = true := by cases hx : lt b a <;> simp_all
  have := h.trans a b a hab hba
  rw [h.irrefl] at this; exact Bool.noConfusion this

/-- "not greater" is transitive -/
theorem le_trans (h : StrictWeak lt) {a b c : α} (hab : lt b a = false) (hbc : lt c b = false) : lt c a = false := by
  by_contra hn
  have hca : lt c a = true := by cases hx : lt c a <;> simp_all
  cases h1 : lt a b with
  | true => rw [h.trans c a b hca h1] at hbc; exact Bool.noConfusion hbc
  | false =>
    cases h2 : lt b c with
    | true => rw [h.trans b c a h2 hca] at hab; exact Bool.noConfusion hab
    | false => rw [(h.incomp a b c h1 hab h2 hbc).2] at hca; exact Bool.noConfusion hca

theorem lt_of_le_of_lt (h : StrictWeak lt) {a b c : α} (hab : lt b a = false) (hbc : lt b c = true) : lt a c = true := by
  by_contra hn
  have hac : lt a c = false := by cases hx : lt a c <;> simp_all
  have := h.le_trans hac hab
  rw [this] at hbc; exact Bool.noConfusion hbc

theorem lt_of_lt_of_le (h : StrictWeak lt) {a b c : α} (hab : lt a b = true) (hbc : lt c b = false) : lt a c = true := by
  by_contra hn
  have hac : lt a c = false := by cases hx : lt a c <;> simp_all
  have := h.le_trans hbc hac
  rw [this] at hab; exact Bool.noConfusion hab

/-- comparing through a key -/
theorem comap (h : StrictWeak lt) (f : β → α) : StrictWeak (fun a b => lt (f a) (f b)) where
  irrefl a := h.irrefl _
  trans a b c := h.trans _ _ _
  incomp a b c := h.incomp _ _ _
end StrictWeak

/-- neither is less than the other -/
def equivBy (lt : α → α → Bool) (a b : α) : Bool := !lt a b && !lt b a

/-- No later element is less than an earlier one. -/
def SortedBy (lt : α → α → Bool) (l : List α) : Prop := l.Pairwise (fun a b => lt b a = false)

/-- Each element is less than every later one. -/
def StrictSortedBy (lt : α → α → Bool) (l : List α) : Prop := l.Pairwise (fun a b => lt a b = true)

/-- `out` is the stable sort of `inp`: a sorted permutation that keeps the order of equivalent elements. -/
structure IsStableSort (lt : α → α → Bool) (inp out : List α) : Prop where
  sorted : SortedBy lt out
  perm : out.Perm inp
  stable : ∀ a, out.filter (equivBy lt a) = inp.filter (equivBy lt a)

/-! ## Merging -/

/-- merge, left first among equals -/
def mrg (lt : α → α → Bool) : List α → List α → List α
  | [], r => r
  | l, [] => l
  | a :: l, b :: r => if lt b a then b :: mrg lt (a :: l) r else a :: mrg lt l (b :: r)
termination_by l r => l.length + r.length

theorem mrg_nil_left (lt : α → α → Bool) (r : List α) : mrg lt [] r = r := by cases r <;> simp [mrg]
theorem mrg_nil_right (lt : α → α → Bool) (l : List α) : mrg lt l [] = l := by cases l <;> simp [mrg]
theorem mrg_cons_left {lt : α → α → Bool} {a b : α} (l r : List α) (h : lt b a = false) : mrg lt (a :: l) (b :: r) = a :: mrg lt l (b :: r) := by
  rw [mrg]; simp [h]
theorem mrg_cons_right {lt : α → α → Bool} {a b : α} (l r : List α) (h : lt b a = true) : mrg lt (a :: l) (b :: r) = b :: mrg lt (a :: l) r := by
  rw [mrg]; simp [h]

theorem mrg_perm (lt : α → α → Bool) (l r : List α) : (mrg lt l r).Perm (l ++ r) := by
  fun_induction mrg lt l r with
  | case1 r => simp
  | case2 l => simp
  | case3 a l b r h ih => exact (List.Perm.cons b ih).trans (List.perm_middle (l₁ := a :: l)).symm
  | case4 a l b r h ih => exact List.Perm.cons a ih

theorem mrg_mem {lt : α → α → Bool} {l r : List α} {x : α} : x ∈ mrg lt l r ↔ x ∈ l ∨ x ∈ r := by
  rw [(mrg_perm lt l r).mem_iff, List.mem_append]

theorem mrg_length (lt : α → α → Bool) (l r : List α) : (mrg lt l r).length = l.length + r.length := by
  rw [(mrg_perm lt l r).length_eq, List.length_append]

theorem mrg_sorted {lt : α → α → Bool} (h : StrictWeak lt) (l r : List α) (hl : SortedBy lt l) (hr : SortedBy lt r) : SortedBy lt (mrg lt l r) := by
  fun_induction mrg lt l r with
  | case1 r => exact hr
  | case2 l => exact hl
  | case3 a l b r hb ih =>
    obtain ⟨h1, h2⟩ := List.pairwise_cons.1 hr
    refine List.pairwise_cons.2 ⟨?_, ih hl h2⟩
    intro x hx
    rw [mrg_mem] at hx
    have hal := List.pairwise_cons.1 hl
    rcases hx with hx | hx
    · rcases List.mem_cons.1 hx with rfl | hx
      · exact h.asymm hb
      · exact h.le_trans (h.asymm hb) (hal.1 x hx)
    · exact h1 x hx
  | case4 a l b r hb ih =>
    obtain ⟨h1, h2⟩ := List.pairwise_cons.1 hl
    have hb : lt b a = false := by simpa using hb
    refine List.pairwise_cons.2 ⟨?_, ih h2 hr⟩
    intro x hx
    rw [mrg_mem] at hx
    have hbr := List.pairwise_cons.1 hr
    rcases hx with hx | hx
    · exact h1 x hx
    · rcases List.mem_cons.1 hx with rfl | hx
      · exact hb
      · exact h.le_trans hb (hbr.1 x hx)

theorem mrg_stable {lt : α → α → Bool} (h : StrictWeak lt) (l r : List α) (hl : SortedBy lt l) (c : α) :
    (mrg lt l r).filter (equivBy lt c) = l.filter (equivBy lt c) ++ r.filter (equivBy lt c) := by
  fun_induction mrg lt l r with
  | case1 r => simp
  | case2 l => simp
  | case3 a l b r hb ih =>
    rw [List.filter_cons, ih hl]
    by_cases hc : equivBy lt c b = true
    · have hno : (a :: l).filter (equivBy lt c) = [] := by
        rw [List.filter_eq_nil_iff]
        intro x hx hxc
        have hal := List.pairwise_cons.1 hl
        have hxa : lt x a = false := by
          rcases List.mem_cons.1 hx with rfl | hx
          · exact h.irrefl _
          · exact hal.1 x hx
        have hbx : lt b x = true := h.lt_of_lt_of_le hb hxa
        simp only [equivBy, Bool.and_eq_true, Bool.not_eq_true'] at hc hxc
        have := h.lt_of_lt_of_le (h.lt_of_le_of_lt (a := c) hc.2 hbx) hxc.1
        rw [h.irrefl] at this; exact Bool.noConfusion this
      rw [hno]; simp [hc]
    · rw [if_neg hc, List.filter_cons (x := b), if_neg hc]
  | case4 a l b r hb ih =>
    rw [List.filter_cons, ih (List.pairwise_cons.1 hl).2, List.filter_cons (x := a)]
    split <;> simp

/-! ## The stable sort as a function -/

/-- Insert before the first greater element. -/
def insertSorted (lt : α → α → Bool) (x : α) : List α → List α
  | [] => [x]
  | y :: l => if lt y x then y :: insertSorted lt x l else x :: y :: l

/-- Stable insertion sort: the specification of sorting. -/
def isort (lt : α → α → Bool) : List α → List α
  | [] => []
  | x :: l => insertSorted lt x (isort lt l)

theorem insertSorted_perm (lt : α → α → Bool) (x : α) (l : List α) : (insertSorted lt x l).Perm (x :: l) := by
  induction l with
  | nil => exact List.Perm.refl _
  | cons y l ih =>
    unfold insertSorted
    split
    · exact (ih.cons y).trans (List.Perm.swap x y l)
    · exact List.Perm.refl _

theorem isort_perm (lt : α → α → Bool) (l : List α) : (isort lt l).Perm l := by
  induction l with
  | nil => exact List.Perm.refl _
  | cons x l ih => exact (insertSorted_perm lt x _).trans (ih.cons x)

theorem insertSorted_sorted {lt : α → α → Bool} (h : StrictWeak lt) (x : α) {l : List α} (hs : SortedBy lt l) : SortedBy lt (insertSorted lt x l) := by
  induction l with
  | nil => exact List.pairwise_singleton _ _
  | cons y l ih =>
    unfold insertSorted
    have hs' := List.pairwise_cons.1 hs
    split
    · rename_i hyx
      refine List.pairwise_cons.2 ⟨fun z hz => ?_, ih hs'.2⟩
      rcases List.mem_cons.1 ((insertSorted_perm lt x l).mem_iff.1 hz) with rfl | hz
      · exact h.asymm hyx
      · exact hs'.1 z hz
    · rename_i hyx
      have hyx : lt y x = false := by simpa using hyx
      refine List.pairwise_cons.2 ⟨fun z hz => ?_, hs⟩
      rcases List.mem_cons.1 hz with rfl | hz
      · exact hyx
      · exact h.le_trans hyx (hs'.1 z hz)

theorem insertSorted_filter {lt : α → α → Bool} (h : StrictWeak lt) (x a : α) (l : List α) :
    (insertSorted lt x l).filter (equivBy lt a) = (x :: l).filter (equivBy lt a) := by
  induction l with
  | nil => rfl
  | cons y l ih =>
    unfold insertSorted
    split
    · rename_i hyx
      rw [List.filter_cons, ih]
      simp only [List.filter_cons]
      by_cases h1 : equivBy lt a x = true <;> by_cases h2 : equivBy lt a y = true <;> simp only [h1, h2, if_true, if_false]
      · simp only [equivBy, Bool.and_eq_true, Bool.not_eq_true'] at h1 h2
        have := h.incomp y a x h2.2 h2.1 h1.1 h1.2
        rw [this.1] at hyx; simp at hyx
      all_goals simp
    · rfl

theorem isort_stable {lt : α → α → Bool} (h : StrictWeak lt) (l : List α) : IsStableSort lt l (isort lt l) := by
  refine ⟨?_, isort_perm lt l, ?_⟩
  · induction l with
    | nil => exact List.Pairwise.nil
    | cons x l ih => exact insertSorted_sorted h x ih
  · intro a
    induction l with
    | nil => rfl
    | cons x l ih => unfold isort; rw [insertSorted_filter h, List.filter_cons, List.filter_cons, ih]

theorem equivBy_self {lt : α → α → Bool} (h : StrictWeak lt) (a : α) : equivBy lt a a = true := by simp [equivBy, h.irrefl]

theorem IsStableSort.unique {lt : α → α → Bool} (h : StrictWeak lt) : ∀ {l m inp : List α}, IsStableSort lt inp l → IsStableSort lt inp m → l = m := by
  suffices H : ∀ (l m : List α), SortedBy lt l → SortedBy lt m → l.Perm m → (∀ a, l.filter (equivBy lt a) = m.filter (equivBy lt a)) → l = m by
    intro l m inp h1 h2
    exact H l m h1.sorted h2.sorted (h1.perm.trans h2.perm.symm) (fun a => (h1.stable a).trans (h2.stable a).symm)
  intro l
  induction l with
  | nil => intro m _ _ p _; exact (List.Perm.nil_eq p)
  | cons a l ih =>
    intro m hl hm p hf
    cases m with
    | nil => exact absurd p.length_eq (by simp)
    | cons b m =>
      have hl' := List.pairwise_cons.1 hl; have hm' := List.pairwise_cons.1 hm
      have hba : lt b a = false := by
        have : b ∈ a :: l := p.mem_iff.2 (by simp)
        rcases List.mem_cons.1 this with rfl | x
        · exact h.irrefl _
        · exact hl'.1 b x
      have hab : lt a b = false := by
        have : a ∈ b :: m := p.mem_iff.1 (by simp)
        rcases List.mem_cons.1 this with rfl | x
        · exact h.irrefl _
        · exact hm'.1 a x
      have h1 := hf a
      rw [List.filter_cons, List.filter_cons, if_pos (equivBy_self h a), if_pos (by simp [equivBy, hab, hba])] at h1
      obtain ⟨rfl, _⟩ := List.cons.inj h1
      refine congrArg _ (ih m hl'.2 hm'.2 (List.Perm.cons_inv p) (fun c => ?_))
      have := hf c
      simp only [List.filter_cons] at this
      by_cases hc : equivBy lt c a = true
      · simpa only [hc, if_true, List.cons.injEq, true_and] using this
      · rw [if_neg hc, if_neg hc] at this; exact this

theorem IsStableSort.eq_isort {lt : α → α → Bool} (h : StrictWeak lt) {l m : List α} (h1 : IsStableSort lt l m) : m = isort lt l := h1.unique h (isort_stable h l)

/-- Merging two sorted lists is sorting their concatenation. -/
theorem mrg_eq_isort {lt : α → α → Bool} (h : StrictWeak lt) {l r : List α} (hl : SortedBy lt l) (hr : SortedBy lt r) : mrg lt l r = isort lt (l ++ r) :=
  IsStableSort.eq_isort h ⟨mrg_sorted h l r hl hr, mrg_perm lt l r, fun a => by rw [mrg_stable h l r hl a, List.filter_append]⟩

/-- A stable sort of keys carries over to what they stand for. -/
theorem IsStableSort.map {β : Type} {lt : α → α → Bool} (h : StrictWeak lt) (f : β → α) {l m : List β} (hs : IsStableSort (fun a b => lt (f a) (f b)) l m) :
    IsStableSort lt (l.map f) (m.map f) := by
  refine ⟨?_, hs.perm.map f, fun a => ?_⟩
  · exact List.pairwise_map.2 hs.sorted
  · rw [List.filter_map, List.filter_map]
    by_cases hex : ∃ n ∈ l, equivBy lt a (f n) = true
    · obtain ⟨n, _, hn⟩ := hex
      have e : (equivBy lt a ∘ f) = equivBy (fun a b => lt (f a) (f b)) n := by
        funext x
        simp only [equivBy, Bool.and_eq_true, Bool.not_eq_true'] at hn
        rw [Function.comp]
        cases hx : equivBy lt a (f x) with
        | true =>
          simp only [equivBy, Bool.and_eq_true, Bool.not_eq_true'] at hx
          have := h.incomp (f n) a (f x) hn.2 hn.1 hx.1 hx.2
          simp [equivBy, this.1, this.2]
        | false =>
          cases hy : equivBy (fun a b => lt (f a) (f b)) n x with
          | false => rfl
          | true =>
            simp only [equivBy, Bool.and_eq_true, Bool.not_eq_true'] at hy
            have := h.incomp a (f n) (f x) hn.1 hn.2 hy.1 hy.2
            simp [equivBy, this.1, this.2] at hx
      rw [e, hs.stable n]
    · have h1 : ∀ x ∈ l, ¬ (equivBy lt a ∘ f) x = true := fun x hx hy => hex ⟨x, hx, hy⟩
      have h2 : ∀ x ∈ m, ¬ (equivBy lt a ∘ f) x = true := fun x hx => h1 x (hs.perm.mem_iff.1 hx)
      rw [List.filter_eq_nil_iff.2 h1, List.filter_eq_nil_iff.2 h2]

end Etl
