import Verif.Common.Rng
import Verif.Common.Order
import Mathlib.Tactic.ByContra
/-!
# Heaps (include/etl/algorithm.h:917-1135)
-/
namespace Etl.Algo
open Etl.Rng

variable {α : Type}

/-! ## Model -/

/-- `private_heap::push_heap`, algorithm.h:922-936 (the `while` loop, then the final store). `fuel` bounds the iterations. -/
def siftUp (cmp : α → α → Bool) : Nat → List α → Nat → Nat → α → Res (List α)
  | 0, _, _, _, _ => .error .diverge
  | fuel + 1, a, vi, top, value =>
    if vi > top then
      match rd a ((vi - 1) / 2) with
      | .error u => .error u
      | .ok x =>
        if cmp x value then
          match wr a vi x with
          | .error u => .error u
          | .ok a => siftUp cmp fuel a ((vi - 1) / 2) top value
        else wr a vi value
    else wr a vi value

/-- The `while` loop of `private_heap::adjust_heap`, algorithm.h:945-955; returns the array, `value_index` and `child2nd`. -/
def siftDown (cmp : α → α → Bool) : Nat → List α → Nat → Nat → Nat → Res (List α × Nat × Nat)
  | 0, _, _, _, _ => .error .diverge
  | fuel + 1, a, vi, c2, len =>
    if c2 < len then
      match rd a c2 with
      | .error u => .error u
      | .ok x => match rd a (c2 - 1) with
        | .error u => .error u
        | .ok y =>
          let c := if cmp x y then c2 - 1 else c2
          match rd a c with
          | .error u => .error u
          | .ok z => match wr a vi z with
            | .error u => .error u
            | .ok a => siftDown cmp fuel a c (2 * (c + 1)) len
    else .ok (a, vi, c2)

/-- `private_heap::adjust_heap`, algorithm.h:940-964. -/
def adjustHeap (cmp : α → α → Bool) (a : List α) (vi len : Nat) (value : α) : Res (List α) :=
  match siftDown cmp (len + 1) a vi (2 * vi + 2) len with
  | .error u => .error u
  | .ok (a, h, c2) =>
    if c2 = len then
      match rd a (c2 - 1) with
      | .error u => .error u
      | .ok x => match wr a h x with
        | .error u => .error u
        | .ok a => siftUp cmp (len + 1) a (c2 - 1) vi value
    else siftUp cmp (len + 1) a h vi value

/-- `pop_heap(first, last)` on the first `n` elements, algorithm.h:988-998. -/
def popHeap (cmp : α → α → Bool) (a : List α) (n : Nat) : Res (List α) :=
  if n = 0 then .error .outOfBounds
  else match rd a (n - 1) with
    | .error u => .error u
    | .ok v => match rd a 0 with
      | .error u => .error u
      | .ok t => match wr a (n - 1) t with
        | .error u => .error u
        | .ok a => adjustHeap cmp a 0 (n - 1) v

/-- `push_heap(first, last)` on the first `n` elements, algorithm.h:1010-1017. -/
def pushHeap (cmp : α → α → Bool) (a : List α) (n : Nat) : Res (List α) :=
  if n = 0 then .error .outOfBounds
  else match rd a (n - 1) with
    | .error u => .error u
    | .ok v => siftUp cmp (n + 1) a (n - 1) 0 v

/-- the `while (true)` loop of `make_heap`, algorithm.h:1042-1052, for parents `parent, parent - 1, ..., 0` -/
def makeLoop (cmp : α → α → Bool) (len : Nat) : Nat → List α → Res (List α)
  | parent, a => match rd a parent with
    | .error u => .error u
    | .ok v => match adjustHeap cmp a parent len v with
      | .error u => .error u
      | .ok a => match parent with
        | 0 => .ok a
        | parent + 1 => makeLoop cmp len parent a

/-- `make_heap`, algorithm.h:1030-1053. -/
def makeHeap (cmp : α → α → Bool) (a : List α) : Res (List α) := if a.length < 2 then .ok a else makeLoop cmp a.length ((a.length - 2) / 2) a

/-- `private_heap::is_heap`, algorithm.h:968-985: `k` children remain to be looked at. -/
def isHeapLoop (cmp : α → α → Bool) (a : List α) : Nat → Nat → Nat → Res Bool
  | 0, _, _ => .ok true
  | k + 1, child, parent =>
    match rd a parent with
    | .error u => .error u
    | .ok p => match rd a child with
      | .error u => .error u
      | .ok c => if cmp p c then .ok false else isHeapLoop cmp a k (child + 1) (if child &&& 1 = 0 then parent + 1 else parent)

def isHeap (cmp : α → α → Bool) (a : List α) : Res Bool := isHeapLoop cmp a (a.length - 1) 1 0

/-- `sort_heap`, algorithm.h:1096-1104: `n` elements remain. -/
def sortHeapLoop (cmp : α → α → Bool) : Nat → List α → Res (List α)
  | 0, a => .ok a
  | n + 1, a => match popHeap cmp a (n + 1) with
    | .error u => .error u
    | .ok a => sortHeapLoop cmp n a

def sortHeap (cmp : α → α → Bool) (a : List α) : Res (List α) := sortHeapLoop cmp a.length a

/-- `heap_sort`, algorithm.h:3050-3059. -/
def heapSort (cmp : α → α → Bool) (a : List α) : Res (List α) :=
  match isHeap cmp a with
  | .error u => .error u
  | .ok true => sortHeap cmp a
  | .ok false => match makeHeap cmp a with
    | .error u => .error u
    | .ok a => sortHeap cmp a

/-! ## Specification -/

/-- parents from `p` on are not less than their children, among the first `n` elements -/
def HeapFrom (lt : α → α → Bool) (a : List α) (n p : Nat) : Prop :=
  ∀ i x y, 0 < i → i < n → p ≤ (i - 1) / 2 → a[(i - 1) / 2]? = some x → a[i]? = some y → lt x y = false

/-- The first `n` elements form a max heap. -/
def IsHeap (lt : α → α → Bool) (a : List α) (n : Nat) : Prop :=
  ∀ i x y, 0 < i → i < n → a[(i - 1) / 2]? = some x → a[i]? = some y → lt x y = false

theorem heapFrom_zero {lt : α → α → Bool} {a : List α} {n : Nat} : HeapFrom lt a n 0 ↔ IsHeap lt a n :=
  ⟨fun h i x y a b => h i x y a b (by omega), fun h i x y a b _ => h i x y a b⟩

/-- the first element of a heap is a maximum -/
theorem heap_top {lt : α → α → Bool} (h : StrictWeak lt) {a : List α} {n : Nat} (hn : n ≤ a.length) (hh : IsHeap lt a n) {t : α} (ht : a[0]? = some t) :
    ∀ i x, i < n → a[i]? = some x → lt t x = false := by
  intro i
  induction i using Nat.strongRecOn with
  | ind i ih =>
    intro x hi hx
    by_cases h0 : i = 0
    · subst h0; rw [ht] at hx; cases hx; exact h.irrefl _
    · have hp : (i - 1) / 2 < a.length := by omega
      have e := List.getElem?_eq_getElem hp
      have h1 := ih ((i - 1) / 2) (by omega) _ (by omega) e
      have h2 := hh i _ x (by omega) hi e hx
      exact h.le_trans h2 h1

/-- `h` lies in the subtree of `t` -/
inductive Desc (t : Nat) : Nat → Prop
  | refl : Desc t t
  | step {h : Nat} : 0 < h → Desc t ((h - 1) / 2) → Desc t h

theorem Desc.le {t h : Nat} (d : Desc t h) : t ≤ h := by
  induction d with
  | refl => exact Nat.le_refl _
  | step h0 _ ih => omega

/-! ## Sift up -/

/-- The virtual array: the hole filled with the value in hand. -/
theorem siftUp_spec {lt : α → α → Bool} (sw : StrictWeak lt) (n t : Nat) : ∀ (fuel : Nat) (a : List α) (h : Nat) (value : α),
    h < fuel → h < n → n ≤ a.length → Desc t h →
    (∀ i x y, 0 < i → i < n → t ≤ (i - 1) / 2 → i ≠ h → (a.set h value)[(i - 1) / 2]? = some x → (a.set h value)[i]? = some y → lt x y = false) →
    (∀ i x y, 0 < i → i < n → 0 < h → t ≤ (h - 1) / 2 → (i - 1) / 2 = h → (a.set h value)[(h - 1) / 2]? = some x → (a.set h value)[i]? = some y → lt x y = false) →
    ∃ b, siftUp lt fuel a h t value = .ok b ∧ b.Perm (a.set h value) ∧ HeapFrom lt b n t ∧ b.length = a.length ∧ ∀ i, n ≤ i → b[i]? = a[i]? := by
  intro fuel
  induction fuel with
  | zero => intro a h value hf; omega
  | succ fuel ih =>
    intro a h value hf hn hl hd hexc hg
    have hh : h < a.length := by omega
    have hhv : (a.set h value)[h]? = some value := by rw [List.getElem?_set_self hh]
    have frame : ∀ i, n ≤ i → (a.set h value)[i]? = a[i]? := by
      intro i hi; rw [List.getElem?_set_ne (by omega)]
    rw [siftUp]
    by_cases hgt : h > t
    · rw [if_pos hgt]
      have hd' : 0 < h ∧ Desc t ((h - 1) / 2) := by
        cases hd with
        | refl => omega
        | step h0 d => exact ⟨h0, d⟩
      obtain ⟨h0, hdp⟩ := hd'
      have htp := hdp.le
      have hp : (h - 1) / 2 < a.length := by omega
      have hpne : (h - 1) / 2 ≠ h := by omega
      rw [rd_lt hp]
      simp only
      have hvp : (a.set h value)[(h - 1) / 2]? = some a[(h - 1) / 2] := by
        rw [List.getElem?_set_ne (by omega), List.getElem?_eq_getElem hp]
      cases hc : lt a[(h - 1) / 2] value
      · simp only [Bool.false_eq_true, if_false]
        rw [wr_lt _ hh]
        refine ⟨_, rfl, .refl _, ?_, by simp, frame⟩
        intro i x y a1 a2 a3 hx hy
        by_cases hi : i = h
        · subst hi
          rw [hvp] at hx; rw [hhv] at hy
          cases hx; cases hy; exact hc
        · exact hexc i x y a1 a2 a3 hi hx hy
      · simp only [if_true]
        rw [wr_lt _ hh]
        simp only
        -- the new virtual array is the old one with h and its parent swapped
        have hnew : (a.set h a[(h - 1) / 2]).set ((h - 1) / 2) value = ((a.set h value).set h ((a.set h value)[(h - 1) / 2]'(by simpa using hp))).set ((h - 1) / 2) ((a.set h value)[h]'(by simpa using hh)) := by
          rw [List.set_set]
          congr 1
          · congr 1; rw [List.getElem_set_ne (by omega)]
          · rw [List.getElem_set_self]
        have hget : ∀ k, ((a.set h a[(h - 1) / 2]).set ((h - 1) / 2) value)[k]? = if k = (h - 1) / 2 then some value else if k = h then some a[(h - 1) / 2] else (a.set h value)[k]? := by
          intro k
          rw [hnew, get_swap (by simpa using hh) (by simpa using hp), hhv, hvp]
        obtain ⟨b, e1, e2, e3, e4, e5⟩ := ih (a.set h a[(h - 1) / 2]) ((h - 1) / 2) value (by omega) (by omega) (by simpa using hl) hdp
          (by
            intro i x y a1 a2 a3 a4 hx hy
            rw [hget] at hx hy
            rw [if_neg a4] at hy
            by_cases hih : i = h
            · subst hih
              rw [if_pos rfl] at hx hy
              cases hx; cases hy
              exact sw.asymm hc
            · rw [if_neg hih] at hy
              by_cases hpi : (i - 1) / 2 = (h - 1) / 2
              · rw [if_pos hpi] at hx
                cases hx
                have := hexc i a[(h - 1) / 2] y a1 a2 a3 hih (by rw [hpi]; exact hvp) hy
                exact sw.le_trans this (sw.asymm hc)
              · rw [if_neg hpi] at hx
                by_cases hpi2 : (i - 1) / 2 = h
                · rw [if_pos hpi2] at hx
                  cases hx
                  exact hg i _ y a1 a2 h0 htp hpi2 hvp hy
                · rw [if_neg hpi2] at hx
                  exact hexc i x y a1 a2 a3 hih hx hy)
          (by
            intro i x y a1 a2 a3 a4 a5 hx hy
            rw [hget] at hx hy
            rw [if_neg (by omega), if_neg (by omega)] at hx
            have hpp := hexc ((h - 1) / 2) x a[(h - 1) / 2] a3 (by omega) a4 hpne hx hvp
            rw [if_neg (by omega)] at hy
            by_cases hih : i = h
            · rw [if_pos hih] at hy; cases hy; exact hpp
            · rw [if_neg hih] at hy
              have := hexc i a[(h - 1) / 2] y a1 a2 (by omega) hih (by rw [a5]; exact hvp) hy
              exact sw.le_trans this hpp)
        refine ⟨b, e1, ?_, e3, by simpa using e4, ?_⟩
        · refine e2.trans ?_
          rw [hnew]
          exact swp_perm (by simpa using hh) (by simpa using hp)
        · intro i hi
          rw [e5 i hi, List.getElem?_set_ne (by omega)]
    · rw [if_neg hgt]
      have hth : t = h := by have := hd.le; omega
      rw [wr_lt _ hh]
      refine ⟨_, rfl, .refl _, ?_, by simp, frame⟩
      intro i x y a1 a2 a3 hx hy
      exact hexc i x y a1 a2 a3 (by omega) hx hy

/-! ## Sift down -/

theorem siftDown_spec {lt : α → α → Bool} (sw : StrictWeak lt) (n t : Nat) (value : α) : ∀ (fuel : Nat) (a : List α) (h : Nat),
    n < fuel + h → h < n → n ≤ a.length → Desc t h →
    (∀ i x y, 0 < i → i < n → t ≤ (i - 1) / 2 → i ≠ h → (i - 1) / 2 ≠ h → (a.set h value)[(i - 1) / 2]? = some x → (a.set h value)[i]? = some y → lt x y = false) →
    (∀ i x y, 0 < i → i < n → 0 < h → t ≤ (h - 1) / 2 → (i - 1) / 2 = h → (a.set h value)[(h - 1) / 2]? = some x → (a.set h value)[i]? = some y → lt x y = false) →
    ∃ b h' , siftDown lt fuel a h (2 * h + 2) n = .ok (b, h', 2 * h' + 2) ∧ (b.set h' value).Perm (a.set h value) ∧ b.length = a.length ∧ h' < n ∧ n ≤ 2 * h' + 2 ∧ Desc t h' ∧
      (∀ i x y, 0 < i → i < n → t ≤ (i - 1) / 2 → i ≠ h' → (i - 1) / 2 ≠ h' → (b.set h' value)[(i - 1) / 2]? = some x → (b.set h' value)[i]? = some y → lt x y = false) ∧
      (∀ i x y, 0 < i → i < n → 0 < h' → t ≤ (h' - 1) / 2 → (i - 1) / 2 = h' → (b.set h' value)[(h' - 1) / 2]? = some x → (b.set h' value)[i]? = some y → lt x y = false) ∧
      ∀ i, n ≤ i → b[i]? = a[i]? := by
  intro fuel
  induction fuel with
  | zero => intro a h hf; omega
  | succ fuel ih =>
    intro a h hf hn hl hd hexc hg
    have hh : h < a.length := by omega
    rw [siftDown]
    by_cases hc2 : 2 * h + 2 < n
    · rw [if_pos hc2]
      have l2 : 2 * h + 2 < a.length := by omega
      have l1 : 2 * h + 2 - 1 < a.length := by omega
      simp only [rd_lt l2, rd_lt l1]
      -- the larger child
      obtain ⟨c, hc, hcase, hmax⟩ : ∃ c, c = (if lt a[2 * h + 2] a[2 * h + 2 - 1] then 2 * h + 2 - 1 else 2 * h + 2) ∧ (c = 2 * h + 1 ∨ c = 2 * h + 2) ∧
          ∀ i y z, (i - 1) / 2 = h → 0 < i → a[i]? = some y → a[c]? = some z → lt z y = false := by
        have e2 := List.getElem?_eq_getElem l2
        have e1 := List.getElem?_eq_getElem l1
        cases hlt : lt a[2 * h + 2] a[2 * h + 2 - 1]
        · refine ⟨2 * h + 2, by simp, .inr rfl, ?_⟩
          intro i y z hi h0 hy hz
          rw [e2] at hz; cases hz
          have hi2 : i = 2 * h + 2 ∨ i = 2 * h + 2 - 1 := by omega
          rcases hi2 with rfl | rfl
          · rw [e2] at hy; cases hy; exact sw.irrefl _
          · rw [e1] at hy; cases hy; exact hlt
        · refine ⟨2 * h + 2 - 1, by simp, .inl (by omega), ?_⟩
          intro i y z hi h0 hy hz
          rw [e1] at hz; cases hz
          have hi2 : i = 2 * h + 2 ∨ i = 2 * h + 2 - 1 := by omega
          rcases hi2 with rfl | rfl
          · rw [e2] at hy; cases hy; exact sw.asymm hlt
          · rw [e1] at hy; cases hy; exact sw.irrefl _
      rw [← hc]
      have hcn : c < n := by omega
      have hcl : c < a.length := by omega
      have hpc : (c - 1) / 2 = h := by omega
      have hcne : c ≠ h := by omega
      rw [rd_lt hcl]
      simp only
      rw [wr_lt _ hh]
      simp only
      rw [show 2 * (c + 1) = 2 * c + 2 by omega]
      have hhv : (a.set h value)[h]? = some value := by rw [List.getElem?_set_self hh]
      have hvc : (a.set h value)[c]? = some a[c] := by rw [List.getElem?_set_ne (by omega), List.getElem?_eq_getElem hcl]
      have hnew : (a.set h a[c]).set c value = ((a.set h value).set h ((a.set h value)[c]'(by simpa using hcl))).set c ((a.set h value)[h]'(by simpa using hh)) := by
        rw [List.set_set]
        congr 1
        · congr 1; rw [List.getElem_set_ne (by omega)]
        · rw [List.getElem_set_self]
      have hget : ∀ k, ((a.set h a[c]).set c value)[k]? = if k = c then some value else if k = h then some a[c] else (a.set h value)[k]? := by
        intro k
        rw [hnew, get_swap (by simpa using hh) (by simpa using hcl), hhv, hvc]
      have hgk : ∀ k, k ≠ h → (a.set h value)[k]? = a[k]? := fun k hk => List.getElem?_set_ne (by omega)
      obtain ⟨b, h', e1, e2, e3, e4, e5, e6, e7, e8, e9⟩ := ih (a.set h a[c]) c (by omega) hcn (by simpa using hl) (Desc.step (by omega) (hpc ▸ hd))
        (by
          intro i x y a1 a2 a3 a4 a5 hx hy
          rw [hget] at hx hy
          rw [if_neg a5] at hx
          rw [if_neg a4] at hy
          by_cases hih : i = h
          · rw [if_pos hih] at hy
            cases hy
            rw [if_neg (by omega)] at hx
            subst hih; exact hg c x a[c] (by omega) hcn (by omega) a3 hpc hx hvc
          · rw [if_neg hih] at hy
            by_cases hpi : (i - 1) / 2 = h
            · rw [if_pos hpi] at hx
              cases hx
              rw [hgk i hih] at hy
              exact hmax i y _ hpi a1 hy (List.getElem?_eq_getElem hcl)
            · rw [if_neg hpi] at hx
              exact hexc i x y a1 a2 a3 hih hpi hx hy)
        (by
          intro i x y a1 a2 a3 a4 a5 hx hy
          rw [hget] at hx hy
          rw [hpc, if_neg (by omega), if_pos rfl] at hx
          cases hx
          rw [if_neg (by omega), if_neg (by omega)] at hy
          have := hd.le
          exact hexc i a[c] y a1 a2 (by omega) (by omega) (by omega) (by rw [a5]; exact hvc) hy)
      refine ⟨b, h', e1, ?_, by simpa using e3, e4, e5, e6, e7, e8, ?_⟩
      · refine e2.trans ?_
        rw [hnew]
        exact swp_perm (by simpa using hh) (by simpa using hcl)
      · intro i hi
        rw [e9 i hi, List.getElem?_set_ne (by omega)]
    · rw [if_neg hc2]
      exact ⟨a, h, rfl, .refl _, rfl, hn, by omega, hd, hexc, hg, fun _ _ => rfl⟩

theorem adjustHeap_spec {lt : α → α → Bool} (sw : StrictWeak lt) (n t : Nat) (a : List α) (value : α) (ht : t < n) (hl : n ≤ a.length)
    (hh : HeapFrom lt (a.set t value) n (t + 1)) :
    ∃ b, adjustHeap lt a t n value = .ok b ∧ b.Perm (a.set t value) ∧ HeapFrom lt b n t ∧ b.length = a.length ∧ ∀ i, n ≤ i → b[i]? = a[i]? := by
  obtain ⟨b, h', e1, e2, e3, e4, e5, e6, e7, e8, e9⟩ := siftDown_spec sw n t value (n + 1) a t (by omega) ht hl .refl
    (by intro i x y a1 a2 a3 a4 a5 hx hy; exact hh i x y a1 a2 (by omega) hx hy)
    (by intro i x y a1 a2 a3 a4; omega)
  unfold adjustHeap
  rw [e1]
  simp only
  have hb : h' < b.length := by omega
  by_cases hc : 2 * h' + 2 = n
  · rw [if_pos hc]
    have lc : 2 * h' + 2 - 1 < b.length := by omega
    rw [rd_lt lc]
    simp only
    rw [wr_lt _ hb]
    simp only
    generalize hcdef : 2 * h' + 2 - 1 = c at *
    have hcn : c < n := by omega
    have hpc : (c - 1) / 2 = h' := by omega
    have hhv : (b.set h' value)[h']? = some value := by rw [List.getElem?_set_self hb]
    have hvc : (b.set h' value)[c]? = some b[c] := by rw [List.getElem?_set_ne (by omega), List.getElem?_eq_getElem lc]
    have hnew : (b.set h' b[c]).set c value = ((b.set h' value).set h' ((b.set h' value)[c]'(by simpa using lc))).set c ((b.set h' value)[h']'(by simpa using hb)) := by
      rw [List.set_set]
      congr 1
      · congr 1; rw [List.getElem_set_ne (by omega)]
      · rw [List.getElem_set_self]
    have hget : ∀ k, ((b.set h' b[c]).set c value)[k]? = if k = c then some value else if k = h' then some b[c] else (b.set h' value)[k]? := by
      intro k
      rw [hnew, get_swap (by simpa using hb) (by simpa using lc), hhv, hvc]
    obtain ⟨d, f1, f2, f3, f4, f5⟩ := siftUp_spec sw n t (n + 1) (b.set h' b[c]) c value (by omega) hcn (by simp; omega) (Desc.step (by omega) (hpc ▸ e6))
      (by
        intro i x y a1 a2 a3 a4 hx hy
        rw [hget] at hx hy
        rw [if_neg a4] at hy
        have hpi : (i - 1) / 2 ≠ h' ∧ (i - 1) / 2 ≠ c := by omega
        rw [if_neg hpi.2, if_neg hpi.1] at hx
        by_cases hih : i = h'
        · rw [if_pos hih] at hy; cases hy
          subst hih; exact e8 c x b[c] (by omega) hcn (by omega) a3 hpc hx hvc
        · rw [if_neg hih] at hy
          exact e7 i x y a1 a2 a3 hih hpi.1 hx hy)
      (by intro i x y a1 a2 a3 a4 a5; omega)
    refine ⟨d, f1, f2.trans ?_, f3, by simpa [e3] using f4, ?_⟩
    · rw [hnew]; exact (swp_perm (by simpa using hb) (by simpa using lc)).trans e2
    · intro i hi
      rw [f5 i hi, List.getElem?_set_ne (by omega), e9 i hi]
  · rw [if_neg hc]
    obtain ⟨d, f1, f2, f3, f4, f5⟩ := siftUp_spec sw n t (n + 1) b h' value (by omega) e4 (by omega) e6
      (by intro i x y a1 a2 a3 a4 hx hy; exact e7 i x y a1 a2 a3 a4 (by omega) hx hy)
      (by intro i x y a1 a2 a3 a4 a5; omega)
    exact ⟨d, f1, f2.trans e2, f3, by rw [f4, e3], fun i hi => by rw [f5 i hi, e9 i hi]⟩

/-! ## The heap operations -/

/-- `push_heap`: the last of `n` elements is added to the heap formed by the others. -/
theorem pushHeap_spec {lt : α → α → Bool} (sw : StrictWeak lt) (a : List α) (n : Nat) (hn : 0 < n) (hl : n ≤ a.length) (hh : IsHeap lt a (n - 1)) :
    ∃ b, pushHeap lt a n = .ok b ∧ b.Perm a ∧ IsHeap lt b n ∧ ∀ i, n ≤ i → b[i]? = a[i]? := by
  unfold pushHeap
  rw [if_neg (by omega)]
  have h1 : n - 1 < a.length := by omega
  rw [rd_lt h1]
  simp only
  have hself : a.set (n - 1) a[n - 1] = a := List.set_getElem_self h1
  have hd : ∀ k, Desc 0 k := by
    intro k
    induction k using Nat.strongRecOn with
    | ind k ih => by_cases h0 : k = 0
                  · subst h0; exact .refl
                  · exact .step (by omega) (ih _ (by omega))
  obtain ⟨b, e1, e2, e3, e4, e5⟩ := siftUp_spec sw n 0 (n + 1) a (n - 1) a[n - 1] (by omega) (by omega) hl (hd _)
    (by rw [hself]; intro i x y a1 a2 _ a4 hx hy; exact hh i x y a1 (by omega) hx hy)
    (by intro i x y a1 a2 a3 a4 a5; omega)
  exact ⟨b, e1, by rwa [hself] at e2, heapFrom_zero.1 e3, e5⟩

/-- `pop_heap` needs the heap property only below the first element, which it never compares. -/
theorem popHeap_spec' {lt : α → α → Bool} (sw : StrictWeak lt) (a : List α) (n : Nat) (hn : 0 < n) (hl : n ≤ a.length) (hh : HeapFrom lt a n 1) :
    ∃ b, popHeap lt a n = .ok b ∧ b.Perm a ∧ IsHeap lt b (n - 1) ∧ b[n - 1]? = a[0]? ∧ b.length = a.length ∧ ∀ i, n ≤ i → b[i]? = a[i]? := by
  unfold popHeap
  rw [if_neg (by omega)]
  have h1 : n - 1 < a.length := by omega
  have h0 : 0 < a.length := by omega
  rw [rd_lt h1]
  simp only
  rw [rd_lt h0]
  simp only
  rw [wr_lt _ h1]
  simp only
  by_cases hn1 : n = 1
  · subst hn1
    have e : adjustHeap lt (a.set 0 a[0]) 0 0 a[0] = .ok ((a.set 0 a[0]).set 0 a[0]) := by
      unfold adjustHeap siftDown
      rw [if_neg (by omega)]
      simp only
      rw [if_neg (by omega)]
      unfold siftUp
      rw [if_neg (by omega)]
      exact wr_lt _ (by simpa using h0)
    refine ⟨_, e, ?_, fun i x y _ hi => by omega, ?_, by simp, ?_⟩
    · rw [List.set_getElem_self, List.set_getElem_self]
    · rw [List.set_getElem_self, List.set_getElem_self]
    · intro i hi; rw [List.set_getElem_self, List.set_getElem_self]
  · have hset : ∀ k, ((a.set (n - 1) a[0]).set 0 a[n - 1])[k]? = if k = 0 then a[n - 1]? else if k = n - 1 then a[0]? else a[k]? := by
      intro k; exact get_swap h1 h0 k
    obtain ⟨b, e1, e2, e3, e4, e5⟩ := adjustHeap_spec sw (n - 1) 0 (a.set (n - 1) a[0]) a[n - 1] (by omega) (by simp; omega)
      (by
        intro i x y a1 a2 a3 hx hy
        rw [hset, if_neg (by omega), if_neg (by omega)] at hx
        rw [hset, if_neg (by omega), if_neg (by omega)] at hy
        exact hh i x y a1 (by omega) (by omega) hx hy)
    refine ⟨b, e1, e2.trans (swp_perm h1 h0), heapFrom_zero.1 e3, ?_, by simpa using e4, ?_⟩
    · rw [e5 _ (Nat.le_refl _), List.getElem?_set_self h1, List.getElem?_eq_getElem h0]
    · intro i hi
      rw [e5 i (by omega), List.getElem?_set_ne (by omega)]

/-- `pop_heap`: the maximum goes to the end, the others form a heap. -/
theorem popHeap_spec {lt : α → α → Bool} (sw : StrictWeak lt) (a : List α) (n : Nat) (hn : 0 < n) (hl : n ≤ a.length) (hh : IsHeap lt a n) :
    ∃ b, popHeap lt a n = .ok b ∧ b.Perm a ∧ IsHeap lt b (n - 1) ∧ b[n - 1]? = a[0]? ∧ b.length = a.length ∧ ∀ i, n ≤ i → b[i]? = a[i]? :=
  popHeap_spec' sw a n hn hl (fun i x y h1 h2 _ => hh i x y h1 h2)

theorem makeLoop_spec {lt : α → α → Bool} (sw : StrictWeak lt) (n : Nat) : ∀ (p : Nat) (a : List α), p < n → n = a.length → HeapFrom lt a n (p + 1) →
    ∃ b, makeLoop lt n p a = .ok b ∧ b.Perm a ∧ IsHeap lt b n := by
  intro p
  induction p with
  | zero =>
    intro a hp hn hh
    have hl : 0 < a.length := by omega
    rw [makeLoop, rd_lt hl]
    simp only
    obtain ⟨b, e1, e2, e3, e4, _⟩ := adjustHeap_spec sw n 0 a a[0] hp (by omega) (by rw [List.set_getElem_self]; exact hh)
    rw [List.set_getElem_self] at e2
    rw [e1]
    exact ⟨b, rfl, e2, heapFrom_zero.1 e3⟩
  | succ p ih =>
    intro a hp hn hh
    have hl : p + 1 < a.length := by omega
    rw [makeLoop, rd_lt hl]
    simp only
    obtain ⟨b, e1, e2, e3, e4, _⟩ := adjustHeap_spec sw n (p + 1) a a[p + 1] hp (by omega) (by rw [List.set_getElem_self]; exact hh)
    rw [List.set_getElem_self] at e2
    rw [e1]
    simp only
    obtain ⟨c, f1, f2, f3⟩ := ih b (by omega) (by omega) e3
    exact ⟨c, f1, f2.trans e2, f3⟩

/-- `make_heap` produces a heap with the same elements. -/
theorem makeHeap_spec {lt : α → α → Bool} (sw : StrictWeak lt) (a : List α) : ∃ b, makeHeap lt a = .ok b ∧ b.Perm a ∧ IsHeap lt b b.length := by
  unfold makeHeap
  by_cases hl : a.length < 2
  · rw [if_pos hl]
    exact ⟨a, rfl, .refl _, fun i x y a1 a2 => by omega⟩
  · rw [if_neg hl]
    obtain ⟨b, e1, e2, e3⟩ := makeLoop_spec sw a.length ((a.length - 2) / 2) a (by omega) rfl (by
      intro i x y a1 a2 a3; omega)
    exact ⟨b, e1, e2, by rw [e2.length_eq]; exact e3⟩

theorem isHeapLoop_spec (lt : α → α → Bool) (a : List α) : ∀ (k child : Nat), 0 < child → child + k = a.length →
    (∀ i x y, 0 < i → i < child → a[(i - 1) / 2]? = some x → a[i]? = some y → lt x y = false) →
    ∃ b, isHeapLoop lt a k child ((child - 1) / 2) = .ok b ∧ (b = true ↔ IsHeap lt a a.length) := by
  intro k
  induction k with
  | zero =>
    intro child h0 hk hpre
    have : child = a.length := by omega
    subst this
    exact ⟨true, rfl, ⟨fun _ => hpre, fun _ => rfl⟩⟩
  | succ k ih =>
    intro child h0 hk hpre
    have h1 : (child - 1) / 2 < a.length := by omega
    have h2 : child < a.length := by omega
    rw [isHeapLoop, rd_lt h1]
    simp only
    rw [rd_lt h2]
    simp only
    cases hc : lt a[(child - 1) / 2] a[child]
    · simp only [Bool.false_eq_true, if_false]
      have hpar : (if child &&& 1 = 0 then (child - 1) / 2 + 1 else (child - 1) / 2) = (child + 1 - 1) / 2 := by
        have : child &&& 1 = child % 2 := Nat.and_two_pow_sub_one_eq_mod child 1
        rw [this]; split <;> omega
      rw [hpar]
      apply ih (child + 1) (by omega) (by omega)
      intro i x y a1 a2 hx hy
      by_cases hi : i = child
      · subst hi
        rw [List.getElem?_eq_getElem h1] at hx
        rw [List.getElem?_eq_getElem h2] at hy
        cases hx; cases hy; exact hc
      · exact hpre i x y a1 (by omega) hx hy
    · simp only [if_true]
      refine ⟨false, rfl, ⟨fun h => (by cases h), fun h => ?_⟩⟩
      have := h child _ _ h0 h2 (List.getElem?_eq_getElem h1) (List.getElem?_eq_getElem h2)
      rw [hc] at this; cases this

/-- `is_heap` is exact. -/
theorem isHeap_spec (lt : α → α → Bool) (a : List α) : ∃ b, isHeap lt a = .ok b ∧ (b = true ↔ IsHeap lt a a.length) := by
  unfold isHeap
  by_cases h0 : a.length = 0
  · rw [h0]; exact ⟨true, rfl, ⟨fun _ i x y _ h => by omega, fun _ => rfl⟩⟩
  · exact isHeapLoop_spec lt a (a.length - 1) 1 (by omega) (by omega) (fun i x y h1 h2 => by omega)

theorem sortHeapLoop_spec {lt : α → α → Bool} (sw : StrictWeak lt) : ∀ (n : Nat) (a : List α), n ≤ a.length → IsHeap lt a n →
    (∀ i j x y, i < j → n ≤ j → j < a.length → a[i]? = some x → a[j]? = some y → lt y x = false) →
    ∃ b, sortHeapLoop lt n a = .ok b ∧ b.Perm a ∧ SortedBy lt b := by
  intro n
  induction n with
  | zero =>
    intro a _ _ hs
    refine ⟨a, rfl, .refl _, ?_⟩
    unfold SortedBy
    rw [List.pairwise_iff_getElem]
    intro i j hi hj hij
    exact hs i j _ _ hij (by omega) hj (List.getElem?_eq_getElem hi) (List.getElem?_eq_getElem hj)
  | succ n ih =>
    intro a hl hh hs
    obtain ⟨b, e1, e2, e3, e4, e5, e6⟩ := popHeap_spec sw a (n + 1) (by omega) hl hh
    have h0 : 0 < a.length := by omega
    have e0 := List.getElem?_eq_getElem h0
    -- every element of the first n+1 positions of b is one of the first n+1 of a
    have hmem : ∀ i x, i < n + 1 → b[i]? = some x → ∃ k, k < n + 1 ∧ a[k]? = some x := by
      intro i x hi hx
      have hta : (b.take (n + 1)).Perm (a.take (n + 1)) := by
        have hd : b.drop (n + 1) = a.drop (n + 1) := by
          apply List.ext_getElem?
          intro k
          rw [List.getElem?_drop, List.getElem?_drop]
          exact e6 _ (by omega)
        have e2' := e2
        rw [← List.take_append_drop (n + 1) b, ← List.take_append_drop (n + 1) a, hd] at e2'
        exact (List.perm_append_right_iff _).1 e2'
      have hxm : x ∈ b.take (n + 1) := by
        rw [List.mem_take_iff_getElem]
        obtain ⟨hib, hxb⟩ := List.getElem?_eq_some_iff.1 hx
        exact ⟨i, by omega, hxb⟩
      have := hta.mem_iff.1 hxm
      rw [List.mem_take_iff_getElem] at this
      obtain ⟨k, hk, hkx⟩ := this
      exact ⟨k, by omega, by rw [List.getElem?_eq_getElem (by omega)]; exact congrArg some hkx⟩
    rw [sortHeapLoop, e1]
    simp only
    obtain ⟨c, f1, f2, f3⟩ := ih b (by omega) (by simpa using e3) (by
      intro i j x y hij hnj hj hx hy
      by_cases hjn : j = n
      · subst hjn
        have hy' : a[0]? = some y := by rw [← e4]; simpa using hy
        obtain ⟨k, hk, hkx⟩ := hmem i x (by omega) hx
        exact heap_top sw hl hh hy' k x hk hkx
      · rw [e6 j (by omega)] at hy
        by_cases hi : i < n + 1
        · obtain ⟨k, hk, hkx⟩ := hmem i x hi hx
          exact hs k j x y (by omega) (by omega) (by omega) hkx hy
        · rw [e6 i (by omega)] at hx
          exact hs i j x y hij (by omega) (by omega) hx hy)
    exact ⟨c, f1, f2.trans e2, f3⟩

/-- C20: `sort_heap` on a heap. -/
theorem C20_sort_heap {lt : α → α → Bool} (sw : StrictWeak lt) (a : List α) (hh : IsHeap lt a a.length) : ∃ b, sortHeap lt a = .ok b ∧ b.Perm a ∧ SortedBy lt b :=
  sortHeapLoop_spec sw a.length a (Nat.le_refl _) hh (fun i j x y _ h1 h2 => by omega)

/-- C20: `heap_sort` returns a sorted permutation of its input without leaving the range, whatever the input. -/
theorem C20_heap_sort {lt : α → α → Bool} (sw : StrictWeak lt) (a : List α) : ∃ b, heapSort lt a = .ok b ∧ b.Perm a ∧ SortedBy lt b := by
  unfold heapSort
  obtain ⟨r, e, hr⟩ := isHeap_spec lt a
  rw [e]
  cases r
  · simp only
    obtain ⟨b, e1, e2, e3⟩ := makeHeap_spec sw a
    rw [e1]
    simp only
    obtain ⟨c, f1, f2, f3⟩ := C20_sort_heap sw b e3
    exact ⟨c, f1, f2.trans e2, f3⟩
  · exact C20_sort_heap sw a (hr.1 rfl)

example : heapSort (fun a b : Nat => decide (a < b)) [5, 1, 4, 4, 9, 0, 7] = .ok [0, 1, 4, 4, 5, 7, 9] := by rfl
example : (makeHeap (fun a b : Nat => decide (a < b)) [5, 1, 4, 4, 9, 0, 7]) = .ok [9, 5, 7, 4, 1, 0, 4] := by rfl

end Etl.Algo
