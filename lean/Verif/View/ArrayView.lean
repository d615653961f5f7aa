/-
Model of /repo/include/etl/array_view.h (class array_view) and /repo/include/etl/array_wrapper.h.
The array behind a view is a list `m`; the view holds two positions in it, as in `Verif.View.Model`. A write through a mutable view changes the list.
`array_wrapper` has no members: it is bound to a named array, so its functions act on that array directly (`Verif.Arr` models the same loops for etl::array).
-/
import Verif.View.Props
import Verif.Arr.Props

namespace Etl.View
open Etl.Algo

variable {α : Type}

namespace AV

/-! ## Model -/

/-- construct or assign from iterators, array_view.h l.241-245, l.459-463: `distance` between two positions of the array -/
def ofRange (b e : Nat) : View := ⟨false, b, b + (e - b)⟩
/-- construct or assign from an iterator and a size, l.252-256, l.470-474 -/
def ofSize (b n : Nat) : View := ⟨false, b, b + n⟩

/-- `remove_prefix`, l.530-536 -/
def removePrefix (m : List α) (v : View) (n : Nat) : Res View :=
  if n < size v then match fwd m v v.beg n with
    | .error u => .error u
    | .ok b => .ok { v with beg := b }
  else .ok { v with beg := v.fin }
/-- `remove_suffix`, l.541-547 -/
def removeSuffix (v : View) (n : Nat) : Res View :=
  if n < size v then match bwd v v.fin n with
    | .error u => .error u
    | .ok e => .ok { v with fin := e }
  else .ok { v with fin := v.beg }

/-- `etl::fill` (algorithm.h), called by `fill` l.552-555: `while (first != last) *first++ = value` -/
def fillLoop (x : α) : Nat → List α → Nat → Nat → Res (List α)
  | 0, _, _, _ => .error .diverge
  | fuel + 1, m, p, e => if p = e then .ok m else if p < m.length then fillLoop x fuel (m.set p x) (p + 1) e else .error .outOfBounds
def fill (x : α) (m : List α) (v : View) : Res (List α) := if v.null then .ok m else fillLoop x (m.length + 1) m v.beg v.fin

/-- a write through `operator []`, l.480-483, and through `at`, l.498-503 (`none`: an error is reported) -/
def set (x : α) (m : List α) (v : View) (i : Nat) : Res (List α) := match rd m v i with
  | .error u => .error u
  | .ok _ => .ok (m.set (v.beg + i) x)
def setChecked (x : α) (m : List α) (v : View) (i : Nat) : Res (Option (List α)) :=
  if v.null then .ok none else if i < size v then (match set x m v i with
    | .error u => .error u
    | .ok m => .ok (some m)) else .ok none

/-- the comparison operators, l.560-604; views of two arrays (or of one) -/
def eq [BEq α] (m m2 : List α) (v w : View) : Bool := size v == size w && equal4 (fun x y => x == y) (elems m v) (elems m2 w)
def lt (l : α → α → Bool) (m m2 : List α) (v w : View) : Bool := lexCompare l (elems m v) (elems m2 w)
def gt (l : α → α → Bool) (m m2 : List α) (v w : View) : Bool := lt l m2 m w v
def le (l : α → α → Bool) (m m2 : List α) (v w : View) : Bool := !gt l m m2 v w
def ge (l : α → α → Bool) (m m2 : List α) (v w : View) : Bool := !lt l m m2 v w

/-- `swap`, l.519-525: exchanges the pointers -/
def swap (v w : View) : View × View := (w, v)

end AV

namespace AW

/-- `front` (FRONT = 0), `back` (BACK = SIZE - 1), `operator []`, array_wrapper.h l.112-139, l.272-283 -/
def get (a : List α) (i : Nat) : Res α := match a[i]? with
  | none => .error .outOfBounds
  | some x => .ok x
def front (a : List α) : Res α := get a 0
def back (a : List α) : Res α := get a (a.length - 1)
/-- `at`, l.288-301 -/
def atChecked (a : List α) (i : Nat) : Res (Option α) := if i < a.length then (match get a i with
    | .error u => .error u
    | .ok x => .ok (some x)) else .ok none
/-- `fill`, l.306-309 -/
def fill (x : α) (a : List α) : Res (List α) := AV.fillLoop x (a.length + 1) a 0 a.length
/-- `swap`, l.314-324: the same loop as for etl::array -/
def swap (a b : List α) : Res (List α × List α) := Arr.swap a.length 0 a b
/-- `operator ==`, l.330-335, `<` l.350-355, and the others l.340-385 -/
def eq [BEq α] (a b : List α) : Bool := a.length == b.length && equal4 (fun x y => x == y) a b
def lt (l : α → α → Bool) (a b : List α) : Bool := lexCompare l a b
def gt (l : α → α → Bool) (a b : List α) : Bool := lt l b a
def le (l : α → α → Bool) (a b : List α) : Bool := !gt l a b
def ge (l : α → α → Bool) (a b : List α) : Bool := !lt l a b

end AW

/-! ## Specification

`Valid`, `Within`, `elems`, `Total` and `Before` (lexicographic order) are those of C48. -/

/-- The five comparisons of two sequences. -/
def CmpOps (l : α → α → Bool) (s t : List α) (eq lt gt le ge : Bool) : Prop :=
  (eq = true ↔ s = t) ∧ (lt = true ↔ Before l s t) ∧ (gt = true ↔ Before l t s) ∧ (le = true ↔ s = t ∨ Before l s t) ∧ (ge = true ↔ s = t ∨ Before l t s)

/-! ## Proofs -/

theorem not_lex {l : α → α → Bool} (ht : Total l) (s t : List α) : (!lexCompare l s t) = true ↔ s = t ∨ Before l t s := by
  rw [← lex_iff ht]
  constructor
  · intro h
    have h1 : lexCompare l s t = false := by simpa using h
    cases h2 : lexCompare l t s with
    | true => exact .inr rfl
    | false => exact .inl (lex_tri ht s t h1 h2)
  · rintro (h | h)
    · rw [h, lex_irrefl ht]; rfl
    · rw [lex_asymm ht t s h]; rfl

theorem cmpOps_lex [DecidableEq α] {l : α → α → Bool} (ht : Total l) (s t : List α) :
    CmpOps l s t (s.length == t.length && equal4 (fun x y => x == y) s t) (lexCompare l s t) (lexCompare l t s) (!lexCompare l t s) (!lexCompare l s t) := by
  refine ⟨?_, lex_iff ht s t, lex_iff ht t s, ?_, not_lex ht s t⟩
  · rw [Bool.and_eq_true, equal4_iff, beq_iff_eq]
    constructor
    · exact fun h => h.2
    · intro h; exact ⟨by rw [h], h⟩
  · rw [not_lex ht t s]
    constructor <;> (rintro (h | h) <;> [exact .inl h.symm; exact .inr h])

theorem fillLoop_ok (x : α) (n : Nat) : ∀ (fuel : Nat) (m : List α) (p : Nat), n < fuel → p + n ≤ m.length →
    ∃ m', AV.fillLoop x fuel m p (p + n) = .ok m' ∧ m'.length = m.length ∧ ∀ i, m'[i]? = if p ≤ i ∧ i < p + n then some x else m[i]? := by
  induction n with
  | zero =>
    intro fuel m p hf _
    obtain ⟨k, rfl⟩ : ∃ k, fuel = k + 1 := ⟨fuel - 1, by omega⟩
    refine ⟨m, by rw [AV.fillLoop, if_pos (Nat.add_zero p).symm], rfl, fun i => by rw [if_neg (by omega)]⟩
  | succ n ih =>
    intro fuel m p hf hl
    obtain ⟨k, rfl⟩ : ∃ k, fuel = k + 1 := ⟨fuel - 1, by omega⟩
    obtain ⟨m', e1, e2, e3⟩ := ih k (m.set p x) (p + 1) (by omega) (by rw [List.length_set]; omega)
    refine ⟨m', ?_, by rw [e2, List.length_set], fun i => ?_⟩
    · rw [AV.fillLoop, if_neg (by omega), if_pos (by omega), show p + (n + 1) = p + 1 + n by omega]; exact e1
    · rw [e3, List.getElem?_set]
      by_cases h1 : p = i
      · subst h1
        rw [if_neg (by omega), if_pos rfl, if_pos (by omega), if_pos (by omega)]
      · rw [if_neg h1]
        by_cases h2 : p + 1 ≤ i ∧ i < p + 1 + n
        · rw [if_pos h2, if_pos (by omega)]
        · rw [if_neg h2, if_neg (by omega)]

theorem elems_get {m : List α} {v : View} (h : Valid m v) (hn : v.null = false) (i : Nat) : (elems m v)[i]? = if i < size v then m[v.beg + i]? else none := by
  rw [elems_of hn, List.getElem?_take, List.getElem?_drop]
  rfl

/-- C109: cutting a view: never outside, whatever the number; the rest of the view is kept. -/
theorem C109_cut {m : List α} {v : View} (h : Valid m v) (n : Nat) :
    (∃ w, AV.removePrefix m v n = .ok w ∧ Valid m w ∧ Within w v ∧ elems m w = (elems m v).drop n) ∧
    (∃ w, AV.removeSuffix v n = .ok w ∧ Valid m w ∧ Within w v ∧ elems m w = (elems m v).take ((elems m v).length - n)) := by
  have hl := elems_len h
  have hz : v.null = true → size v = 0 := fun hn => by have := h.2.2 hn; unfold size; omega
  have h1 := h.1; have h2 := h.2.1
  have hs : size v = v.fin - v.beg := rfl
  constructor
  · by_cases hn : n < size v
    · obtain ⟨c1, c2, c3⟩ := cut h (b := n) (e := size v) (by omega) (by omega)
      refine ⟨{ v with beg := v.beg + n }, ?_, ?_⟩
      · unfold AV.removePrefix
        rw [if_pos hn, fwd_ok (fun hh => by have := hz hh; omega) (by omega)]
      · rw [show v.beg + size v = v.fin by omega] at c1 c2 c3
        refine ⟨c1, c2, ?_⟩
        rw [c3, List.take_of_length_le (by rw [List.length_drop]; omega)]
    · obtain ⟨c1, c2, c3⟩ := cut h (b := size v) (e := size v) (by omega) (by omega)
      refine ⟨{ v with beg := v.fin }, ?_, ?_⟩
      · unfold AV.removePrefix
        rw [if_neg hn]
      · rw [show v.beg + size v = v.fin by omega] at c1 c2 c3
        refine ⟨c1, c2, ?_⟩
        rw [c3, List.drop_eq_nil_of_le (by omega), Nat.sub_self, List.drop_eq_nil_of_le (by omega), List.take_nil]
  · by_cases hn : n < size v
    · obtain ⟨c1, c2, c3⟩ := cut h (b := 0) (e := size v - n) (by omega) (by omega)
      refine ⟨{ v with fin := v.fin - n }, ?_, ?_⟩
      · unfold AV.removeSuffix
        rw [if_pos hn, bwd_ok (fun hh => by have := hz hh; omega) (by omega)]
      · rw [show v.beg + (size v - n) = v.fin - n by omega, Nat.add_zero] at c1 c2 c3
        refine ⟨c1, c2, ?_⟩
        rw [c3, List.drop_zero, hl, Nat.sub_zero]
    · obtain ⟨c1, c2, c3⟩ := cut h (b := 0) (e := 0) (by omega) (by omega)
      refine ⟨{ v with fin := v.beg }, ?_, ?_⟩
      · unfold AV.removeSuffix
        rw [if_neg hn]
      · rw [Nat.add_zero] at c1 c2 c3
        refine ⟨c1, c2, ?_⟩
        rw [c3, hl, show size v - n = 0 by omega]; rfl

/-- C109: views made from a range, or from a start and a size, inside the array; `swap`. -/
theorem C109_make {m : List α} {b e n : Nat} (he : b ≤ e) (hm : e ≤ m.length) (hn : b + n ≤ m.length) (v w : View) :
    (Valid m (AV.ofRange b e) ∧ elems m (AV.ofRange b e) = (m.drop b).take (e - b)) ∧ (Valid m (AV.ofSize b n) ∧ elems m (AV.ofSize b n) = (m.drop b).take n) ∧
    elems m (whole m) = m ∧ AV.swap v w = (w, v) := by
  have hr : ∀ k, b + k ≤ m.length → Valid m ⟨false, b, b + k⟩ ∧ elems m ⟨false, b, b + k⟩ = (m.drop b).take k := by
    intro k hk
    refine ⟨⟨by simp only; omega, by simp only; omega, fun hh => absurd hh Bool.false_ne_true⟩, ?_⟩
    rw [elems_of rfl]
    congr 1
    simp only; omega
  refine ⟨hr _ (by omega), hr _ hn, ?_, rfl⟩
  rw [elems_of rfl]
  simp [whole]

/-- C109: access: `at` is the element, or an error outside the view (or for a null view); `front`, `back` and `operator []` on views that are not empty. -/
theorem C109_access {m : List α} {v : View} (h : Valid m v) (i : Nat) :
    atChecked m v i = .ok (elems m v)[i]? ∧ (i < size v → ∃ x, at? m v i = .ok x ∧ (elems m v)[i]? = some x) ∧
    (elems m v ≠ [] → ∃ x y, front m v = .ok x ∧ (elems m v).head? = some x ∧ back m v = .ok y ∧ (elems m v).getLast? = some y) := by
  have hl := elems_len h
  refine ⟨?_, fun hi => ?_, fun hne => ?_⟩
  · unfold atChecked
    cases hn : v.null with
    | true =>
      rw [if_pos rfl]
      unfold elems
      rw [if_pos hn]; rfl
    | false =>
      rw [if_neg (by decide)]
      by_cases hi : i < size v
      · obtain ⟨x, e1, e2⟩ := rd_ok h hi
        rw [if_pos hi, e2, e1]
      · rw [if_neg hi, List.getElem?_eq_none (by omega)]
  · obtain ⟨x, e1, e2⟩ := rd_ok h hi
    exact ⟨x, e2, e1⟩
  · have hpos : 0 < size v := by
      rw [← hl]; exact List.length_pos_iff.2 hne
    obtain ⟨x, e1, e2⟩ := rd_ok h hpos
    obtain ⟨y, f1, f2⟩ := rd_ok (i := size v - 1) h (by omega)
    have h1 := h.1
    have hs : size v = v.fin - v.beg := rfl
    refine ⟨x, y, e2, by rw [List.head?_eq_getElem?]; exact e1, ?_, by rw [List.getLast?_eq_getElem?, hl]; exact f1⟩
    unfold back
    rw [if_neg (by omega), show v.fin - 1 - v.beg = size v - 1 by omega]; exact f2

/-- C109: writing through a view changes that element of the array and no other; outside the view `at` reports an error. -/
theorem C109_write {m : List α} {v : View} (h : Valid m v) (i : Nat) (x : α) :
    (i < size v → ∃ m', AV.set x m v i = .ok m' ∧ AV.setChecked x m v i = .ok (some m') ∧ m'.length = m.length ∧ Valid m' v ∧ elems m' v = (elems m v).set i x ∧
      ∀ j, j ≠ v.beg + i → m'[j]? = m[j]?) ∧ (size v ≤ i → AV.setChecked x m v i = .ok none) := by
  constructor
  · intro hi
    have hz : v.null = false := by
      cases hn : v.null with
      | false => rfl
      | true => have := h.2.2 hn; unfold size at hi; omega
    obtain ⟨y, e1, e2⟩ := rd_ok h hi
    have h2 := h.2.1
    have hs : size v = v.fin - v.beg := rfl
    have hv' : Valid (m.set (v.beg + i) x) v := ⟨h.1, by rw [List.length_set]; exact h.2.1, h.2.2⟩
    refine ⟨m.set (v.beg + i) x, by unfold AV.set; rw [e2], ?_, List.length_set, hv', ?_, fun j hj => by rw [List.getElem?_set_ne (Ne.symm hj)]⟩
    · unfold AV.setChecked AV.set
      rw [hz, if_neg (by decide), if_pos hi, e2]
    · apply List.ext_getElem?
      intro j
      rw [elems_get hv' hz, List.getElem?_set (l := elems m v), elems_get h hz, elems_len h]
      by_cases hj : j < size v
      · rw [if_pos hj, List.getElem?_set]
        by_cases hij : i = j
        · subst hij; rw [if_pos rfl, if_pos rfl, if_pos (by omega), if_pos hi]
        · rw [if_neg (by omega), if_neg hij, if_pos hj]
      · rw [if_neg hj, if_neg (by omega), if_neg hj]
  · intro hi
    unfold AV.setChecked
    cases hn : v.null with
    | true => rw [if_pos rfl]
    | false => rw [if_neg (by decide), if_neg (by omega)]

/-- C109: `fill` sets every element of the view and leaves the rest of the array. -/
theorem C109_fill {m : List α} {v : View} (h : Valid m v) (x : α) :
    ∃ m', AV.fill x m v = .ok m' ∧ m'.length = m.length ∧ Valid m' v ∧ elems m' v = List.replicate (size v) x ∧ ∀ j, (j < v.beg ∨ v.fin ≤ j) → m'[j]? = m[j]? := by
  have h1 := h.1; have h2 := h.2.1
  cases hn : v.null with
  | true =>
    have := h.2.2 hn
    refine ⟨m, by unfold AV.fill; rw [if_pos hn], rfl, h, ?_, fun _ _ => rfl⟩
    unfold elems size
    rw [if_pos hn, this.1, this.2]; rfl
  | false =>
    obtain ⟨m', e1, e2, e3⟩ := fillLoop_ok x (v.fin - v.beg) (m.length + 1) m v.beg (by omega) (by omega)
    rw [show v.beg + (v.fin - v.beg) = v.fin by omega] at e1 e3
    have hv' : Valid m' v := ⟨h.1, by omega, h.2.2⟩
    refine ⟨m', by unfold AV.fill; rw [if_neg (by rw [hn]; decide)]; exact e1, e2, hv', ?_, fun j hj => by rw [e3, if_neg (by omega)]⟩
    apply List.ext_getElem?
    intro j
    rw [elems_get hv' hn, List.getElem?_replicate]
    have hs : size v = v.fin - v.beg := rfl
    by_cases hj : j < size v
    · rw [if_pos hj, if_pos hj, e3, if_pos (by omega)]
    · rw [if_neg hj, if_neg hj]

/-- C109: the comparisons of views, of one array or of two: equality of the elements and lexicographic order. -/
theorem C109_compare [DecidableEq α] {l : α → α → Bool} (ht : Total l) {m m2 : List α} {v w : View} (hv : Valid m v) (hw : Valid m2 w) :
    CmpOps l (elems m v) (elems m2 w) (AV.eq m m2 v w) (AV.lt l m m2 v w) (AV.gt l m m2 v w) (AV.le l m m2 v w) (AV.ge l m m2 v w) := by
  have := cmpOps_lex ht (elems m v) (elems m2 w)
  rw [elems_len hv, elems_len hw] at this
  exact this

/-- C109: `array_wrapper`: access, `fill`, `swap` and comparisons act on the whole of the wrapped array. -/
theorem C109_wrapper [DecidableEq α] {l : α → α → Bool} (ht : Total l) (a b : List α) (x : α) (i : Nat) :
    AW.atChecked a i = .ok a[i]? ∧ (a ≠ [] → ∃ y z, AW.front a = .ok y ∧ a.head? = some y ∧ AW.back a = .ok z ∧ a.getLast? = some z) ∧ AW.fill x a = .ok (List.replicate a.length x) ∧
    (a.length = b.length → AW.swap a b = .ok (b, a)) ∧ CmpOps l a b (AW.eq a b) (AW.lt l a b) (AW.gt l a b) (AW.le l a b) (AW.ge l a b) := by
  have hget : ∀ k (hk : k < a.length), AW.get a k = .ok a[k] := by
    intro k hk
    unfold AW.get
    rw [List.getElem?_eq_getElem hk]
  refine ⟨?_, fun hne => ?_, ?_, fun hl => Arr.C80_swap a b hl, cmpOps_lex ht a b⟩
  · unfold AW.atChecked
    by_cases hi : i < a.length
    · rw [if_pos hi, hget i hi, List.getElem?_eq_getElem hi]
    · rw [if_neg hi, List.getElem?_eq_none (by omega)]
  · have hpos := List.length_pos_iff.2 hne
    exact ⟨a[0], a[a.length - 1], hget 0 hpos, by rw [List.head?_eq_getElem?, List.getElem?_eq_getElem hpos], hget (a.length - 1) (by omega),
      by rw [List.getLast?_eq_getElem?, List.getElem?_eq_getElem (by omega)]⟩
  · obtain ⟨m', e1, e2, e3⟩ := fillLoop_ok x a.length (a.length + 1) a 0 (by omega) (by omega)
    rw [Nat.zero_add] at e1
    unfold AW.fill
    rw [e1]
    congr 1
    apply List.ext_getElem?
    intro j
    rw [e3, List.getElem?_replicate]
    by_cases hj : j < a.length
    · rw [if_pos (by omega), if_pos hj]
    · rw [if_neg (by omega), if_neg hj, List.getElem?_eq_none (by omega)]

/-! ## Examples and findings -/

example : Valid [1, 2, 3, 4] (AV.ofRange 1 3) ∧ elems [1, 2, 3, 4] (AV.ofRange 1 3) = [2, 3] ∧ AV.removePrefix [1, 2, 3, 4] (AV.ofRange 1 3) 9 = .ok ⟨false, 3, 3⟩ ∧
    AV.fill 0 [1, 2, 3, 4] (AV.ofRange 1 3) = .ok [1, 0, 0, 4] := ⟨⟨by decide, by decide, by decide⟩, rfl, rfl, rfl⟩
example : AV.le (fun x y => decide (x < y)) [1, 2, 3] [1, 2, 4] (whole [1, 2, 3]) (whole [1, 2, 4]) = true ∧ AV.removeSuffix View.empty 3 = .ok View.empty := ⟨rfl, rfl⟩

/-- `front`, `back` and `operator []` are not checked: on an empty view they read outside it. -/
theorem array_view_unchecked : front [1, 2] (AV.ofSize 0 0) = .error .outOfBounds ∧ at? [1, 2] (AV.ofSize 0 1) 1 = .error .outOfBounds := ⟨rfl, rfl⟩

end Etl.View
