import Verif.Str.Props

/-!
# C37: searching for characters in etl::string, starts_with, ends_with, contains

Source: `/repo/include/etl/basic_string.h` l.1436-1449, l.1504-1641, l.2052-2409, l.2548-2583.
The versions with a string, a view, a pointer and one character differ only in where the characters come from: `l` is the list of them (of one character in the last case).
-/
namespace Etl.Str

/-! ### Model -/

/-- the inner loop of `find_first_of` and the others, l.2090-2096: is `x` one of the characters? -/
def oneOf (x : Nat) : List Nat → Bool
  | [] => false
  | y :: l => if x = y then true else oneOf x l
/-- the outer loop of `find_first_of` (`want = true`), l.2088-2097, and `find_first_not_of` (`false`), l.2260-2276: `n` positions from `i` on -/
def firstLoop (s : St) (l : List Nat) (want : Bool) : Nat → Nat → Res (Option Nat)
  | 0, _ => .ok none
  | n + 1, i => match get s i with
    | .error u => .error u
    | .ok x => if oneOf x l == want then .ok (some i) else firstLoop s l want n (i + 1)
/-- `find_first_of`, `find_first_not_of`, l.2084-2122, l.2256-2301 -/
def findFirst (s : St) (l : List Nat) (want : Bool) (pos : Nat) : Res (Option Nat) := if pos < s.size then firstLoop s l want (s.size - pos) pos else .ok none
/-- the loop of `find_last_of`, `find_last_not_of`, l.2170-2184, l.2349-2368: the positions below `p` downwards -/
def lastLoop (s : St) (l : List Nat) (want : Bool) : Nat → Res (Option Nat)
  | 0 => .ok none
  | p + 1 => match get s p with
    | .error u => .error u
    | .ok x => if oneOf x l == want then .ok (some p) else lastLoop s l want p
/-- `find_last_of`, `find_last_not_of`, l.2161-2217, l.2340-2402; `none` is `npos` -/
def findLast (s : St) (l : List Nat) (want : Bool) (pos : Option Nat) : Res (Option Nat) := if s.size = 0 then .ok none else lastLoop s l want (min (pos.getD (s.size - 1)) (s.size - 1) + 1)
/-- `find(c, position)`, l.1436-1449: `begin() + position` is not checked -/
def findChar (s : St) (c pos : Nat) : Res (Option Nat) := if pos ≤ s.size then firstLoop s [c] true (s.size - pos) pos else .error .outOfBounds
/-- `rfind(c, position)`, l.1504-1523: `rbegin() + (size() - position)` is the character before `position` -/
def rfindChar (s : St) (c : Nat) (pos : Option Nat) : Res (Option Nat) := lastLoop s [c] true (min (pos.getD s.size) s.size)

/-- `compare(first1, last1, first2, last2)`, l.2548-2583, with `first1 = p_buffer + i`, `last1 = first1 + n`: characters are read until one differs -/
def rawCmp (s : St) : Nat → Nat → List Nat → Res Int
  | 0, _, [] => .ok 0
  | 0, _, _ :: _ => .ok (-1)
  | _ + 1, _, [] => .ok 1
  | n + 1, i, y :: l => match get s i with
    | .error u => .error u
    | .ok x => if x < y then .ok (-1) else if x > y then .ok 1 else rawCmp s n (i + 1) l
def isZero (r : Res Int) : Res Bool := match r with
  | .error u => .error u
  | .ok r => .ok (r == 0)
/-- `starts_with(str)`, l.1561-1564, by `compare(position, length, str)`, l.1952-1963, which limits the length -/
def startsStr (s : St) (l : List Nat) : Res Bool := isZero (rawCmp s (min l.length s.size) 0 l)
/-- `starts_with(view)`, `starts_with(pointer)`, l.1570-1583, by `compare(position, length, view)`, l.1968-1975, which does not -/
def startsView (s : St) (l : List Nat) : Res Bool := isZero (rawCmp s l.length 0 l)
/-- `ends_with`, l.1596-1633 -/
def ends (s : St) (l : List Nat) : Res Bool := if l.length > s.size then .ok false else isZero (rawCmp s l.length (s.size - l.length) l)
/-- `starts_with(c)`, l.1588-1591 -/
def startsChar (s : St) (c : Nat) : Res Bool := if s.size = 0 then .ok false else match get s 0 with
  | .error u => .error u
  | .ok x => .ok (x == c)
/-- `ends_with(c)`, l.1638-1641 -/
def endsChar (s : St) (c : Nat) : Res Bool := if s.size = 0 then .ok false else match get s (s.size - 1) with
  | .error u => .error u
  | .ok x => .ok (x == c)
/-- `contains(str)`, `contains(view)`, `contains(pointer)`, l.1528-1548 -/
def contains (s : St) (l : List Nat) : Res Bool := match find s l l.length 0 with
  | .error u => .error u
  | .ok r => .ok r.isSome
/-- `contains(c)`, l.1553-1556 -/
def containsChar (s : St) (c : Nat) : Res Bool := match findChar s c 0 with
  | .error u => .error u
  | .ok r => .ok r.isSome

/-! ### Theorems -/

theorem oneOf_eq (x : Nat) (l : List Nat) : oneOf x l = decide (x ∈ l) := by
  induction l with
  | nil => rfl
  | cons y l ih =>
    unfold oneOf
    by_cases h : x = y
    · rw [if_pos h]; simp [h]
    · rw [if_neg h, ih]; simp [h]

variable {s : St} {L : List Nat}

theorem get_rep (h : Rep s L) {i : Nat} (hi : i < L.length) : ∃ x, L[i]? = some x ∧ get s i = .ok x := by
  have := h.fits
  refine ⟨ch L i, ch_get hi, ?_⟩
  unfold get; rw [if_pos (by omega), h.at_ i (by omega)]

theorem firstLoop_ok (h : Rep s L) (l : List Nat) (want : Bool) : ∀ n i, i + n = L.length → ∃ r, firstLoop s l want n i = .ok r ∧ match r with
    | none => ∀ j x, i ≤ j → L[j]? = some x → decide (x ∈ l) = !want
    | some k => i ≤ k ∧ (∃ x, L[k]? = some x ∧ decide (x ∈ l) = want) ∧ ∀ j x, i ≤ j → j < k → L[j]? = some x → decide (x ∈ l) = !want := by
  intro n
  induction n with
  | zero => intro i hi; exact ⟨none, rfl, fun j x hj hx => by have := (List.getElem?_eq_some_iff.mp hx).1; omega⟩
  | succ n ih =>
    intro i hi
    obtain ⟨y, h1, h2⟩ := get_rep h (show i < L.length by omega)
    simp only [firstLoop, h2, oneOf_eq]
    by_cases hf : decide (y ∈ l) = want
    · exact ⟨some i, by simp [hf], Nat.le_refl _, ⟨y, h1, hf⟩, fun j x h3 h4 => by omega⟩
    · rw [if_neg (by simpa using hf)]
      have hy : decide (y ∈ l) = !want := by revert hf; cases want <;> cases decide (y ∈ l) <;> simp
      obtain ⟨r, e, g⟩ := ih (i + 1) (by omega)
      have one : ∀ j x, i ≤ j → ¬ i + 1 ≤ j → L[j]? = some x → decide (x ∈ l) = !want := by
        intro j x h3 h4 hx
        rw [show j = i by omega, h1] at hx; injection hx with hx; rw [← hx]; exact hy
      refine ⟨r, e, ?_⟩
      cases r with
      | none => exact fun j x h3 hx => if h4 : i + 1 ≤ j then g j x h4 hx else one j x h3 h4 hx
      | some k =>
        obtain ⟨g1, g2, g3⟩ := g
        exact ⟨by omega, g2, fun j x h3 h5 hx => if h4 : i + 1 ≤ j then g3 j x h4 h5 hx else one j x h3 h4 hx⟩

theorem lastLoop_ok (h : Rep s L) (l : List Nat) (want : Bool) : ∀ n, n ≤ L.length → ∃ r, lastLoop s l want n = .ok r ∧ match r with
    | none => ∀ j x, j < n → L[j]? = some x → decide (x ∈ l) = !want
    | some k => k < n ∧ (∃ x, L[k]? = some x ∧ decide (x ∈ l) = want) ∧ ∀ j x, k < j → j < n → L[j]? = some x → decide (x ∈ l) = !want := by
  intro n
  induction n with
  | zero => intro _; exact ⟨none, rfl, fun j x hj => by omega⟩
  | succ n ih =>
    intro hn
    obtain ⟨y, h1, h2⟩ := get_rep h (show n < L.length by omega)
    simp only [lastLoop, h2, oneOf_eq]
    by_cases hf : decide (y ∈ l) = want
    · exact ⟨some n, by simp [hf], by omega, ⟨y, h1, hf⟩, fun j x h3 h4 => by omega⟩
    · rw [if_neg (by simpa using hf)]
      have hy : decide (y ∈ l) = !want := by revert hf; cases want <;> cases decide (y ∈ l) <;> simp
      obtain ⟨r, e, g⟩ := ih (by omega)
      have one : ∀ j x, ¬ j < n → j < n + 1 → L[j]? = some x → decide (x ∈ l) = !want := by
        intro j x h3 h4 hx
        rw [show j = n by omega, h1] at hx; injection hx with hx; rw [← hx]; exact hy
      refine ⟨r, e, ?_⟩
      cases r with
      | none => exact fun j x h3 hx => if h4 : j < n then g j x h4 hx else one j x h4 h3 hx
      | some k =>
        obtain ⟨g1, g2, g3⟩ := g
        exact ⟨by omega, g2, fun j x h3 h5 hx => if h4 : j < n then g3 j x h3 h4 hx else one j x h4 h5 hx⟩

variable {cap : Nat} {os : List Op}

/-- C37, `find_first_of` (`want = true`) and `find_first_not_of`: the first position from `pos` on whose character is (not) one of the given ones; any position may be given. -/
theorem C37_find_first (h : After cap os s) (l : List Nat) (want : Bool) (pos : Nat) :
    ∃ r, findFirst s l want pos = .ok r ∧ match r with
      | none => ∀ i x, pos ≤ i → (chars s)[i]? = some x → decide (x ∈ l) = !want
      | some k => pos ≤ k ∧ (∃ x, (chars s)[k]? = some x ∧ decide (x ∈ l) = want) ∧ ∀ i x, pos ≤ i → i < k → (chars s)[i]? = some x → decide (x ∈ l) = !want := by
  have hr := h.rep.1
  have hlen := hr.len
  unfold findFirst
  by_cases hp : pos < s.size
  · rw [if_pos hp]; exact firstLoop_ok hr l want _ _ (by omega)
  · rw [if_neg hp]; exact ⟨none, rfl, fun i x hi hx => by have := (List.getElem?_eq_some_iff.mp hx).1; omega⟩

/-- C37, `find_last_of` and `find_last_not_of`: the last position up to `pos` (`none`: from the end) whose character is (not) one of the given ones. -/
theorem C37_find_last (h : After cap os s) (l : List Nat) (want : Bool) (pos : Option Nat) :
    ∃ r, findLast s l want pos = .ok r ∧ match r with
      | none => ∀ i x, (∀ p, pos = some p → i ≤ p) → (chars s)[i]? = some x → decide (x ∈ l) = !want
      | some k => (∀ p, pos = some p → k ≤ p) ∧ (∃ x, (chars s)[k]? = some x ∧ decide (x ∈ l) = want) ∧
          ∀ i x, (∀ p, pos = some p → i ≤ p) → k < i → (chars s)[i]? = some x → decide (x ∈ l) = !want := by
  have hr := h.rep.1
  have hlen := hr.len
  unfold findLast
  by_cases he : s.size = 0
  · rw [if_pos he]; exact ⟨none, rfl, fun i x _ hx => by have := (List.getElem?_eq_some_iff.mp hx).1; omega⟩
  · rw [if_neg he]
    obtain ⟨r, e, g⟩ := lastLoop_ok hr l want (min (pos.getD (s.size - 1)) (s.size - 1) + 1) (by omega)
    have bound : ∀ i, i < s.size → ((∀ p, pos = some p → i ≤ p) ↔ i < min (pos.getD (s.size - 1)) (s.size - 1) + 1) := by
      intro i hi
      cases pos with
      | none => simp; omega
      | some q => simp; omega
    refine ⟨r, e, ?_⟩
    cases r with
    | none => exact fun i x hi hx => g i x ((bound i (by have := (List.getElem?_eq_some_iff.mp hx).1; omega)).mp hi) hx
    | some k =>
      obtain ⟨g1, g2, g3⟩ := g
      exact ⟨(bound k (by omega)).mpr g1, g2, fun i x hi hk hx => g3 i x hk ((bound i (by have := (List.getElem?_eq_some_iff.mp hx).1; omega)).mp hi) hx⟩

/-- C37, `find(c, pos)`: the first place of the character from `pos ≤ size()` on. -/
theorem C37_find_char (h : After cap os s) (c pos : Nat) (hp : pos ≤ (chars s).length) :
    ∃ r, findChar s c pos = .ok r ∧ match r with
      | none => ∀ i, pos ≤ i → (chars s)[i]? ≠ some c
      | some k => pos ≤ k ∧ (chars s)[k]? = some c ∧ ∀ i, pos ≤ i → i < k → (chars s)[i]? ≠ some c := by
  have hr := h.rep.1
  have hlen := hr.len
  unfold findChar
  rw [if_pos (by omega)]
  obtain ⟨r, e, g⟩ := firstLoop_ok hr [c] true (s.size - pos) pos (by omega)
  refine ⟨r, e, ?_⟩
  cases r with
  | none => exact fun i hi hx => by simpa using g i c hi hx
  | some k =>
    obtain ⟨g1, ⟨x, g2, g3⟩, g4⟩ := g
    exact ⟨g1, by rw [g2]; simpa using g3, fun i hi hk hx => by simpa using g4 i c hi hk hx⟩

/-- C37, `rfind(c, pos)`: the last place of the character before `pos` (`none`: in the string); a string of the standard library would look at the place `pos` too. -/
theorem C37_rfind_char_partial (h : After cap os s) (c : Nat) (pos : Option Nat) :
    ∃ r, rfindChar s c pos = .ok r ∧ match r with
      | none => ∀ i, (∀ p, pos = some p → i < p) → (chars s)[i]? ≠ some c
      | some k => (∀ p, pos = some p → k < p) ∧ (chars s)[k]? = some c ∧ ∀ i, (∀ p, pos = some p → i < p) → k < i → (chars s)[i]? ≠ some c := by
  have hr := h.rep.1
  have hlen := hr.len
  unfold rfindChar
  obtain ⟨r, e, g⟩ := lastLoop_ok hr [c] true (min (pos.getD s.size) s.size) (by omega)
  have bound : ∀ i, i < s.size → ((∀ p, pos = some p → i < p) ↔ i < min (pos.getD s.size) s.size) := by
    intro i hi
    cases pos with
    | none => simp; omega
    | some q => simp; omega
  refine ⟨r, e, ?_⟩
  cases r with
  | none => exact fun i hi hx => by simpa using g i c ((bound i (by have := (List.getElem?_eq_some_iff.mp hx).1; omega)).mp hi) hx
  | some k =>
    obtain ⟨g1, ⟨x, g2, g3⟩, g4⟩ := g
    exact ⟨(bound k (by omega)).mpr g1, by rw [g2]; simpa using g3, fun i hi hk hx => by simpa using g4 i c hk ((bound i (by have := (List.getElem?_eq_some_iff.mp hx).1; omega)).mp hi) hx⟩

theorem rawCmp_ok (h : Rep s L) (l : List Nat) : ∀ (n i : Nat), i ≤ L.length → (n = l.length ∧ (0 ∉ l ∨ i + l.length ≤ L.length)) ∨ (n = min l.length (L.length - i)) →
    ∃ r, rawCmp s n i l = .ok r ∧ (r = 0 ↔ l <+: L.drop i) := by
  have hf := h.fits
  induction l with
  | nil =>
    intro n i _ hn
    have : n = 0 := by rcases hn with ⟨h, _⟩ | h <;> simpa using h
    subst this
    exact ⟨0, rfl, by simp⟩
  | cons y l ih =>
    intro n i hi hn
    by_cases he : i = L.length
    · have hd : L.drop i = [] := by rw [he]; exact List.drop_length
      rw [hd]
      rcases hn with ⟨h1, h2⟩ | h1
      · have hz : y ≠ 0 := by
          rcases h2 with h2 | h2
          · exact fun e => h2 (by simp [e])
          · simp only [List.length_cons] at h2; omega
        rw [List.length_cons] at h1
        subst h1
        have hg : get s i = .ok 0 := by unfold get; rw [if_pos (by omega), h.at_ i (by omega), ch_out (by omega)]
        exact ⟨-1, by simp only [rawCmp, hg]; rw [if_pos (by omega)], by simp⟩
      · have : n = 0 := by rw [h1, he]; simp
        subst this
        exact ⟨-1, rfl, by simp⟩
    · obtain ⟨x, h1, h2⟩ := get_rep h (show i < L.length by omega)
      have hd : L.drop i = x :: L.drop (i + 1) := by
        rw [List.drop_eq_getElem_cons (by omega)]
        rw [List.getElem?_eq_getElem (by omega)] at h1
        injection h1 with h1; rw [h1]
      obtain ⟨m, rfl⟩ : ∃ m, n = m + 1 := by
        refine ⟨n - 1, ?_⟩
        rcases hn with ⟨h3, _⟩ | h3
        · rw [h3]; simp
        · rw [List.length_cons] at h3; omega
      simp only [rawCmp, h2]
      rw [hd, List.cons_prefix_cons]
      by_cases hlt : x < y
      · exact ⟨-1, if_pos hlt, by simp only [show ¬ y = x by omega, false_and, iff_false]; decide⟩
      · rw [if_neg hlt]
        by_cases hgt : x > y
        · exact ⟨1, if_pos hgt, by simp only [show ¬ y = x by omega, false_and, iff_false]; decide⟩
        · rw [if_neg hgt]
          obtain ⟨r, e, g⟩ := ih m (i + 1) (by omega) (by
            simp only [List.length_cons, List.mem_cons, not_or] at hn
            rcases hn with ⟨h3, h4⟩ | h3
            · refine .inl ⟨by omega, ?_⟩
              rcases h4 with h4 | h4
              · exact .inl h4.2
              · exact .inr (by omega)
            · exact .inr (by omega))
          exact ⟨r, e, by rw [g]; simp only [show y = x by omega, true_and]⟩

theorem isZero_ok {r : Res Int} {P : Prop} (h : ∃ x, r = .ok x ∧ (x = 0 ↔ P)) : ∃ b, isZero r = .ok b ∧ (b = true ↔ P) := by
  obtain ⟨x, rfl, h⟩ := h
  exact ⟨x == 0, rfl, by rw [beq_iff_eq]; exact h⟩

/-- C37, `starts_with` and `ends_with`; the views and texts of `starts_with` may not contain a null. -/
theorem C37_starts_ends (h : After cap os s) (l : List Nat) (c : Nat) :
    (∃ b, startsStr s l = .ok b ∧ (b = true ↔ l <+: chars s)) ∧ (0 ∉ l → ∃ b, startsView s l = .ok b ∧ (b = true ↔ l <+: chars s)) ∧
    (∃ b, ends s l = .ok b ∧ (b = true ↔ l <:+ chars s)) ∧
    (∃ b, startsChar s c = .ok b ∧ (b = true ↔ (chars s).head? = some c)) ∧ (∃ b, endsChar s c = .ok b ∧ (b = true ↔ (chars s).getLast? = some c)) := by
  have hr := h.rep.1
  have hlen := hr.len
  refine ⟨?_, ?_, ?_, ?_, ?_⟩
  · have := rawCmp_ok hr l (min l.length s.size) 0 (by omega) (.inr (by omega))
    exact isZero_ok this
  · intro hz
    have := rawCmp_ok hr l l.length 0 (by omega) (.inl ⟨rfl, .inl hz⟩)
    exact isZero_ok this
  · unfold ends
    by_cases hl : l.length > s.size
    · rw [if_pos hl]
      refine ⟨false, rfl, ?_⟩
      simp only [Bool.false_eq_true, false_iff]
      intro hs
      have := hs.length_le
      omega
    · rw [if_neg hl]
      have := isZero_ok (rawCmp_ok hr l l.length (s.size - l.length) (by omega) (.inl ⟨rfl, .inr (by omega)⟩))
      obtain ⟨b, e, g⟩ := this
      refine ⟨b, e, ?_⟩
      rw [g, List.suffix_iff_eq_drop, List.prefix_iff_eq_take, hlen, List.take_of_length_le (by rw [List.length_drop]; omega)]
  · unfold startsChar
    by_cases he : s.size = 0
    · rw [if_pos he]
      exact ⟨false, rfl, by rw [List.eq_nil_of_length_eq_zero (l := chars s) (by omega)]; simp⟩
    · rw [if_neg he]
      obtain ⟨x, h1, h2⟩ := get_rep hr (show 0 < (chars s).length by omega)
      rw [h2]
      exact ⟨x == c, rfl, by rw [List.head?_eq_getElem?, h1, beq_iff_eq]; simp⟩
  · unfold endsChar
    by_cases he : s.size = 0
    · rw [if_pos he]
      exact ⟨false, rfl, by rw [List.eq_nil_of_length_eq_zero (l := chars s) (by omega)]; simp⟩
    · rw [if_neg he]
      obtain ⟨x, h1, h2⟩ := get_rep hr (show s.size - 1 < (chars s).length by omega)
      rw [h2]
      exact ⟨x == c, rfl, by rw [List.getLast?_eq_getElem?, ← hlen, h1, beq_iff_eq]; simp⟩

/-- C37, `contains`: of a non empty text, of a character. -/
theorem C37_contains (h : After cap os s) (l : List Nat) (hne : l ≠ []) (hw : l.length < 2 ^ 64) (c : Nat) :
    (∃ b, contains s l = .ok b ∧ (b = true ↔ l <:+: chars s)) ∧ (∃ b, containsChar s c = .ok b ∧ (b = true ↔ c ∈ chars s)) := by
  constructor
  · obtain ⟨r, e, g⟩ := find_rep h.rep.1 l hne 0 (Nat.zero_le _) (by omega)
    refine ⟨r.isSome, by unfold contains; rw [e], ?_⟩
    have occ : (∃ i, View.OccursAt (chars s) l i) ↔ l <:+: chars s := by
      constructor
      · rintro ⟨i, _, t, ht⟩
        exact ⟨(chars s).take i, t, by rw [List.append_assoc, ht, List.take_append_drop]⟩
      · rintro ⟨a, b, hab⟩
        exact ⟨a.length, by rw [← hab]; simp, b, by rw [← hab, List.append_assoc, List.drop_left]⟩
    rw [← occ]
    cases r with
    | none => simp only [Option.isSome_none, Bool.false_eq_true, false_iff]; rintro ⟨i, hi⟩; exact g i (Nat.zero_le _) hi
    | some k => simp only [Option.isSome_some, true_iff]; exact ⟨k, g.2.1⟩
  · obtain ⟨r, e, g⟩ := C37_find_char h c 0 (Nat.zero_le _)
    refine ⟨r.isSome, by unfold containsChar; rw [e], ?_⟩
    rw [List.mem_iff_getElem?]
    cases r with
    | none => simp only [Option.isSome_none, Bool.false_eq_true, false_iff]; rintro ⟨i, hi⟩; exact g i (Nat.zero_le _) hi
    | some k => simp only [Option.isSome_some, true_iff]; exact ⟨k, g.2.1⟩

/-! ### Cases and findings -/

/-- a query on the string a history leaves -/
def ask {α : Type} (os : List Op) (f : St → Res α) : Option α := match from_ 8 os with
  | .error _ => none
  | .ok s => match f s with
    | .error _ => none
    | .ok r => some r
def hello : List Op := [.assign (ofStr "hello") false false]
example : ask hello (findFirst · (ofStr "lo") true 0) = some (some 2) ∧ ask hello (findFirst · (ofStr "he") false 0) = some (some 2) ∧
    ask hello (findLast · (ofStr "le") true none) = some (some 3) ∧ ask hello (findLast · (ofStr "le") false (some 3)) = some (some 0) ∧
    ask hello (findChar · 108 3) = some (some 3) ∧ ask hello (rfindChar · 108 none) = some (some 3) ∧
    ask hello (startsView · (ofStr "hel")) = some true ∧ ask hello (ends · (ofStr "llo")) = some true ∧ ask hello (ends · (ofStr "hell")) = some false ∧
    ask hello (endsChar · 111) = some true ∧ ask hello (contains · (ofStr "ell")) = some true ∧ ask hello (containsChar · 122) = some false := by
  refine ⟨?_, ?_, ?_, ?_, ?_, ?_, ?_, ?_, ?_, ?_, ?_, ?_⟩ <;> decide +kernel

/-- `starts_with(view)` compares with the memory behind the string: after "hello" is replaced by "he", the string "starts with" he, null, lo. -/
theorem C37_finding_starts_with_stale : ask [.assign (ofStr "hello") false false, .assign (ofStr "he") false false] (startsView · [104, 101, 0, 108, 111]) = some true ∧
    ask [.assign (ofStr "hello") false false, .assign (ofStr "he") false false] (fun s => .ok (chars s)) = some (ofStr "he") := by decide +kernel
/-- and behind the buffer -/
theorem C37_finding_starts_with_overread : ask [.assign (ofStr "hellohe") false false] (startsView · (ofStr "hellohe" ++ [0, 63, 1])) = none := by decide +kernel
/-- `rfind(c, position)` does not look at the place `position`. -/
theorem C37_finding_rfind_char : ask hello (rfindChar · 108 (some 3)) = some (some 2) := by decide +kernel

end Etl.Str
