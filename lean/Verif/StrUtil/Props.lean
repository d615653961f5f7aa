import Verif.StrUtil.Model
import Verif.Str.Props
import Verif.View.Props
import Mathlib.Data.List.DropRight
import Mathlib.Tactic.SplitIfs

/-!
# Properties of the string utilities (C73)
-/
namespace Etl.StrUtil

open Etl.Str (St get put Rep Post chars)
open Etl.View (View)

/-! ## Specification -/

/-- All occurrences of `old`, from the left and not overlapping, replaced by `new`: `Replaced old new before after`. -/
inductive Replaced (old new : List Nat) : List Nat → List Nat → Prop where
  | nil : Replaced old new [] []
  | hit {r r' : List Nat} : Replaced old new r r' → Replaced old new (old ++ r) (new ++ r')
  | miss {c : Nat} {r r' : List Nat} : ¬ old <+: c :: r → Replaced old new r r' → Replaced old new (c :: r) (c :: r')

/-- The pairs one after the other. -/
inductive ReplacedAll : List (List Nat × List Nat) → List Nat → List Nat → Prop where
  | nil {l : List Nat} : ReplacedAll [] l l
  | cons {a b l m r : List Nat} {ps : List (List Nat × List Nat)} : Replaced a b l m → ReplacedAll ps m r → ReplacedAll ((a, b) :: ps) l r

/-- The same, and the text never gets longer than `N`. -/
inductive FitsAll (N : Nat) : List (List Nat × List Nat) → List Nat → List Nat → Prop where
  | nil {l : List Nat} : FitsAll N [] l l
  | cons {a b l m r : List Nat} {ps : List (List Nat × List Nat)} : Replaced a b l m → m.length ≤ N → FitsAll N ps m r → FitsAll N ((a, b) :: ps) l r

/-- The text cut at each character of `d`. -/
def pieces (d : List Nat) : List Nat → List (List Nat)
  | [] => [[]]
  | c :: cs => if c ∈ d then [] :: pieces d cs else
    match pieces d cs with
    | [] => [[c]]
    | p :: ps => (c :: p) :: ps

/-- The calls that change a string and cannot truncate it. -/
inductive Util where
  | trimFromLeft (d : List Nat) | trimLeft (d : List Nat) | trimFromRight (d : List Nat) | trimRight (d : List Nat) | trimFrom (d : List Nat) | trim (d : List Nat)
  | leftN (n : Nat) | rightN (n : Nat) | reverse | replaceChars (ps : List (Nat × Nat)) | padLeft (n c : Nat) | padRight (n c : Nat)
  | mapCase (f : Nat → Nat) | sentence (up low : Nat → Nat)

/-- The text after the call, for a string of capacity `N`. -/
def Util.ideal (N : Nat) (l : List Nat) : Util → List Nat
  | .trimFromLeft d => l.dropWhile (fun x => decide (x ∈ d))
  | .trimLeft d => l.dropWhile (fun x => decide (x ∉ d))
  | .trimFromRight d => l.rdropWhile (fun x => decide (x ∈ d))
  | .trimRight d => l.rdropWhile (fun x => decide (x ∉ d))
  | .trimFrom d => (l.dropWhile (fun x => decide (x ∈ d))).rdropWhile (fun x => decide (x ∈ d))
  | .trim d => (l.dropWhile (fun x => decide (x ∉ d))).rdropWhile (fun x => decide (x ∉ d))
  | .leftN n => l.take n
  | .rightN n => l.drop (l.length - n)
  | .reverse => l.reverse
  | .replaceChars ps => ps.foldl (fun l p => l.map (fun x => if x = p.1 then p.2 else x)) l
  | .padLeft n c => List.replicate (min n N - l.length) c ++ l
  | .padRight n c => l ++ List.replicate (min n N - l.length) c
  | .mapCase f => l.map f
  | .sentence up low => match l with
    | [] => []
    | c :: r => up c :: r.map low

/-- The precondition of `to_sentence_case`: see `sentence_of_empty_runs_away`. -/
def Util.Legal (l : List Nat) : Util → Prop
  | .sentence _ _ => l ≠ []
  | _ => True

/-- The truncation flag after the call: it stays, but `trim_left`, `trim_right` and `trim` of a text without a delimiter clear the string, which resets it. -/
def Util.flag (l : List Nat) (f : Bool) : Util → Bool
  | .trimLeft d | .trimRight d | .trim d => f && l.any (fun x => decide (x ∈ d))
  | _ => f

def lift (r : Res St) : Res (Option St) := do .ok (some (← r))

/-- The code. -/
def exec (s : St) : Util → Res (Option St)
  | .trimFromLeft d => lift (trimFromLeft s d)
  | .trimLeft d => lift (trimLeft s d)
  | .trimFromRight d => lift (trimFromRight s d)
  | .trimRight d => lift (trimRight s d)
  | .trimFrom d => lift (trimFrom s d)
  | .trim d => lift (trim s d)
  | .leftN n => lift (leftN s n)
  | .rightN n => lift (rightN s n)
  | .reverse => lift (reverse s)
  | .replaceChars ps => lift (replaceChars s ps)
  | .padLeft n c => padLeft s n c
  | .padRight n c => padRight s n c
  | .mapCase f => lift (mapCase f s)
  | .sentence up low => lift (sentence up low s)

/-! ## Searching -/

/-- `r` is the first place where `P` holds. -/
def First (P : Nat → Bool) (l : List Nat) : Option Nat → Prop
  | none => ∀ (i : Nat) (x : Nat), l[i]? = some x → P x = false
  | some k => (∃ x, l[k]? = some x ∧ P x = true) ∧ ∀ (i : Nat) (x : Nat), i < k → l[i]? = some x → P x = false

/-- `r` is the last place where `P` holds. -/
def Last (P : Nat → Bool) (l : List Nat) : Option Nat → Prop
  | none => ∀ (i : Nat) (x : Nat), l[i]? = some x → P x = false
  | some k => (∃ x, l[k]? = some x ∧ P x = true) ∧ ∀ (i : Nat) (x : Nat), k < i → l[i]? = some x → P x = false

theorem First.dropWhile {P : Nat → Bool} : ∀ {l : List Nat} {r : Option Nat}, First P l r → l.dropWhile (fun x => !P x) = l.drop (r.getD l.length) := by
  intro l
  induction l with
  | nil => intro r _; simp
  | cons c l ih =>
    intro r h
    cases r with
    | none =>
      have h0 := h 0 c rfl
      rw [List.dropWhile_cons, if_pos (by simp [h0]), ih (r := none) (fun i x hx => h (i + 1) x hx)]
      simp
    | some k =>
      cases k with
      | zero =>
        obtain ⟨x, hx, hp⟩ := h.1
        rw [List.getElem?_cons_zero] at hx
        rw [List.dropWhile_cons, if_neg (by simp [Option.some.inj hx, hp])]; rfl
      | succ k =>
        have h0 := h.2 0 c (by omega) rfl
        rw [List.dropWhile_cons, if_pos (by simp [h0]), ih (r := some k)]
        · rfl
        · refine ⟨?_, fun i x hi hx => h.2 (i + 1) x (by omega) (by rw [List.getElem?_cons_succ]; exact hx)⟩
          obtain ⟨x, hx, hp⟩ := h.1
          rw [List.getElem?_cons_succ] at hx; exact ⟨x, hx, hp⟩

theorem Last.lt {P : Nat → Bool} {l : List Nat} {k : Nat} (h : Last P l (some k)) : k < l.length := by
  obtain ⟨⟨x, hx, _⟩, _⟩ := h
  exact (List.getElem?_eq_some_iff.mp hx).1

theorem Last.rev {P : Nat → Bool} {l : List Nat} {r : Option Nat} (h : Last P l r) : First P l.reverse (r.map (fun k => l.length - 1 - k)) := by
  cases r with
  | none =>
    intro i x hx
    have hi := (List.getElem?_eq_some_iff.mp hx).1
    rw [List.length_reverse] at hi
    rw [List.getElem?_reverse hi] at hx
    exact h _ x hx
  | some k =>
    have hk := h.lt
    show First P l.reverse (some (l.length - 1 - k))
    refine ⟨?_, ?_⟩
    · obtain ⟨x, hx, hp⟩ := h.1
      refine ⟨x, ?_, hp⟩
      rw [List.getElem?_reverse (by omega), show l.length - 1 - (l.length - 1 - k) = k by omega]; exact hx
    · intro i x hi hx
      rw [List.getElem?_reverse (by omega)] at hx
      exact h.2 _ x (by omega) hx

theorem Last.rdropWhile {P : Nat → Bool} {l : List Nat} {r : Option Nat} (h : Last P l r) : l.rdropWhile (fun x => !P x) = l.take (succ r) := by
  unfold List.rdropWhile
  rw [h.rev.dropWhile, List.length_reverse]
  cases r with
  | none => simp [succ]
  | some k =>
    have hk := h.lt
    simp only [Option.map_some, Option.getD_some, succ]
    rw [List.drop_reverse, List.reverse_reverse, show l.length - (l.length - 1 - k) = k + 1 by omega]

theorem Last.drop {P : Nat → Bool} {l : List Nat} {k j : Nat} (h : Last P l (some k)) (hj : j ≤ k) : Last P (l.drop j) (some (k - j)) := by
  refine ⟨?_, ?_⟩
  · obtain ⟨x, hx, hp⟩ := h.1
    exact ⟨x, by rw [List.getElem?_drop, show j + (k - j) = k by omega]; exact hx, hp⟩
  · intro i x hi hx
    rw [List.getElem?_drop] at hx
    exact h.2 _ x (by omega) hx

theorem First.lt {P : Nat → Bool} {l : List Nat} {k : Nat} (h : First P l (some k)) : k < l.length := by
  obtain ⟨⟨x, hx, _⟩, _⟩ := h
  exact (List.getElem?_eq_some_iff.mp hx).1

/-- Trimming at both ends, from the two searches on the whole text. -/
theorem both {P : Nat → Bool} {l : List Nat} {r q : Option Nat} (h1 : First P l r) (h2 : Last P l q) :
    (l.dropWhile (fun x => !P x)).rdropWhile (fun x => !P x) = (l.drop (r.getD 0)).take (succ q - r.getD 0) := by
  cases r with
  | none =>
    have : q = none := by
      cases q with
      | none => rfl
      | some k =>
        obtain ⟨⟨x, hx, hp⟩, _⟩ := h2
        rw [h1 k x hx] at hp; cases hp
    rw [h1.dropWhile, this]; simp [succ]
  | some k =>
    cases q with
    | none =>
      obtain ⟨⟨x, hx, hp⟩, _⟩ := h1
      rw [h2 k x hx] at hp; cases hp
    | some j =>
      have hkj : k ≤ j := by
        by_contra hlt
        obtain ⟨⟨x, hx, hp⟩, _⟩ := h1
        rw [h2.2 k x (by omega) hx] at hp; cases hp
      rw [h1.dropWhile, Option.getD_some, Option.getD_some, (h2.drop hkj).rdropWhile]
      simp only [succ]
      rw [show j - k + 1 = j + 1 - k by omega]

theorem first_le_last {P : Nat → Bool} {l : List Nat} {r q : Option Nat} (h1 : First P l r) (h2 : Last P l q) : r.getD 0 ≤ succ q := by
  cases r with
  | none => exact Nat.zero_le _
  | some k =>
    obtain ⟨⟨x, hx, hp⟩, _⟩ := h1
    cases q with
    | none => rw [h2 k x hx] at hp; cases hp
    | some j =>
      show k ≤ j + 1
      by_contra hlt
      rw [h2.2 k x (by omega) hx] at hp; cases hp

theorem oneOf_eq (x : Nat) (d : List Nat) : oneOf x d = decide (x ∈ d) := by
  induction d with
  | nil => simp [oneOf]
  | cons y ys ih =>
    unfold oneOf
    by_cases h : x = y
    · simp [h]
    · simp [h, ih]

/-- The characters wanted. -/
def want (d : List Nat) (w : Bool) : Nat → Bool := fun x => decide (x ∈ d) == w

variable {s : St} {l : List Nat}

theorem get_rep (h : Rep s l) {i : Nat} (hi : i < l.length) : get s i = .ok (Str.ch l i) ∧ l[i]? = some (Str.ch l i) := by
  have hf := h.fits
  refine ⟨?_, Str.ch_get hi⟩
  unfold Str.get; rw [if_pos (by omega), h.at_ i (by omega)]

/-- **C73, searching.** `find_first_of` and `find_first_not_of` of a string return the first position, not before the given one, whose character is (is not) one of the given
ones, and `npos` if there is none. -/
theorem C73_find_first (h : Rep s l) (d : List Nat) (w : Bool) (position : Nat) :
    ∃ r, findFirst s d w position = .ok r ∧ match r with
      | none => ∀ i x, position ≤ i → l[i]? = some x → decide (x ∈ d) = !w
      | some k => position ≤ k ∧ (∃ x, l[k]? = some x ∧ decide (x ∈ d) = w) ∧ ∀ i x, position ≤ i → i < k → l[i]? = some x → decide (x ∈ d) = !w := by
  have hl := h.len
  have key : ∀ n i, i + n = l.length → ∃ r, firstLoop s d w n i = .ok r ∧ match r with
      | none => ∀ j x, i ≤ j → l[j]? = some x → decide (x ∈ d) = !w
      | some k => i ≤ k ∧ (∃ x, l[k]? = some x ∧ decide (x ∈ d) = w) ∧ ∀ j x, i ≤ j → j < k → l[j]? = some x → decide (x ∈ d) = !w := by
    intro n
    induction n with
    | zero =>
      intro i hi
      refine ⟨none, rfl, fun j x hj hx => ?_⟩
      rw [List.getElem?_eq_none (by omega)] at hx; cases hx
    | succ n ih =>
      intro i hi
      obtain ⟨g1, g2⟩ := get_rep h (i := i) (by omega)
      unfold firstLoop
      rw [g1]
      simp only [oneOf_eq]
      by_cases hb : decide (Str.ch l i ∈ d) = w
      · rw [if_pos (by simpa using hb)]
        exact ⟨some i, rfl, Nat.le_refl _, ⟨_, g2, hb⟩, fun j x h1 h2 => by omega⟩
      · rw [if_neg (by simpa using hb)]
        have hb' : decide (Str.ch l i ∈ d) = !w := by cases w <;> simpa using hb
        obtain ⟨r, e, hr⟩ := ih (i + 1) (by omega)
        refine ⟨r, e, ?_⟩
        have step : ∀ j x, i ≤ j → (i + 1 ≤ j → decide (x ∈ d) = !w) → l[j]? = some x → decide (x ∈ d) = !w := by
          intro j x hj hc hx
          by_cases hji : j = i
          · rw [hji, g2] at hx; rw [← Option.some.inj hx]; exact hb'
          · exact hc (by omega)
        cases r with
        | none => exact fun j x hj hx => step j x hj (fun hj' => hr j x hj' hx) hx
        | some k => exact ⟨by have := hr.1; omega, hr.2.1, fun j x hj hjk hx => step j x hj (fun hj' => hr.2.2 j x hj' hjk hx) hx⟩
  unfold findFirst
  by_cases hp : position < s.size
  · rw [if_pos hp]; exact key _ _ (by omega)
  · rw [if_neg hp]
    refine ⟨none, rfl, fun j x hj hx => ?_⟩
    rw [List.getElem?_eq_none (by omega)] at hx; cases hx

/-- **C73, searching.** `find_last_of` and `find_last_not_of`: the last such position, not after the given one (`none`: `npos`, the default). -/
theorem C73_find_last (h : Rep s l) (d : List Nat) (w : Bool) (position : Option Nat) :
    ∃ r, findLast s d w position = .ok r ∧ match r with
      | none => ∀ i x, (∀ p, position = some p → i ≤ p) → l[i]? = some x → decide (x ∈ d) = !w
      | some k => (∀ p, position = some p → k ≤ p) ∧ (∃ x, l[k]? = some x ∧ decide (x ∈ d) = w) ∧
          ∀ i x, (∀ p, position = some p → i ≤ p) → k < i → l[i]? = some x → decide (x ∈ d) = !w := by
  have hl := h.len
  have key : ∀ n, n ≤ l.length → ∃ r, lastLoop s d w n = .ok r ∧ match r with
      | none => ∀ j x, j < n → l[j]? = some x → decide (x ∈ d) = !w
      | some k => k < n ∧ (∃ x, l[k]? = some x ∧ decide (x ∈ d) = w) ∧ ∀ j x, k < j → j < n → l[j]? = some x → decide (x ∈ d) = !w := by
    intro n
    induction n with
    | zero => intro _; exact ⟨none, rfl, fun j x hj _ => by omega⟩
    | succ n ih =>
      intro hn
      obtain ⟨g1, g2⟩ := get_rep h (i := n) (by omega)
      unfold lastLoop
      rw [g1]
      simp only [oneOf_eq]
      by_cases hb : decide (Str.ch l n ∈ d) = w
      · rw [if_pos (by simpa using hb)]
        exact ⟨some n, rfl, by omega, ⟨_, g2, hb⟩, fun j x h1 h2 => by omega⟩
      · rw [if_neg (by simpa using hb)]
        have hb' : decide (Str.ch l n ∈ d) = !w := by cases w <;> simpa using hb
        obtain ⟨r, e, hr⟩ := ih (by omega)
        refine ⟨r, e, ?_⟩
        have step : ∀ j x, j < n + 1 → (j < n → decide (x ∈ d) = !w) → l[j]? = some x → decide (x ∈ d) = !w := by
          intro j x hj hc hx
          by_cases hji : j = n
          · rw [hji, g2] at hx; rw [← Option.some.inj hx]; exact hb'
          · exact hc (by omega)
        cases r with
        | none => exact fun j x hj hx => step j x hj (fun hj' => hr j x hj' hx) hx
        | some k => exact ⟨by have := hr.1; omega, hr.2.1, fun j x hkj hj hx => step j x hj (fun hj' => hr.2.2 j x hkj hj' hx) hx⟩
  unfold findLast
  by_cases h0 : s.size = 0
  · rw [if_pos h0]
    refine ⟨none, rfl, fun i x _ hx => ?_⟩
    rw [List.getElem?_eq_none (by omega)] at hx; cases hx
  · rw [if_neg h0]
    obtain ⟨r, e, hr⟩ := key (min (position.getD (s.size - 1)) (s.size - 1) + 1) (by omega)
    refine ⟨r, e, ?_⟩
    have lt : ∀ i x, (∀ p, position = some p → i ≤ p) → l[i]? = some x → i < min (position.getD (s.size - 1)) (s.size - 1) + 1 := by
      intro i x hi hx
      have := (List.getElem?_eq_some_iff.mp hx).1
      cases position with
      | none => simp only [Option.getD_none]; omega
      | some p => have := hi p rfl; simp only [Option.getD_some]; omega
    cases r with
    | none => exact fun i x hi hx => hr i x (lt i x hi hx) hx
    | some k =>
      refine ⟨?_, hr.2.1, fun i x hi hk hx => hr.2.2 i x hk (lt i x hi hx) hx⟩
      intro p hp
      have := hr.1
      rw [hp, Option.getD_some] at this; omega

theorem first_rep (h : Rep s l) (d : List Nat) (w : Bool) : ∃ r, findFirst s d w 0 = .ok r ∧ First (want d w) l r := by
  obtain ⟨r, e, hr⟩ := C73_find_first h d w 0
  refine ⟨r, e, ?_⟩
  cases r with
  | none => intro i x hx; unfold want; rw [hr i x (Nat.zero_le _) hx]; cases w <;> rfl
  | some k =>
    obtain ⟨_, ⟨x, hx, hp⟩, h2⟩ := hr
    refine ⟨⟨x, hx, by unfold want; rw [hp]; simp⟩, fun i x hi hx => ?_⟩
    unfold want; rw [h2 i x (Nat.zero_le _) hi hx]; cases w <;> rfl

theorem last_rep (h : Rep s l) (d : List Nat) (w : Bool) : ∃ r, findLast s d w none = .ok r ∧ Last (want d w) l r := by
  obtain ⟨r, e, hr⟩ := C73_find_last h d w none
  refine ⟨r, e, ?_⟩
  cases r with
  | none => intro i x hx; unfold want; rw [hr i x (fun p hp => by cases hp) hx]; cases w <;> rfl
  | some k =>
    obtain ⟨_, ⟨x, hx, hp⟩, h2⟩ := hr
    refine ⟨⟨x, hx, by unfold want; rw [hp]; simp⟩, fun i x hi hx => ?_⟩
    unfold want; rw [h2 i x (fun p hp => by cases hp) hi hx]; cases w <;> rfl

theorem want_in (d : List Nat) : (fun x => !want d false x) = fun x => decide (x ∈ d) := by
  funext x; unfold want; by_cases h : x ∈ d <;> simp [h]
theorem want_out (d : List Nat) : (fun x => !want d true x) = fun x => decide (x ∉ d) := by
  funext x; unfold want; by_cases h : x ∈ d <;> simp [h]

/-! ## Trimming strings -/

/-- What a call leaves: the text, the same capacity and flags, a proper string. -/
abbrev Leaves (s s' : St) (l : List Nat) : Prop := Post s l s.trunc s.secure s'

theorem Leaves.then {s1 s2 : St} {l1 l2 : List Nat} (h1 : Leaves s s1 l1) (h2 : Leaves s1 s2 l2) : Leaves s s2 l2 := by
  have := Str.Post.then h1 (f := s.trunc) (l2 := l2) (s2 := s2) (by have := h2; unfold Leaves at this; rw [h1.trunc] at this; exact this)
  exact this

theorem trimFromLeft_ok (h : Rep s l) (d : List Nat) : ∃ s', trimFromLeft s d = .ok s' ∧ Leaves s s' (l.dropWhile (fun x => decide (x ∈ d))) := by
  obtain ⟨r, e, hr⟩ := first_rep h d false
  obtain ⟨s', e2, h2⟩ := Str.erase_ok h 0 r (Nat.zero_le _)
  refine ⟨s', by unfold trimFromLeft; rw [e]; exact e2, ?_⟩
  have hd := hr.dropWhile
  rw [want_in] at hd
  rw [hd]
  cases r with
  | none => simpa [Str.splice] using h2
  | some k => simpa [Str.splice] using h2

theorem trimFromRight_ok (h : Rep s l) (d : List Nat) : ∃ s', trimFromRight s d = .ok s' ∧ Leaves s s' (l.rdropWhile (fun x => decide (x ∈ d))) := by
  obtain ⟨r, e, hr⟩ := last_rep h d false
  have hle : succ r ≤ l.length := by
    cases r with
    | none => exact Nat.zero_le _
    | some k => exact hr.lt
  obtain ⟨s', e2, h2⟩ := Str.erase_ok h (succ r) none hle
  refine ⟨s', by unfold trimFromRight; rw [e]; exact e2, ?_⟩
  have hd := hr.rdropWhile
  rw [want_in] at hd
  rw [hd]
  simpa [Str.splice] using h2

theorem rep_self (h : Rep s l) : Leaves s s l := ⟨rfl, h, rfl, rfl, fun _ hc => hc⟩

theorem Post.comp {s1 s2 : St} {l1 l2 : List Nat} {f1 f : Bool} (h1 : Post s l1 f1 s.secure s1) (h2 : Post s1 l2 f s1.secure s2) : Post s l2 f s.secure s2 :=
  ⟨h2.cap.trans h1.cap, h2.rep, h2.trunc, h2.sec.trans h1.sec, fun hs hc => h2.clean (by rw [h1.sec]; exact hs) (h1.clean hs hc)⟩

theorem any_none {d : List Nat} (h : ∀ (i : Nat) (x : Nat), l[i]? = some x → want d true x = false) : l.any (fun x => decide (x ∈ d)) = false := by
  rw [List.any_eq_false]
  intro x hx
  obtain ⟨i, hi⟩ := List.getElem?_of_mem hx
  have := h i x hi
  unfold want at this
  simpa using this

theorem any_some {d : List Nat} {k x : Nat} (h : l[k]? = some x) (hp : want d true x = true) : l.any (fun x => decide (x ∈ d)) = true := by
  rw [List.any_eq_true]
  exact ⟨x, List.mem_of_getElem? h, by unfold want at hp; simpa using hp⟩

theorem trimLeft_ok (h : Rep s l) (d : List Nat) :
    ∃ s', trimLeft s d = .ok s' ∧ Post s (l.dropWhile (fun x => decide (x ∉ d))) (s.trunc && l.any (fun x => decide (x ∈ d))) s.secure s' := by
  obtain ⟨r, e, hr⟩ := first_rep h d true
  have hd := hr.dropWhile
  rw [want_out] at hd
  rw [hd]
  cases r with
  | none =>
    obtain ⟨s', e2, h2, _⟩ := Str.clear_ok s
    refine ⟨s', by unfold trimLeft; rw [e]; exact e2, ?_⟩
    rw [any_none hr, Bool.and_false]
    simpa using h2
  | some k =>
    obtain ⟨s', e2, h2⟩ := Str.erase_ok h 0 (some k) (Nat.zero_le _)
    refine ⟨s', by unfold trimLeft; rw [e]; exact e2, ?_⟩
    obtain ⟨x, hx, hp⟩ := hr.1
    rw [any_some hx hp, Bool.and_true]
    simpa [Str.splice] using h2

theorem trimRight_ok (h : Rep s l) (d : List Nat) :
    ∃ s', trimRight s d = .ok s' ∧ Post s (l.rdropWhile (fun x => decide (x ∉ d))) (s.trunc && l.any (fun x => decide (x ∈ d))) s.secure s' := by
  obtain ⟨r, e, hr⟩ := last_rep h d true
  have hd := hr.rdropWhile
  rw [want_out] at hd
  rw [hd]
  cases r with
  | none =>
    obtain ⟨s', e2, h2, _⟩ := Str.clear_ok s
    refine ⟨s', by unfold trimRight; rw [e]; exact e2, ?_⟩
    rw [any_none hr, Bool.and_false]
    simpa [succ] using h2
  | some k =>
    have hk := hr.lt
    have hl := h.len
    obtain ⟨x, hx, hp⟩ := hr.1
    rw [any_some hx hp, Bool.and_true]
    by_cases hs : k + 1 = s.size
    · refine ⟨s, ?_, ?_⟩
      · unfold trimRight; rw [e]; simp only [bind, Except.bind]; rw [if_neg (by simpa using hs)]
      · simp only [succ]; rw [List.take_of_length_le (by omega)]; exact rep_self h
    · obtain ⟨s', e2, h2⟩ := Str.erase_ok h (k + 1) none (by omega)
      refine ⟨s', by unfold trimRight; rw [e]; simp only [bind, Except.bind]; rw [if_pos hs]; exact e2, ?_⟩
      simpa [Str.splice, succ] using h2

theorem any_dropWhile (l d : List Nat) : (l.dropWhile (fun x => decide (x ∉ d))).any (fun x => decide (x ∈ d)) = l.any (fun x => decide (x ∈ d)) := by
  induction l with
  | nil => rfl
  | cons c l ih =>
    rw [List.dropWhile_cons]
    by_cases h : c ∈ d
    · rw [if_neg (by simpa using h)]
    · rw [if_pos (by simpa using h), ih]; simp [h]

/-! ## Loops over the characters -/

theorem buf_leaves (h : Rep s l) {b : Nat → Nat} {l' : List Nat} (hlen : l'.length = l.length) (hb : ∀ j, j < l.length → b j = Str.ch l' j)
    (hk : ∀ j, l.length ≤ j → b j = s.buf j) : Leaves s { s with buf := b } l' := by
  refine ⟨rfl, ⟨h.len.trans hlen.symm, by rw [hlen]; exact h.fits, ?_⟩, rfl, rfl, ?_⟩
  · intro i hi
    show b i = _
    by_cases hil : i < l.length
    · exact hb i hil
    · rw [hk i (by omega), h.at_ i (by omega), Str.ch_out (by omega), Str.ch_out (by omega)]
  · intro _ hc i h1 h2
    show b i = 0
    have hl := h.len
    rw [hk i (by have : s.size ≤ i := h1; omega)]; exact hc i h1 h2

theorem mapLoop_ok (f : Nat → Nat) (e : Nat) (fuel : Nat) : ∀ (i : Nat) (s : St), i ≤ e → e ≤ s.cap + 1 → e < i + fuel →
    ∃ b, mapLoop f e fuel i s = .ok { s with buf := b } ∧ ∀ j, b j = if i ≤ j ∧ j < e then f (s.buf j) else s.buf j := by
  induction fuel with
  | zero => intro i s h1 h2 h3; omega
  | succ fuel ih =>
    intro i s h1 h2 h3
    unfold mapLoop
    by_cases hi : i = e
    · rw [if_pos hi]; exact ⟨s.buf, rfl, fun j => by rw [if_neg (by omega)]⟩
    · rw [if_neg hi]
      have g1 : Str.get s i = .ok (s.buf i) := by unfold Str.get; rw [if_pos (by omega)]
      rw [g1]
      simp only [bind, Except.bind]
      rw [Str.put_ok (by omega)]
      simp only []
      obtain ⟨b, k1, k2⟩ := ih (i + 1) { s with buf := upd s.buf i (f (s.buf i)) } (by omega) h2 (by omega)
      refine ⟨b, k1, fun j => ?_⟩
      rw [k2 j]
      show (if i + 1 ≤ j ∧ j < e then f (upd s.buf i (f (s.buf i)) j) else upd s.buf i (f (s.buf i)) j) = _
      by_cases hj : j = i
      · subst hj; rw [if_neg (by omega), if_pos (by omega), upd_same]
      · rw [upd_other _ _ hj]
        split_ifs <;> first | rfl | (exfalso; omega)

theorem ch_map (f : Nat → Nat) {j : Nat} (h : j < l.length) : Str.ch (l.map f) j = f (Str.ch l j) := by
  unfold Str.ch; rw [List.getElem?_map, List.getElem?_eq_getElem h]; rfl

theorem map_ok (h : Rep s l) (f : Nat → Nat) : ∃ s', mapLoop f s.size (s.cap + 2) 0 s = .ok s' ∧ Leaves s s' (l.map f) := by
  have hl := h.len
  have hf := h.fits
  obtain ⟨b, k1, k2⟩ := mapLoop_ok f s.size (s.cap + 2) 0 s (Nat.zero_le _) (by omega) (by omega)
  refine ⟨_, k1, buf_leaves h (by simp) ?_ ?_⟩
  · intro j hj; rw [k2 j, if_pos (by omega), ch_map f hj, h.at_ j (by omega)]
  · intro j hj; rw [k2 j, if_neg (by omega)]

theorem replaceChars_ok (ps : List (Nat × Nat)) : ∀ (s : St) (l : List Nat), Rep s l →
    ∃ s', replaceChars s ps = .ok s' ∧ Leaves s s' (ps.foldl (fun l p => l.map (fun x => if x = p.1 then p.2 else x)) l) := by
  induction ps with
  | nil => intro s l h; exact ⟨s, rfl, rep_self h⟩
  | cons p ps ih =>
    intro s l h
    obtain ⟨a, b⟩ := p
    obtain ⟨s1, k1, k2⟩ := map_ok h (fun x => if x = a then b else x)
    obtain ⟨s2, j1, j2⟩ := ih s1 _ k2.rep
    refine ⟨s2, ?_, k2.then j2⟩
    unfold replaceChars
    rw [k1]
    exact j1

theorem reverseLoop_ok (fuel : Nat) : ∀ (i j : Nat) (s : St), j ≤ s.cap → fuel ≠ 0 ∧ j < i + fuel →
    ∃ b, reverseLoop s i j fuel = .ok { s with buf := b } ∧ ∀ k, b k = if i ≤ k ∧ k ≤ j then s.buf (i + j - k) else s.buf k := by
  induction fuel with
  | zero => intro i j s h1 h2; exact absurd rfl h2.1
  | succ fuel ih =>
    intro i j s h1 h2
    unfold reverseLoop
    by_cases hij : i < j
    · rw [if_pos hij]
      have g1 : Str.get s i = .ok (s.buf i) := by unfold Str.get; rw [if_pos (by omega)]
      have g2 : Str.get s j = .ok (s.buf j) := by unfold Str.get; rw [if_pos (by omega)]
      rw [g1, g2]
      simp only [bind, Except.bind]
      rw [Str.put_ok (by omega)]
      simp only []
      rw [Str.put_ok (by show j ≤ s.cap; omega)]
      simp only []
      obtain ⟨b, k1, k2⟩ := ih (i + 1) (j - 1) { s with buf := upd (upd s.buf i (s.buf j)) j (s.buf i) } (by show j - 1 ≤ s.cap; omega) (by omega)
      refine ⟨b, k1, fun k => ?_⟩
      rw [k2 k]
      show (if i + 1 ≤ k ∧ k ≤ j - 1 then upd (upd s.buf i (s.buf j)) j (s.buf i) (i + 1 + (j - 1) - k) else upd (upd s.buf i (s.buf j)) j (s.buf i) k) = _
      by_cases hk : i + 1 ≤ k ∧ k ≤ j - 1
      · rw [if_pos hk, if_pos (by omega), upd_other _ _ (by omega), upd_other _ _ (by omega)]
        congr 1; omega
      · rw [if_neg hk]
        by_cases hkj : k = j
        · subst hkj; rw [upd_same, if_pos (by omega)]; congr 1; omega
        · rw [upd_other _ _ hkj]
          by_cases hki : k = i
          · subst hki; rw [upd_same, if_pos (by omega)]; congr 1; omega
          · rw [upd_other _ _ hki, if_neg (by omega)]
    · rw [if_neg hij]
      refine ⟨s.buf, rfl, fun k => ?_⟩
      split_ifs
      · congr 1; omega
      · rfl

theorem reverse_ok (h : Rep s l) : ∃ s', reverse s = .ok s' ∧ Leaves s s' l.reverse := by
  have hl := h.len
  have hf := h.fits
  unfold reverse
  by_cases h0 : s.size = 0
  · rw [if_pos h0]
    have : l = [] := List.eq_nil_of_length_eq_zero (by omega)
    rw [this] at h ⊢
    exact ⟨s, rfl, rep_self h⟩
  · rw [if_neg h0]
    obtain ⟨b, k1, k2⟩ := reverseLoop_ok (s.size + 1) 0 (s.size - 1) s (by omega) (by omega)
    refine ⟨_, k1, buf_leaves h (by simp) ?_ ?_⟩
    · intro j hj
      rw [k2 j, if_pos (by omega), h.at_ _ (by omega)]
      unfold Str.ch
      rw [List.getElem?_reverse hj]
      congr 2; omega
    · intro j hj; rw [k2 j, if_neg (by omega)]

theorem sentence_ok (h : Rep s l) (hne : l ≠ []) (up low : Nat → Nat) : ∃ s', sentence up low s = .ok s' ∧ Leaves s s' (Util.ideal s.cap l (.sentence up low)) := by
  have hl := h.len
  have hf := h.fits
  have hpos : 0 < l.length := List.length_pos_iff.mpr hne
  obtain ⟨b, k1, k2⟩ := mapLoop_ok low s.size (s.cap + 2) 1 { s with buf := upd s.buf 0 (up (s.buf 0)) } (by omega) (by show s.size ≤ s.cap + 1; omega) (by omega)
  have g1 : Str.get s 0 = .ok (s.buf 0) := by unfold Str.get; rw [if_pos (by omega)]
  refine ⟨{ s with buf := b }, ?_, ?_⟩
  · unfold sentence
    rw [g1]
    simp only [bind, Except.bind]
    rw [Str.put_ok (by omega)]
    exact k1
  · cases l with
    | nil => exact absurd rfl hne
    | cons c r =>
      refine buf_leaves h (by simp [Util.ideal]) ?_ ?_
      · intro j hj
        rw [k2 j]
        show (if 1 ≤ j ∧ j < s.size then low (upd s.buf 0 (up (s.buf 0)) j) else upd s.buf 0 (up (s.buf 0)) j) = _
        cases j with
        | zero => rw [if_neg (by omega), upd_same, h.at_ 0 (by omega)]; rfl
        | succ j =>
          rw [if_pos (by omega), upd_other _ _ (by omega), h.at_ _ (by omega)]
          show low (Str.ch (c :: r) (j + 1)) = Str.ch (up c :: r.map low) (j + 1)
          have e1 : Str.ch (c :: r) (j + 1) = Str.ch r j := by unfold Str.ch; rw [List.getElem?_cons_succ]
          have e2 : Str.ch (up c :: r.map low) (j + 1) = Str.ch (r.map low) j := by unfold Str.ch; rw [List.getElem?_cons_succ]
          rw [e1, e2, ch_map low (by rw [List.length_cons] at hj; omega)]
      · intro j hj
        rw [k2 j]
        show (if 1 ≤ j ∧ j < s.size then low (upd s.buf 0 (up (s.buf 0)) j) else upd s.buf 0 (up (s.buf 0)) j) = _
        rw [if_neg (by omega), upd_other _ _ (by omega)]

theorem pad_ok (h : Rep s l) (p n c : Nat) (hp : p ≤ l.length) (hn : l.length < min n s.cap) :
    ∃ s', Str.insertAtN s p (min n s.cap - s.size) c = .ok (some s') ∧ Leaves s s' (l.take p ++ List.replicate (min n s.cap - l.length) c ++ l.drop p) := by
  have hl := h.len
  obtain ⟨s', k1, k2⟩ := Str.insertAtN_ok h p (min n s.cap - s.size) c hp
  refine ⟨s', k1, ?_⟩
  have e : Str.splice l p (some 0) (List.replicate (min n s.cap - s.size) c) = l.take p ++ List.replicate (min n s.cap - l.length) c ++ l.drop p := by
    unfold Str.splice; rw [hl]; rfl
  have hlen : (l.take p ++ List.replicate (min n s.cap - l.length) c ++ l.drop p).length ≤ s.cap := by
    simp only [List.length_append, List.length_take, List.length_replicate, List.length_drop]; omega
  rw [e, List.take_of_length_le hlen, show decide (s.cap < (l.take p ++ List.replicate (min n s.cap - l.length) c ++ l.drop p).length) = false from
    decide_eq_false (by omega), Bool.or_false] at k2
  exact k2

theorem lift_ok {r : Res St} {P : St → Prop} (h : ∃ s', r = .ok s' ∧ P s') : ∃ s', lift r = .ok (some s') ∧ P s' := by
  obtain ⟨s', e, hp⟩ := h
  exact ⟨s', by unfold lift; rw [e]; rfl, hp⟩

theorem exec_ok (h : Rep s l) (u : Util) (hl : u.Legal l) : ∃ s', exec s u = .ok (some s') ∧ Post s (u.ideal s.cap l) (u.flag l s.trunc) s.secure s' := by
  have hlen := h.len
  have hf := h.fits
  cases u with
  | trimFromLeft d => exact lift_ok (trimFromLeft_ok h d)
  | trimLeft d => exact lift_ok (trimLeft_ok h d)
  | trimFromRight d => exact lift_ok (trimFromRight_ok h d)
  | trimRight d => exact lift_ok (trimRight_ok h d)
  | trimFrom d =>
    refine lift_ok ?_
    obtain ⟨s1, k1, k2⟩ := trimFromLeft_ok h d
    obtain ⟨s2, j1, j2⟩ := trimFromRight_ok k2.rep d
    exact ⟨s2, by unfold trimFrom; rw [k1]; exact j1, Leaves.then k2 j2⟩
  | trim d =>
    refine lift_ok ?_
    obtain ⟨s1, k1, k2⟩ := trimLeft_ok h d
    obtain ⟨s2, j1, j2⟩ := trimRight_ok k2.rep d
    refine ⟨s2, by unfold trim; rw [k1]; exact j1, ?_⟩
    have := Post.comp k2 j2
    rw [k2.trunc, any_dropWhile, Bool.and_assoc, Bool.and_self] at this
    exact this
  | leftN n =>
    refine lift_ok ?_
    obtain ⟨s', k1, k2⟩ := Str.eraseRange_ok h (if n > s.size then s.size else n) s.size (by split_ifs <;> omega) (by omega)
    refine ⟨s', k1, ?_⟩
    rw [show l.drop s.size = [] from List.drop_of_length_le (by omega), List.append_nil] at k2
    have e : l.take (if n > s.size then s.size else n) = l.take n := by
      split_ifs with hn
      · rw [List.take_of_length_le (by omega), List.take_of_length_le (by omega)]
      · rfl
    rw [e] at k2; exact k2
  | rightN n =>
    refine lift_ok ?_
    obtain ⟨s', k1, k2⟩ := Str.eraseRange_ok h 0 (s.size - (if n > s.size then s.size else n)) (Nat.zero_le _) (by omega)
    refine ⟨s', k1, ?_⟩
    have e : l.take 0 ++ l.drop (s.size - (if n > s.size then s.size else n)) = l.drop (l.length - n) := by
      rw [List.take_zero, List.nil_append]
      congr 1
      split_ifs <;> omega
    rw [e] at k2; exact k2
  | reverse => exact lift_ok (reverse_ok h)
  | replaceChars ps => exact lift_ok (replaceChars_ok ps s l h)
  | padLeft n c =>
    show ∃ s', padLeft s n c = _ ∧ _
    unfold padLeft
    by_cases hn : min n s.cap > s.size
    · rw [if_pos hn]
      obtain ⟨s', k1, k2⟩ := pad_ok h 0 n c (Nat.zero_le _) (by omega)
      exact ⟨s', k1, by simpa [Util.ideal, Util.flag] using k2⟩
    · rw [if_neg hn]
      refine ⟨s, rfl, ?_⟩
      show Post s (List.replicate (min n s.cap - l.length) c ++ l) s.trunc s.secure s
      rw [show min n s.cap - l.length = 0 by omega]; exact rep_self h
  | padRight n c =>
    show ∃ s', padRight s n c = _ ∧ _
    unfold padRight
    by_cases hn : min n s.cap > s.size
    · rw [if_pos hn]
      obtain ⟨s', k1, k2⟩ := pad_ok h s.size n c (by omega) (by omega)
      rw [hlen] at k1 k2
      rw [hlen]
      exact ⟨s', k1, by simpa [Util.ideal, Util.flag] using k2⟩
    · rw [if_neg hn]
      refine ⟨s, rfl, ?_⟩
      show Post s (l ++ List.replicate (min n s.cap - l.length) c) s.trunc s.secure s
      rw [show min n s.cap - l.length = 0 by omega, List.replicate_zero, List.append_nil]; exact rep_self h
  | mapCase f => exact lift_ok (map_ok h f)
  | sentence up low => exact lift_ok (sentence_ok h hl up low)

/-! ## Replacing texts -/

theorem Replaced.before {old new : List Nat} {Y Y' : List Nat} (h : Replaced old new Y Y') : ∀ (X : List Nat), (∀ i, i < X.length → ¬ View.OccursAt (X ++ Y) old i) →
    Replaced old new (X ++ Y) (X ++ Y') := by
  intro X
  induction X with
  | nil => intro _; exact h
  | cons c X ih =>
    intro hn
    refine .miss ?_ (ih ?_)
    · have := hn 0 (by simp)
      intro hp
      exact this ⟨Nat.zero_le _, by simpa using hp⟩
    · intro i hi ho
      refine hn (i + 1) (by simpa using hi) ⟨?_, ?_⟩
      · have := ho.1; simp only [List.cons_append, List.length_cons]; omega
      · have := ho.2; simpa using this

theorem Replaced.none {old new l : List Nat} (hn : ∀ i, ¬ View.OccursAt l old i) : Replaced old new l l := by
  have := Replaced.before (old := old) (new := new) .nil l (fun i _ => by rw [List.append_nil]; exact hn i)
  simpa using this

/-- The result is determined. -/
theorem Replaced.unique {old new : List Nat} (ho : old ≠ []) {l a : List Nat} (h : Replaced old new l a) : ∀ {b : List Nat}, Replaced old new l b → a = b := by
  induction h with
  | nil =>
    intro b hb
    generalize hl : ([] : List Nat) = l at hb
    cases hb with
    | nil => rfl
    | hit _ => rw [eq_comm, List.append_eq_nil_iff] at hl; exact absurd hl.1 ho
    | miss _ _ => cases hl
  | @hit r r' h ih =>
    intro b hb
    generalize hl : old ++ r = l at hb
    cases hb with
    | nil => rw [List.append_eq_nil_iff] at hl; exact absurd hl.1 ho
    | hit h' => rw [List.append_cancel_left_eq] at hl; subst hl; rw [ih h']
    | miss hm _ => exact absurd (by rw [← hl]; exact List.prefix_append _ _) hm
  | @miss c r r' hm h ih =>
    intro b hb
    generalize hl : c :: r = l at hb
    cases hb with
    | nil => cases hl
    | hit h' => exact absurd (by rw [hl]; exact List.prefix_append _ _) hm
    | miss _ h' =>
      injection hl with h1 h2
      subst h1 h2
      rw [ih h']

theorem Replaced.total {old new : List Nat} (ho : old ≠ []) (l : List Nat) : ∃ r, Replaced old new l r := by
  have hpo : 0 < old.length := List.length_pos_iff.mpr ho
  generalize hn : l.length = n
  induction n using Nat.strongRecOn generalizing l with
  | ind n ih =>
    cases l with
    | nil => exact ⟨[], .nil⟩
    | cons c l =>
      by_cases hp : old <+: c :: l
      · obtain ⟨t, ht⟩ := hp
        have := congrArg List.length ht
        rw [List.length_append] at this
        obtain ⟨r, hr⟩ := ih t.length (by omega) t rfl
        exact ⟨new ++ r, by rw [← ht]; exact .hit hr⟩
      · obtain ⟨r, hr⟩ := ih l.length (by rw [List.length_cons] at hn; omega) l rfl
        exact ⟨c :: r, .miss hp hr⟩

theorem Replaced.len {old new l r : List Nat} (h : Replaced old new l r) (hle : old.length ≤ new.length) : l.length ≤ r.length := by
  induction h with
  | nil => exact Nat.le_refl _
  | hit _ ih => rw [List.length_append, List.length_append]; omega
  | miss _ _ ih => rw [List.length_cons, List.length_cons]; omega

theorem replaceLoop_ok (old new : List Nat) (ho : old ≠ []) (fuel : Nat) : ∀ (position : Nat) (s : St) (l : List Nat), Rep s l → l.length < position + fuel → 0 < fuel →
    position ≤ s.cap + new.length → s.cap + new.length + old.length < 2 ^ 64 →
    ∃ s' l' f, replaceLoop old new fuel position s = .ok (some s') ∧ Post s l' f s.secure s' ∧ (s.trunc = true → f = true) ∧
      (position ≤ l.length → ∀ r, Replaced old new (l.drop position) r → (f = false → l' = l.take position ++ r) ∧
        (position + r.length ≤ s.cap → l' = l.take position ++ r ∧ f = s.trunc)) := by
  induction fuel with
  | zero => intro position s l h1 h2 h3; omega
  | succ fuel ih =>
    intro position s l h h2 _ hpos hw
    have hl := h.len
    have hf := h.fits
    have hpo : 0 < old.length := List.length_pos_iff.mpr ho
    unfold replaceLoop
    by_cases hp : position ≤ l.length
    · obtain ⟨r, e, hr⟩ := Str.find_rep (s := s) (by rw [h.chars]; exact h) old ho position (by rw [h.chars]; exact hp) (by omega)
      rw [h.chars] at hr
      rw [e]
      simp only [bind, Except.bind]
      cases r with
      | none =>
        have hself : Replaced old new (l.drop position) (l.drop position) := by
          refine Replaced.none ?_
          intro i hoc
          refine hr (position + i) (by omega) ⟨?_, ?_⟩
          · have := hoc.1; rw [List.length_drop] at this; omega
          · have := hoc.2; rw [List.drop_drop] at this; exact this
        refine ⟨s, l, s.trunc, rfl, rep_self h, id, fun _ r hr' => ?_⟩
        rw [hr'.unique ho hself, List.take_append_drop]
        exact ⟨fun _ => rfl, fun _ => ⟨rfl, rfl⟩⟩
      | some k =>
        obtain ⟨hk1, hk2, hk3⟩ := hr
        obtain ⟨Y, hY⟩ := hk2.2
        have hklen : k + old.length ≤ l.length := by
          have := congrArg List.length hY
          rw [List.length_append, List.length_drop] at this
          have := hk2.1; omega
        have hYd : Y = l.drop (k + old.length) := by
          rw [← List.drop_drop, ← hY, List.drop_left]
        obtain ⟨s1, g1, g2⟩ := Str.replace_ok h k (some old.length) new false (by omega)
        simp only [Bool.or_false] at g2
        have hsp : Str.splice l k (some old.length) new = l.take k ++ new ++ Y := by unfold Str.splice; rw [hYd]
        rw [hsp] at g2
        simp only []
        rw [g1]
        simp only []
        have hlenm : (l.take k ++ new ++ Y).length = l.length - old.length + new.length := by
          rw [hYd]; simp only [List.length_append, List.length_take, List.length_drop]; omega
        obtain ⟨s2, l2, f2, j1, j2, j3, j4⟩ := ih (k + new.length) s1 _ g2.rep (by rw [List.length_take, hlenm]; omega) (by omega) (by rw [g2.cap]; omega) (by rw [g2.cap]; exact hw)
        have hX : l.drop position = (l.drop position).take (k - position) ++ (old ++ Y) := by
          rw [hY]
          have e1 : l.drop k = (l.drop position).drop (k - position) := by rw [List.drop_drop]; congr 1; omega
          rw [e1, List.take_append_drop]
        have hXlen : ((l.drop position).take (k - position)).length = k - position := by rw [List.length_take, List.length_drop]; omega
        have hno : ∀ i, i < ((l.drop position).take (k - position)).length → ¬ View.OccursAt ((l.drop position).take (k - position) ++ (old ++ Y)) old i := by
          intro i hi hoc
          rw [← hX] at hoc
          refine hk3 (position + i) (by omega) (by omega) ⟨?_, ?_⟩
          · have := hoc.1; rw [List.length_drop] at this; omega
          · have := hoc.2; rw [List.drop_drop] at this; exact this
        have hPX : l.take position ++ (l.drop position).take (k - position) = l.take k := by
          conv => rhs; rw [show k = position + (k - position) by omega]
          rw [List.take_add]
        obtain ⟨Y', hY'⟩ := Replaced.total (new := new) ho Y
        have hall := (Replaced.hit hY').before _ hno
        rw [← hX] at hall
        refine ⟨s2, l2, f2, j1, Post.comp g2 j2, ?_, ?_⟩
        · intro ht; exact j3 (by rw [g2.trunc, ht]; rfl)
        · intro _ r hr'
          have er := hr'.unique ho hall
          by_cases hfit : l.length - old.length + new.length ≤ s.cap
          · have et : (l.take k ++ new ++ Y).take s.cap = l.take k ++ new ++ Y := List.take_of_length_le (by omega)
            have hkl : (l.take k ++ new).length = k + new.length := by rw [List.length_append, List.length_take]; omega
            rw [et, ← hkl, List.drop_left, List.take_left, g2.cap, g2.trunc, show decide (s.cap < (l.take k ++ new ++ Y).length) = false from decide_eq_false (by omega),
              Bool.or_false] at j4
            obtain ⟨m1, m2⟩ := j4 (by rw [List.length_append (as := l.take k ++ new)]; omega) Y' hY'
            have ew : l.take position ++ r = l.take k ++ new ++ Y' := by
              rw [er, ← List.append_assoc, hPX, List.append_assoc]
            rw [ew]
            refine ⟨m1, fun hc => m2 ?_⟩
            have hlen : position + r.length = (l.take position ++ r).length := by rw [List.length_append, List.length_take]; omega
            rw [hlen, ew, List.length_append] at hc
            exact hc
          · have hft : f2 = true := j3 (by rw [g2.trunc, show decide (s.cap < (l.take k ++ new ++ Y).length) = true from decide_eq_true (by omega), Bool.or_true])
            refine ⟨fun hf2 => absurd hft (by rw [hf2]; decide), fun hc => ?_⟩
            exfalso
            have hmono := hY'.len (by omega)
            rw [er, List.length_append, List.length_append, hXlen] at hc
            have := congrArg List.length hYd
            rw [List.length_drop] at this
            omega
    · have e : Str.find s old old.length position = .ok none := by
        unfold Str.find; rw [Nat.mod_eq_of_lt (by omega), if_pos (by omega)]
      rw [e]
      simp only [bind, Except.bind]
      exact ⟨s, l, s.trunc, rfl, rep_self h, id, fun hh => absurd hh hp⟩

/-- **C73, `replace_strings`.** Each pair in turn, all its occurrences from the left.  The call ends, and leaves a proper string; if the truncation flag is not set afterwards, the text is
exactly what `ReplacedAll` says; if the text fits all along, it is so, and the flag is what it was.  Old texts are not empty (see `replace_of_empty_never_ends`). -/
theorem C73_replace_strings (ps : List (List Nat × List Nat)) (fuel : Nat) : ∀ {s : St} {l : List Nat}, Rep s l → s.cap + 1 ≤ fuel →
    (∀ p ∈ ps, p.1 ≠ [] ∧ s.cap + p.2.length + p.1.length < 2 ^ 64) →
    ∃ s' l' f, replaceStrings fuel s ps = .ok (some s') ∧ Post s l' f s.secure s' ∧ (s.trunc = true → f = true) ∧ (∃ r, ReplacedAll ps l r) ∧
      (∀ r, ReplacedAll ps l r → f = false → l' = r) ∧ (∀ r, FitsAll s.cap ps l r → l' = r ∧ f = s.trunc) := by
  induction ps with
  | nil =>
    intro s l h _ _
    refine ⟨s, l, s.trunc, rfl, rep_self h, id, ⟨l, .nil⟩, ?_, ?_⟩
    · intro r hr _; cases hr; rfl
    · intro r hr; cases hr; exact ⟨rfl, rfl⟩
  | cons p ps ih =>
    intro s l h hfu hps
    obtain ⟨a, b⟩ := p
    obtain ⟨ha, hw⟩ := hps (a, b) List.mem_cons_self
    have hf := h.fits
    obtain ⟨s1, l1, f1, k1, k2, k3, k4⟩ := replaceLoop_ok a b ha fuel 0 s l h (by omega) (by omega) (Nat.zero_le _) hw
    have k4 := k4 (Nat.zero_le _)
    simp only [List.drop_zero, List.take_zero, List.nil_append, Nat.zero_add] at k4
    obtain ⟨s2, l2, f2, j1, j2, j3, ⟨r2, j4⟩, j5, j6⟩ := ih k2.rep (by rw [k2.cap]; exact hfu) (fun p hp => by rw [k2.cap]; exact hps p (List.mem_cons_of_mem _ hp))
    have hone : replaceStrings fuel s ((a, b) :: ps) = .ok (some s2) := by
      unfold replaceStrings; rw [k1]; exact j1
    refine ⟨s2, l2, f2, hone, Post.comp k2 j2, fun ht => j3 (by rw [k2.trunc]; exact k3 ht), ?_, ?_, ?_⟩
    · obtain ⟨m, hm⟩ := Replaced.total (new := b) ha l
      have htot : ∀ (ps : List (List Nat × List Nat)) (l : List Nat), (∀ p ∈ ps, p.1 ≠ []) → ∃ r, ReplacedAll ps l r := by
        intro ps
        induction ps with
        | nil => intro l _; exact ⟨l, .nil⟩
        | cons p ps ih =>
          intro l hp
          obtain ⟨m, hm⟩ := Replaced.total (new := p.2) (hp p List.mem_cons_self) l
          obtain ⟨r, hr⟩ := ih m (fun q hq => hp q (List.mem_cons_of_mem _ hq))
          exact ⟨r, .cons hm hr⟩
      obtain ⟨r, hr⟩ := htot ps m (fun p hp => (hps p (List.mem_cons_of_mem _ hp)).1)
      exact ⟨r, .cons hm hr⟩
    · intro r hr hf2
      cases hr with
      | cons hm hr =>
        have hf1 : f1 = false := by
          cases hc : f1 with
          | false => rfl
          | true => rw [j3 (by rw [k2.trunc, hc])] at hf2; cases hf2
        rw [← (k4 _ hm).1 hf1] at hr
        exact j5 r hr hf2
    · intro r hr
      cases hr with
      | cons hm hle hr =>
        obtain ⟨e1, e2⟩ := (k4 _ hm).2 hle
        rw [← e1] at hr
        rw [k2.cap] at j6
        obtain ⟨g1, g2⟩ := j6 r hr
        exact ⟨g1, by rw [g2, k2.trunc, e2]⟩

/-! ## Histories -/

/-- A string after any history of the calls of `etl::string` (those of C37), the utilities, and `replace_strings` where the text fits; with its text and truncation flag. -/
inductive Hist (cap : Nat) : St → List Nat → Bool → Prop where
  | make {g : Nat → Nat} {s : St} : Str.make cap g = .ok s → Hist cap s [] false
  | op {s s' : St} {l : List Nat} {f : Bool} {o : Str.Op} : Hist cap s l f → o.Legal l → Str.run s [o] = .ok s' →
      Hist cap s' (Str.Spec.step cap ⟨l, f⟩ o).chars (Str.Spec.step cap ⟨l, f⟩ o).flag
  | util {s s' : St} {l : List Nat} {f : Bool} {u : Util} : Hist cap s l f → u.Legal l → exec s u = .ok (some s') → Hist cap s' (u.ideal cap l) (u.flag l f)
  | strings {s s' : St} {l r : List Nat} {f : Bool} {ps : List (List Nat × List Nat)} : Hist cap s l f → (∀ p ∈ ps, p.1 ≠ [] ∧ cap + p.2.length + p.1.length < 2 ^ 64) →
      FitsAll cap ps l r → replaceStrings (cap + 1) s ps = .ok (some s') → Hist cap s' r f

theorem Hist.rep {cap : Nat} {f : Bool} (h : Hist cap s l f) : Rep s l ∧ s.cap = cap ∧ s.trunc = f := by
  induction h with
  | @make g s h =>
    obtain ⟨s0, h1, h2, h3, h4, _⟩ := Str.make_ok cap g
    rw [h] at h1; cases h1
    exact ⟨h3, h2, h4⟩
  | @op s s' l f o _ hl he ih =>
    obtain ⟨i1, i2, i3⟩ := ih
    subst i2
    obtain ⟨s1, g1, g2, g3, g4, _⟩ := Str.run_ok [o] s ⟨l, f⟩ i1 i3 ⟨hl, trivial⟩
    rw [he] at g1; cases g1
    exact ⟨g3, g2, g4⟩
  | @util s s' l f u _ hl he ih =>
    obtain ⟨i1, i2, i3⟩ := ih
    subst i2 i3
    obtain ⟨s1, g1, g2⟩ := exec_ok i1 u hl
    rw [he] at g1; cases g1
    exact ⟨g2.rep, g2.cap, g2.trunc⟩
  | @strings s s' l r f ps _ hp hr he ih =>
    obtain ⟨i1, i2, i3⟩ := ih
    subst i2 i3
    obtain ⟨s1, l1, f1, g1, g2, _, _, _, g3⟩ := C73_replace_strings ps (s.cap + 1) i1 (Nat.le_refl _) hp
    rw [he] at g1; cases g1
    obtain ⟨e1, e2⟩ := g3 r hr
    subst e1 e2
    exact ⟨g2.rep, g2.cap, g2.trunc⟩

/-- **C73.** After any history, the string shows the text and flag of the specification, with a null behind it; and every further call of a utility ends without undefined
behaviour or error, with the text `Util.ideal` says. -/
theorem C73_strings {cap : Nat} {f : Bool} (h : Hist cap s l f) :
    (chars s = l ∧ s.size = l.length ∧ l.length ≤ cap ∧ s.buf s.size = 0 ∧ s.trunc = f) ∧
    ∀ u : Util, u.Legal l → ∃ s', exec s u = .ok (some s') ∧ chars s' = u.ideal cap l ∧ s'.trunc = u.flag l f ∧ Hist cap s' (u.ideal cap l) (u.flag l f) := by
  obtain ⟨i1, i2, i3⟩ := h.rep
  refine ⟨⟨i1.chars, i1.len, by rw [← i2]; exact i1.fits, ?_, i3⟩, ?_⟩
  · rw [i1.at_ _ (by rw [i1.len]), Str.ch_out (by rw [i1.len])]
  · intro u hl
    obtain ⟨s1, g1, g2⟩ := exec_ok i1 u hl
    have h' := Hist.util h hl g1
    exact ⟨s1, g1, h'.rep.1.chars, h'.rep.2.2, h'⟩

/-! ## Views -/

theorem valid_txt (d : List Nat) : View.Valid d (txt d) ∧ View.elems d (txt d) = d := by
  refine ⟨⟨Nat.zero_le _, Nat.le_refl _, fun h => by cases h⟩, ?_⟩
  show (d.drop 0).take (d.length - 0) = d
  simp

variable {m : List Nat} {v : View}

theorem vfirst (hv : View.Valid m v) (d : List Nat) (w : Bool) : ∃ r, View.findFirst m d v (txt d) w 0 = .ok r ∧ First (want d w) (View.elems m v) r := by
  obtain ⟨r, e, hr⟩ := View.C48_find_first hv (valid_txt d).1 w 0
  rw [(valid_txt d).2] at hr
  refine ⟨r, e, ?_⟩
  cases r with
  | none => intro i x hx; unfold want; rw [hr i x (Nat.zero_le _) hx]; cases w <;> rfl
  | some k =>
    obtain ⟨_, ⟨x, hx, hp⟩, h2⟩ := hr
    refine ⟨⟨x, hx, by unfold want; rw [hp]; simp⟩, fun i x hi hx => ?_⟩
    unfold want; rw [h2 i x (Nat.zero_le _) hi hx]; cases w <;> rfl

theorem vlast (hv : View.Valid m v) (d : List Nat) (w : Bool) : ∃ r, View.findLast m d v (txt d) w none = .ok r ∧ Last (want d w) (View.elems m v) r := by
  obtain ⟨r, e, hr⟩ := View.C48_find_last hv (valid_txt d).1 w none
  rw [(valid_txt d).2] at hr
  refine ⟨r, e, ?_⟩
  cases r with
  | none => intro i x hx; unfold want; rw [hr i x (fun p hp => by cases hp) hx]; cases w <;> rfl
  | some k =>
    obtain ⟨_, ⟨x, hx, hp⟩, h2⟩ := hr
    refine ⟨⟨x, hx, by unfold want; rw [hp]; simp⟩, fun i x hi hx => ?_⟩
    unfold want; rw [h2 i x (fun p hp => by cases hp) hi hx]; cases w <;> rfl

/-- A part of a view. -/
theorem sub_ok (hv : View.Valid m v) {a b : Nat} (hab : a ≤ b) (hb : b ≤ View.size v) :
    View.Valid m { v with beg := v.beg + a, fin := v.beg + b } ∧ View.Within { v with beg := v.beg + a, fin := v.beg + b } v ∧
      View.elems m { v with beg := v.beg + a, fin := v.beg + b } = ((View.elems m v).drop a).take (b - a) := by
  obtain ⟨h1, h2, h3⟩ := hv
  unfold View.size at hb
  refine ⟨⟨?_, ?_, ?_⟩, ?_, ?_⟩
  · show v.beg + a ≤ v.beg + b; omega
  · show v.beg + b ≤ m.length; omega
  · intro hn
    have := h3 hn
    show v.beg + a = 0 ∧ v.beg + b = 0; omega
  · cases hn : v.null with
    | true => exact Or.inl rfl
    | false => exact Or.inr ⟨hn, by show v.beg ≤ v.beg + a; omega, by show v.beg + b ≤ v.fin; omega⟩
  · unfold View.elems
    cases hn : v.null with
    | true => simp
    | false =>
      show (m.drop (v.beg + a)).take (v.beg + b - (v.beg + a)) = (((m.drop v.beg).take (v.fin - v.beg)).drop a).take (b - a)
      rw [List.drop_take, List.take_take, List.drop_drop]
      congr 1; omega

/-- The calls on views. -/
inductive VUtil where
  | trimFromLeft (d : List Nat) | trimLeft (d : List Nat) | trimFromRight (d : List Nat) | trimRight (d : List Nat) | trimFrom (d : List Nat) | trim (d : List Nat)
  | leftN (n : Nat) | rightN (n : Nat)

def VUtil.ideal (l : List Nat) : VUtil → List Nat
  | .trimFromLeft d => l.dropWhile (fun x => decide (x ∈ d))
  | .trimLeft d => l.dropWhile (fun x => decide (x ∉ d))
  | .trimFromRight d => l.rdropWhile (fun x => decide (x ∈ d))
  | .trimRight d => l.rdropWhile (fun x => decide (x ∉ d))
  | .trimFrom d => (l.dropWhile (fun x => decide (x ∈ d))).rdropWhile (fun x => decide (x ∈ d))
  | .trim d => (l.dropWhile (fun x => decide (x ∉ d))).rdropWhile (fun x => decide (x ∉ d))
  | .leftN n => l.take n
  | .rightN n => l.drop (l.length - n)

def vexec (m : List Nat) (v : View) : VUtil → Res View
  | .trimFromLeft d => vTrimFromLeft m v d
  | .trimLeft d => vTrimLeft m v d
  | .trimFromRight d => vTrimFromRight m v d
  | .trimRight d => vTrimRight m v d
  | .trimFrom d => vTrimBoth m v d false
  | .trim d => vTrimBoth m v d true
  | .leftN n => vLeftN v n
  | .rightN n => vRightN v n

/-- **C73, views.** Each trimming call on a view of any text returns a view of a part of the same text, with the characters `VUtil.ideal` says: those the call on a string leaves.
(`left_n_view` of a default constructed view dereferences a null pointer.) -/
theorem C73_views (hv : View.Valid m v) (u : VUtil) (hn : ∀ n, u = .leftN n → v.null = false) :
    ∃ v', vexec m v u = .ok v' ∧ View.Valid m v' ∧ View.Within v' v ∧ View.elems m v' = u.ideal (View.elems m v) := by
  have hlen := View.elems_len hv
  have hbf := hv.1
  have hsz : v.beg + View.size v = v.fin := by unfold View.size; omega
  have part : ∀ {a b : Nat} {L : List Nat} {r : Res View}, a ≤ b → b ≤ View.size v → r = .ok { v with beg := v.beg + a, fin := v.beg + b } →
      ((View.elems m v).drop a).take (b - a) = L → ∃ v', r = .ok v' ∧ View.Valid m v' ∧ View.Within v' v ∧ View.elems m v' = L := by
    intro a b L r hab hb hr hL
    obtain ⟨k1, k2, k3⟩ := sub_ok hv hab hb
    exact ⟨_, hr, k1, k2, k3.trans hL⟩
  have self : ({ v with beg := v.beg + 0, fin := v.beg + View.size v } : View) = v := by rw [hsz]; rfl
  have hfl : ∀ (d : List Nat) (w : Bool) (r : Option Nat), Last (want d w) (View.elems m v) r → succ r ≤ View.size v := by
    intro d w r hr
    cases r with
    | none => exact Nat.zero_le _
    | some k => have := hr.lt; show k + 1 ≤ _; omega
  cases u with
  | trimFromLeft d =>
    obtain ⟨r, e, hr⟩ := vfirst hv d false
    have hd := hr.dropWhile
    rw [want_in] at hd
    cases r with
    | none =>
      refine part (a := View.size v) (b := View.size v) (Nat.le_refl _) (Nat.le_refl _) ?_ ?_
      · show vTrimFromLeft m v d = _; unfold vTrimFromLeft; rw [e]; simp only [bind, Except.bind]; rw [hsz]
      · show _ = List.dropWhile _ _; rw [hd]; simp
    | some k =>
      have hk := hr.lt
      refine part (a := k) (b := View.size v) (by omega) (Nat.le_refl _) ?_ ?_
      · show vTrimFromLeft m v d = _; unfold vTrimFromLeft; rw [e]; simp only [bind, Except.bind]; rw [hsz]
      · show _ = List.dropWhile _ _; rw [hd]; exact List.take_of_length_le (by rw [List.length_drop]; omega)
  | trimLeft d =>
    obtain ⟨r, e, hr⟩ := vfirst hv d true
    have hd := hr.dropWhile
    rw [want_out] at hd
    cases r with
    | none =>
      refine part (a := 0) (b := 0) (Nat.le_refl _) (Nat.zero_le _) ?_ ?_
      · show vTrimLeft m v d = _; unfold vTrimLeft; rw [e]; rfl
      · show _ = List.dropWhile _ _; rw [hd]; simp
    | some k =>
      have hk := hr.lt
      refine part (a := k) (b := View.size v) (by omega) (Nat.le_refl _) ?_ ?_
      · show vTrimLeft m v d = _; unfold vTrimLeft; rw [e]; simp only [bind, Except.bind]; rw [hsz]
      · show _ = List.dropWhile _ _; rw [hd]; exact List.take_of_length_le (by rw [List.length_drop]; omega)
  | trimFromRight d =>
    obtain ⟨r, e, hr⟩ := vlast hv d false
    have hd := hr.rdropWhile
    rw [want_in] at hd
    refine part (a := 0) (b := succ r) (Nat.zero_le _) (hfl d false r hr) ?_ ?_
    · show vTrimFromRight m v d = _; unfold vTrimFromRight; rw [e]; rfl
    · show _ = List.rdropWhile _ _; rw [hd]; simp
  | trimRight d =>
    obtain ⟨r, e, hr⟩ := vlast hv d true
    have hd := hr.rdropWhile
    rw [want_out] at hd
    refine part (a := 0) (b := succ r) (Nat.zero_le _) (hfl d true r hr) ?_ ?_
    · show vTrimRight m v d = _; unfold vTrimRight; rw [e]; rfl
    · show _ = List.rdropWhile _ _; rw [hd]; simp
  | trimFrom d =>
    obtain ⟨r, e, hr⟩ := vfirst hv d false
    obtain ⟨q, e2, hq⟩ := vlast hv d false
    have hb := both hr hq
    rw [want_in] at hb
    refine part (a := r.getD 0) (b := succ q) (first_le_last hr hq) (hfl d false q hq) ?_ ?_
    · show vTrimBoth m v d false = _; unfold vTrimBoth; rw [e, e2]; rfl
    · exact hb.symm
  | trim d =>
    obtain ⟨r, e, hr⟩ := vfirst hv d true
    obtain ⟨q, e2, hq⟩ := vlast hv d true
    have hb := both hr hq
    rw [want_out] at hb
    refine part (a := r.getD 0) (b := succ q) (first_le_last hr hq) (hfl d true q hq) ?_ ?_
    · show vTrimBoth m v d true = _; unfold vTrimBoth; rw [e, e2]; rfl
    · exact hb.symm
  | leftN n =>
    refine part (a := 0) (b := if n > View.size v then View.size v else n) (Nat.zero_le _) (by split_ifs <;> omega) ?_ ?_
    · show vLeftN v n = _; unfold vLeftN; rw [hn n rfl]; rfl
    · show _ = List.take _ _
      rw [List.drop_zero, Nat.sub_zero]
      split_ifs with hgt
      · rw [List.take_of_length_le (by omega), List.take_of_length_le (by omega)]
      · rfl
  | rightN n =>
    refine part (a := View.size v - (if n > View.size v then View.size v else n)) (b := View.size v) (by omega) (Nat.le_refl _) ?_ ?_
    · show vRightN v n = _; unfold vRightN
      have : v.beg + View.size v - (if n > View.size v then View.size v else n) = v.beg + (View.size v - (if n > View.size v then View.size v else n)) := by
        split_ifs <;> omega
      rw [this, hsz]
    · show _ = List.drop _ _
      rw [List.take_of_length_le (by rw [List.length_drop]; omega)]
      congr 1
      split_ifs <;> omega

/-! ## Tokens -/

theorem pieces_eq (d l : List Nat) : pieces d l = l.takeWhile (fun x => decide (x ∉ d)) :: (match l.dropWhile (fun x => decide (x ∉ d)) with
    | [] => []
    | _ :: r => pieces d r) := by
  induction l with
  | nil => rfl
  | cons c l ih =>
    have e : pieces d (c :: l) = if c ∈ d then [] :: pieces d l else (match pieces d l with | [] => [[c]] | p :: ps => (c :: p) :: ps) := by rw [pieces]
    rw [e]
    by_cases h : c ∈ d
    · rw [if_pos h, List.takeWhile_cons, List.dropWhile_cons, if_neg (by simpa using h), if_neg (by simpa using h)]
    · rw [if_neg h, List.takeWhile_cons, List.dropWhile_cons, if_pos (by simpa using h), if_pos (by simpa using h), ih]

/-- The text from `b` to the end of the view. -/
def rest (m : List Nat) (v : View) (b : Nat) : List Nat := (m.drop b).take (v.fin - b)

theorem iterFirst_ok (m d : List Nat) (n : Nat) : ∀ i, i + n ≤ m.length → iterFirst m d n i = .ok (i + (((m.drop i).take n).takeWhile (fun x => decide (x ∉ d))).length) := by
  induction n with
  | zero => intro i _; simp [iterFirst]
  | succ n ih =>
    intro i hi
    have hlt : i < m.length := by omega
    unfold iterFirst
    rw [List.getElem?_eq_getElem hlt]
    simp only [oneOf_eq]
    rw [List.drop_eq_getElem_cons hlt, List.take_succ_cons, List.takeWhile_cons]
    by_cases h : m[i] ∈ d
    · rw [if_pos (by simpa using h), if_neg (by simpa using h)]; rfl
    · rw [if_neg (by simpa using h), if_pos (by simpa using h), ih (i + 1) (by omega), List.length_cons]
      congr 1; omega

def keep (ign : Bool) (ps : List (List Nat)) : List (List Nat) := if ign then ps.filter (fun p => decide (p ≠ [])) else ps

/-- The pieces from `b` on. -/
def from_ (m : List Nat) (v : View) (d : List Nat) (b : Nat) : List (List Nat) := if b ≤ v.fin then pieces d (rest m v b) else []

theorem from_step (hf : v.fin ≤ m.length) (d : List Nat) {b : Nat} (hb : b ≤ v.fin) :
    ∃ p, iterFirst m d (v.fin - b) b = .ok p ∧ b ≤ p ∧ p ≤ v.fin ∧ from_ m v d b = (m.drop b).take (p - b) :: from_ m v d (p + 1) := by
  have hlen : (rest m v b).length = v.fin - b := by unfold rest; rw [List.length_take, List.length_drop]; omega
  have hw : ((rest m v b).takeWhile (fun x => decide (x ∉ d))).length ≤ v.fin - b := by
    rw [← hlen]; exact (List.takeWhile_sublist _).length_le
  refine ⟨_, iterFirst_ok m d (v.fin - b) b (by omega), by omega, ?_, ?_⟩
  · show b + ((rest m v b).takeWhile (fun x => decide (x ∉ d))).length ≤ v.fin; omega
  · show from_ m v d b = (m.drop b).take (b + ((rest m v b).takeWhile (fun x => decide (x ∉ d))).length - b) ::
      from_ m v d (b + ((rest m v b).takeWhile (fun x => decide (x ∉ d))).length + 1)
    have hsplit : rest m v b = (rest m v b).takeWhile (fun x => decide (x ∉ d)) ++ (rest m v b).dropWhile (fun x => decide (x ∉ d)) := (List.takeWhile_append_dropWhile).symm
    generalize hk : (rest m v b).takeWhile (fun x => decide (x ∉ d)) = w at *
    have hwl : (m.drop b).take (b + w.length - b) = w := by
      rw [show b + w.length - b = w.length by omega]
      have : w = (rest m v b).take w.length := by
        conv => rhs; rw [hsplit]
        rw [List.take_left]
      conv => rhs; rw [this]
      unfold rest
      rw [List.take_take, Nat.min_eq_left hw]
    rw [hwl]
    unfold from_
    rw [if_pos hb, pieces_eq, hk]
    congr 1
    have hdrop : (rest m v b).dropWhile (fun x => decide (x ∉ d)) = (rest m v b).drop w.length := by
      conv => rhs; rw [hsplit]
      rw [List.drop_left]
    rw [hdrop]
    by_cases hend : b + w.length + 1 ≤ v.fin
    · rw [if_pos hend]
      have : (rest m v b).drop w.length = m[b + w.length]'(by omega) :: rest m v (b + w.length + 1) := by
        unfold rest
        rw [List.drop_take, List.drop_drop, List.drop_eq_getElem_cons (by omega), show v.fin - b - w.length = (v.fin - (b + w.length + 1)) + 1 by omega, List.take_succ_cons]
      rw [this]
    · rw [if_neg hend, List.drop_of_length_le (by omega)]

theorem tokenLoop_ok (hv : View.Valid m v) (d : List Nat) (ign : Bool) (fuel : Nat) : ∀ (view : View) (position b : Nat),
    ((view.null = true ∧ b = v.beg + position ∧ b ≤ v.fin) ∨ (view.null = false ∧ v.beg ≤ view.fin ∧ b = view.fin + 1)) → v.fin + 1 < b + fuel → 0 < fuel →
    ∃ o, tokenLoop m v d ign fuel view position = .ok o ∧ match o with
      | none => keep ign (from_ m v d b) = []
      | some t => t.null = false ∧ b ≤ t.beg ∧ t.beg ≤ t.fin ∧ t.fin ≤ v.fin ∧ keep ign (from_ m v d b) = View.elems m t :: keep ign (from_ m v d (t.fin + 1)) := by
  induction fuel with
  | zero => intro view position b _ _ h; omega
  | succ fuel ih =>
    intro view position b hs hfu _
    have hvb := hv.1
    have hvm := hv.2.1
    unfold tokenLoop
    by_cases hend : v.fin < b
    · have hnn : view.null = false ∧ v.beg ≤ view.fin ∧ b = view.fin + 1 := by
        rcases hs with hs | hs
        · omega
        · exact hs
      rw [if_pos (by rw [hnn.1]; unfold View.size; simp; omega)]
      refine ⟨none, rfl, ?_⟩
      show keep ign (from_ m v d b) = []
      unfold from_; rw [if_neg (by omega)]
      unfold keep; cases ign <;> rfl
    · have hvbb : v.beg ≤ b := by omega
      have hpos : v.beg + (if view.null = true then position else view.fin + 1 - v.beg) = b := by
        rcases hs with hs | hs
        · rw [if_pos hs.1]; omega
        · rw [if_neg (by rw [hs.1]; decide)]; omega
      rw [if_neg (by
        rcases hs with hs | hs
        · rw [hs.1]; simp
        · rw [hs.1]; unfold View.size; simp; omega)]
      simp only []
      rw [hpos, if_neg hend]
      obtain ⟨p, k1, k2, k3, k4⟩ := from_step hvm d (b := b) (by omega)
      rw [k1]
      simp only [bind, Except.bind]
      by_cases hc : (decide (p - b ≠ 0) || !ign) = true
      · rw [if_pos hc]
        refine ⟨some ⟨false, b, p⟩, rfl, rfl, Nat.le_refl _, k2, k3, ?_⟩
        have he : View.elems m ⟨false, b, p⟩ = (m.drop b).take (p - b) := rfl
        rw [k4, he]
        unfold keep
        cases ign with
        | false => rfl
        | true =>
          simp only [Bool.not_true, Bool.or_false, decide_eq_true_eq] at hc
          rw [if_pos rfl, if_pos rfl, List.filter_cons, if_pos]
          simp only [decide_eq_true_eq]
          intro he
          have := congrArg List.length he
          rw [List.length_take, List.length_drop, List.length_nil] at this
          omega
      · rw [if_neg hc]
        have hpb : p = b ∧ ign = true := by
          cases ign with
          | false => simp at hc
          | true => simp at hc; exact ⟨by omega, rfl⟩
        obtain ⟨o, j1, j2⟩ := ih ⟨false, b, p⟩ (if view.null = true then position else view.fin + 1 - v.beg) (p + 1) (Or.inr ⟨rfl, by show v.beg ≤ p; omega, rfl⟩) (by omega) (by omega)
        refine ⟨o, j1, ?_⟩
        have hk : keep ign (from_ m v d b) = keep ign (from_ m v d (p + 1)) := by
          rw [k4, hpb.2]; unfold keep
          rw [if_pos rfl, if_pos rfl, List.filter_cons, if_neg]
          rw [hpb.1]; simp
        cases o with
        | none => exact hk.trans j2
        | some t => exact ⟨j2.1, by have := j2.2.1; omega, j2.2.2.1, j2.2.2.2.1, hk.trans j2.2.2.2.2⟩

theorem allTokens_ok (hv : View.Valid m v) (hnn : v.null = false) (d : List Nat) (ign : Bool) (n : Nat) : ∀ (last : Option View) (b : Nat),
    ((last = none ∧ b = v.beg) ∨ ∃ t, last = some t ∧ t.null = false ∧ v.beg ≤ t.fin ∧ b = t.fin + 1) → v.fin + 1 < b + n → 0 < n →
    ∃ ts, allTokens m v d ign n last = .ok ts ∧ ts.map (View.elems m) = keep ign (from_ m v d b) ∧
      (∀ t ∈ ts, t.null = false ∧ b ≤ t.beg ∧ t.beg ≤ t.fin ∧ t.fin ≤ v.fin) ∧ ts.Pairwise (fun t u => t.fin < u.beg) := by
  have hvb := hv.1
  induction n with
  | zero => intro last b _ _ h; omega
  | succ n ih =>
    intro last b hs hn _
    have hstart : ∃ view, last.getD View.empty = view ∧ ((view.null = true ∧ b = v.beg + 0 ∧ b ≤ v.fin) ∨ (view.null = false ∧ v.beg ≤ view.fin ∧ b = view.fin + 1)) := by
      rcases hs with ⟨rfl, hb⟩ | ⟨t, rfl, h1, h2, h3⟩
      · exact ⟨_, rfl, Or.inl ⟨rfl, hb, by omega⟩⟩
      · exact ⟨_, rfl, Or.inr ⟨h1, h2, h3⟩⟩
    obtain ⟨view, hview, hs'⟩ := hstart
    have hvbb : v.beg ≤ b := by omega
    obtain ⟨o, k1, k2⟩ := tokenLoop_ok hv d ign (View.size v + 2) view 0 b hs' (by unfold View.size; omega) (by omega)
    have hg : getToken m v d last ign = .ok o := by unfold getToken; rw [hnn, hview]; exact k1
    unfold allTokens
    rw [hg]
    simp only [bind, Except.bind]
    cases o with
    | none => exact ⟨[], rfl, k2.symm, fun t ht => by simp at ht, List.Pairwise.nil⟩
    | some t =>
      obtain ⟨t1, t2, t3, t4, t5⟩ := k2
      simp only []
      obtain ⟨ts, j1, j2, j3, j4⟩ := ih (some t) (t.fin + 1) (Or.inr ⟨t, rfl, t1, by omega, rfl⟩) (by omega) (by omega)
      rw [j1]
      refine ⟨t :: ts, rfl, ?_, ?_, ?_⟩
      · rw [List.map_cons, j2, t5]
      · intro u hu
        rcases List.mem_cons.mp hu with rfl | hu
        · exact ⟨t1, t2, t3, t4⟩
        · have := j3 u hu; exact ⟨this.1, by omega, this.2.2⟩
      · refine List.pairwise_cons.mpr ⟨fun u hu => ?_, j4⟩
        have := j3 u hu; omega

/-- **C73, tokens.** The loop `while (token = get_token(text, delimiters, token, ignore_empty))` over any text and delimiters ends; its tokens are exactly the pieces of the text
between delimiters, in order (without the empty ones if they are to be ignored), each a view of the text itself, and they do not overlap. -/
theorem C73_tokens (hv : View.Valid m v) (hnn : v.null = false) (d : List Nat) (ign : Bool) (n : Nat) (hn : View.size v + 2 ≤ n) :
    ∃ ts, allTokens m v d ign n none = .ok ts ∧ ts.map (View.elems m) = (if ign then (pieces d (View.elems m v)).filter (fun p => decide (p ≠ [])) else pieces d (View.elems m v)) ∧
      (∀ t ∈ ts, View.Valid m t ∧ View.Within t v) ∧ ts.Pairwise (fun t u => t.fin < u.beg) := by
  have hvb := hv.1
  obtain ⟨ts, h1, h2, h3, h4⟩ := allTokens_ok hv hnn d ign n none v.beg (Or.inl ⟨rfl, rfl⟩) (by unfold View.size at hn; omega) (by omega)
  refine ⟨ts, h1, ?_, ?_, h4⟩
  · rw [h2]
    unfold keep from_ rest View.elems
    rw [if_pos hvb, hnn]; rfl
  · intro t ht
    obtain ⟨k1, k2, k3, k4⟩ := h3 t ht
    exact ⟨⟨k3, by have := hv.2.1; omega, fun h => by rw [k1] at h; cases h⟩, Or.inr ⟨hnn, k2, k4⟩⟩

/-- The pieces put together, with the delimiters that are between them, are the text. -/
theorem C73_pieces_join (d l : List Nat) : ∃ ds : List Nat, ds.length + 1 = (pieces d l).length ∧ (∀ x ∈ ds, x ∈ d) ∧ (∀ p ∈ pieces d l, ∀ x ∈ p, x ∉ d) ∧
    l = (pieces d l).headD [] ++ ((ds.zip (pieces d l).tail).flatMap (fun q => q.1 :: q.2)) := by
  induction l with
  | nil => exact ⟨[], rfl, fun x hx => by simp at hx, fun p hp x hx => by simp [pieces] at hp; rw [hp] at hx; simp at hx, rfl⟩
  | cons c l ih =>
    obtain ⟨ds, h1, h2, h3, h4⟩ := ih
    have hne : pieces d l ≠ [] := by intro e; rw [e] at h1; simp at h1
    obtain ⟨p, ps, hp⟩ := List.exists_cons_of_ne_nil hne
    by_cases h : c ∈ d
    · refine ⟨c :: ds, ?_, ?_, ?_, ?_⟩
      · unfold pieces; rw [if_pos h, List.length_cons, List.length_cons, h1]
      · intro x hx
        rcases List.mem_cons.mp hx with rfl | hx
        · exact h
        · exact h2 x hx
      · unfold pieces; rw [if_pos h]
        intro q hq x hx
        rcases List.mem_cons.mp hq with rfl | hq
        · simp at hx
        · exact h3 q hq x hx
      · unfold pieces; rw [if_pos h]
        show c :: l = [] ++ ((c :: ds).zip (pieces d l)).flatMap _
        rw [hp, List.zip_cons_cons, List.flatMap_cons, List.nil_append]
        rw [hp] at h4
        show c :: l = c :: p ++ _
        rw [List.cons_append]
        congr 1
    · have he : pieces d (c :: l) = (c :: p) :: ps := by unfold pieces; rw [if_neg h, hp]
      rw [hp] at h1 h3 h4
      refine ⟨ds, ?_, h2, ?_, ?_⟩
      · rw [he]; exact h1
      · rw [he]
        intro q hq x hx
        rcases List.mem_cons.mp hq with rfl | hq
        · rcases List.mem_cons.mp hx with rfl | hx
          · exact h
          · exact h3 p List.mem_cons_self x hx
        · exact h3 q (List.mem_cons_of_mem _ hq) x hx
      · rw [he]
        show c :: l = (c :: p) ++ (ds.zip ps).flatMap _
        rw [List.cons_append]
        congr 1

/-! ## Non-vacuity -/

def ofStr (t : String) : List Nat := t.toList.map Char.toNat

def runU (cap : Nat) (t : String) (us : List Util) : Option (List Nat × Bool) :=
  match Str.make cap (fun _ => 63) with
  | .error _ => none
  | .ok s => match Str.assign s (ofStr t) false false with
    | .error _ => none
    | .ok s => go s us
where go (s : St) : List Util → Option (List Nat × Bool)
  | [] => some (chars s, s.trunc)
  | u :: us => match exec s u with
    | .ok (some s) => go s us
    | _ => none

example : runU 12 "  ab c  " [.trimFrom (ofStr " ")] = some (ofStr "ab c", false) := by decide +kernel
example : runU 12 "xx<ab>yy" [.trim (ofStr "<>"), .reverse, .padLeft 6 46, .padRight 8 33] = some (ofStr "..>ba<!!", false) := by decide +kernel
example : runU 12 "hELLO" [.sentence (fun x => if 97 ≤ x ∧ x ≤ 122 then x - 32 else x) (fun x => if 65 ≤ x ∧ x ≤ 90 then x + 32 else x), .rightN 4, .leftN 3] =
    some (ofStr "ell", false) := by decide +kernel
example : runU 12 "a,b;c" [.replaceChars [(44, 59), (59, 45)]] = some (ofStr "a-b-c", false) := by decide +kernel

/-- Tokens of `a,,bc,` with and without the empty ones. -/
example : (allTokens (ofStr "a,,bc,") (View.whole (ofStr "a,,bc,")) (ofStr ",;") false 9 none).toOption.map (List.map (fun t => (t.beg, t.fin))) = some [(0, 1), (2, 2), (3, 5), (6, 6)] := by
  decide +kernel
example : (allTokens (ofStr "a,,bc,") (View.whole (ofStr "a,,bc,")) (ofStr ",;") true 9 none).toOption.map (List.map (fun t => (t.beg, t.fin))) = some [(0, 1), (3, 5)] := by
  decide +kernel

def runR (cap : Nat) (t : String) (ps : List (List Nat × List Nat)) : Option (List Nat × Bool) :=
  match Str.make cap (fun _ => 63) with
  | .error _ => none
  | .ok s => match Str.assign s (ofStr t) false false with
    | .error _ => none
    | .ok s => match replaceStrings (cap + 1) s ps with
      | .ok (some s) => some (chars s, s.trunc)
      | _ => none

example : runR 12 "aaabaa" [(ofStr "aa", ofStr "x"), (ofStr "x", ofStr "yyy")] = some (ofStr "yyyabyyy", false) := by decide +kernel
example : runR 6 "abab" [(ofStr "a", ofStr "xyz")] = some (ofStr "xyzbxy", true) := by decide +kernel

/-! ## Findings -/

/-- `to_sentence_case` of an empty string: the loop starts behind the end and runs through the memory. -/
theorem sentence_of_empty_runs_away (up low : Nat → Nat) {s : St} (h : Rep s []) : ∃ u, sentence up low s = .error u := by
  have hl := h.len
  have hsz : s.size = 0 := hl
  have key : ∀ fuel i (t : St), 0 < i → t.cap = s.cap → i + fuel = s.cap + 3 → ∃ u, mapLoop low 0 fuel i t = .error u := by
    intro fuel
    induction fuel with
    | zero => intro i t _ _ _; exact ⟨_, rfl⟩
    | succ fuel ih =>
      intro i t hi hc hf
      unfold mapLoop
      rw [if_neg (by omega)]
      by_cases hb : i ≤ t.cap
      · have g1 : Str.get t i = .ok (t.buf i) := by unfold Str.get; rw [if_pos hb]
        rw [g1]
        simp only [bind, Except.bind]
        rw [Str.put_ok hb]
        exact ih (i + 1) _ (by omega) hc (by omega)
      · have g1 : Str.get t i = .error .outOfBounds := by unfold Str.get; rw [if_neg hb]
        rw [g1]; exact ⟨_, rfl⟩
  unfold sentence
  have g1 : Str.get s 0 = .ok (s.buf 0) := by unfold Str.get; rw [if_pos (Nat.zero_le _)]
  rw [g1]
  simp only [bind, Except.bind]
  rw [Str.put_ok (Nat.zero_le _)]
  simp only []
  rw [hsz]
  exact key (s.cap + 2) 1 _ (by decide) rfl (by omega)

/-- `replace_strings` with an empty old and new text never ends. -/
theorem replace_of_empty_never_ends (fuel : Nat) : ∀ s : St, Rep s [97] → replaceStrings fuel s [([], [])] = .error .diverge := by
  have key : ∀ s : St, Rep s [97] → replaceLoop [] [] fuel 0 s = .error .diverge := by
    induction fuel with
    | zero => intro s _; rfl
    | succ fuel ih =>
      intro s h
      have hsz : s.size = 1 := h.len
      have hf : Str.find s [] 0 0 = .ok (some 0) := by
        unfold Str.find
        rw [hsz, if_neg (by decide), if_pos (by decide), Str.slice_eq h 0 (1 - 0) (by decide)]
        rfl
      obtain ⟨s', e1, e2⟩ := Str.replace_ok h 0 (some 0) [] false (by decide)
      have hr : Rep s' [97] := by
        have := e2.rep
        have hc : 1 ≤ s.cap := by have := h.fits; simpa using this
        rwa [show (Str.splice [97] 0 (some 0) []).take s.cap = [97] from by
          show ([97] : List Nat).take s.cap = [97]
          exact List.take_of_length_le hc] at this
      unfold replaceLoop
      show (do match ← Str.find s [] 0 0 with
        | none => .ok (some s)
        | some p => do match ← Str.replace s p (some 0) [] false with
          | none => .ok none
          | some s => replaceLoop [] [] fuel (p + 0) s) = .error .diverge
      rw [hf]
      simp only [bind, Except.bind]
      rw [e1]
      exact ih s' hr
  intro s h
  unfold replaceStrings
  rw [key s h]; rfl

example : ∃ s : St, Rep s [97] := ⟨{ cap := 1, size := 1, buf := fun i => if i = 0 then 97 else 0, trunc := false, secure := false }, rfl, Nat.le_refl _, by intro i hi; match i, hi with | 0, _ => rfl | 1, _ => rfl⟩

end Etl.StrUtil
