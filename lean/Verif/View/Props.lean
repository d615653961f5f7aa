import Verif.View.Model
import Mathlib.Tactic.SplitIfs
import Mathlib.Tactic.ByContra
import Mathlib.Tactic.Tauto

/-! # C48: spans and string views stay inside their source and denote the expected slice -/
namespace Etl.View
open Etl.Algo

variable {α : Type}

/-! ## Specification -/

/-- A view whose pointers are in the source. -/
def Valid (m : List α) (v : View) : Prop := v.beg ≤ v.fin ∧ v.fin ≤ m.length ∧ (v.null = true → v.beg = 0 ∧ v.fin = 0)
/-- `v` is null or inside `p`. -/
def Within (v p : View) : Prop := v.null = true ∨ (p.null = false ∧ p.beg ≤ v.beg ∧ v.fin ≤ p.fin)

/-- Slicing operations. -/
inductive Slice where
  | first (n : Nat) | last (n : Nat) | sub (off : Nat) (n : Option Nat)
  | pre (n : Nat) | suf (n : Nat) | substr (p : Nat) (n : Option Nat)

/-- What they mean for a list. -/
def Slice.spec : Slice → List α → List α
  | .first n, l => l.take n
  | .last n, l => l.drop (l.length - n)
  | .sub off n, l => match n with
    | none => l.drop off
    | some n => (l.drop off).take n
  | .pre n, l => l.drop n
  | .suf n, l => l.take (l.length - n)
  | .substr p n, l => match n with
    | none => l.drop p
    | some n => (l.drop p).take n
/-- Their preconditions; `substr` has none. -/
def Slice.pre? : Slice → Nat → Prop
  | .first n, k => n ≤ k
  | .last n, k => n ≤ k
  | .sub off n, k => off + n.getD 0 ≤ k
  | .pre n, k => n ≤ k
  | .suf n, k => n ≤ k
  | .substr _ _, _ => True

def exec (m : List α) (v : View) : Slice → Res View
  | .first n => first m v n
  | .last n => last m v n
  | .sub off n => subspan m v off n
  | .pre n => removePrefix m v n
  | .suf n => removeSuffix v n
  | .substr p n => substr m v p n

def run (m : List α) (v : View) : List Slice → Res View
  | [] => .ok v
  | o :: os => match exec m v o with
    | .error u => .error u
    | .ok v => run m v os
def specRun (l : List α) : List Slice → List α
  | [] => l
  | o :: os => specRun (o.spec l) os
def Legal (l : List α) : List Slice → Prop
  | [] => True
  | o :: os => o.pre? l.length ∧ Legal (o.spec l) os

/-! ## Slices -/

theorem elems_len {m : List α} {v : View} (h : Valid m v) : (elems m v).length = size v := by
  obtain ⟨h1, h2, h3⟩ := h
  unfold elems size
  split
  · next hn => have := h3 hn; simp [this]
  · rw [List.length_take, List.length_drop]; omega

theorem elems_of {m : List α} {v : View} (h : v.null = false) : elems m v = (m.drop v.beg).take (v.fin - v.beg) := by unfold elems; rw [if_neg (by simp [h])]

theorem fwd_ok {m : List α} {v : View} {p n : Nat} (hn : v.null = true → n = 0) (h : p + n ≤ m.length) : fwd m v p n = .ok (p + n) := by
  unfold fwd
  cases hv : v.null
  · simp [h]
  · have := hn hv; simp [this]
theorem bwd_ok {v : View} {p n : Nat} (hn : v.null = true → n = 0) (h : n ≤ p) : bwd v p n = .ok (p - n) := by
  unfold bwd
  cases hv : v.null
  · simp [h]
  · have := hn hv; simp [this]

/-- A view cut down to `[b, e)` of its own range. -/
theorem cut {m : List α} {v : View} (h : Valid m v) {b e : Nat} (hb : b ≤ e) (he : v.beg + e ≤ v.fin) :
    Valid m { v with beg := v.beg + b, fin := v.beg + e } ∧ Within { v with beg := v.beg + b, fin := v.beg + e } v ∧ elems m { v with beg := v.beg + b, fin := v.beg + e } = ((elems m v).drop b).take (e - b) := by
  obtain ⟨h1, h2, h3⟩ := h
  refine ⟨⟨by simp only; omega, by simp only; omega, fun hn => ?_⟩, ?_, ?_⟩
  · have := h3 hn; simp only; omega
  · unfold Within; cases hv : v.null
    · right; simp only; exact ⟨trivial, by omega, by omega⟩
    · left; rfl
  · unfold elems
    cases hv : v.null
    · simp only [Bool.false_eq_true, if_false]
      rw [List.drop_take, List.take_take, List.drop_drop]
      congr 1; omega
    · simp

theorem exec_ok {m : List α} {v : View} (h : Valid m v) {o : Slice} (hp : o.pre? (elems m v).length) : ∃ w, exec m v o = .ok w ∧ Valid m w ∧ Within w v ∧ elems m w = o.spec (elems m v) := by
  have hl := elems_len h
  have hz : v.null = true → size v = 0 := fun hn => by have := h.2.2 hn; unfold size; omega
  have h1 := h.1; have h2 := h.2.1
  have hs : size v = v.fin - v.beg := rfl
  have full : ∀ b, b ≤ size v → v.beg + b ≤ m.length := fun b hb => by omega
  cases o with
  | first n =>
    simp only [Slice.pre?, hl] at hp
    have c := cut h (b := 0) (e := n) (by omega) (by omega)
    rw [Nat.add_zero] at c
    refine ⟨_, ?_, c.1, c.2.1, by rw [c.2.2]; simp [Slice.spec]⟩
    simp only [exec, first]; rw [fwd_ok (fun hn => by have := hz hn; omega) (full n hp)]
  | last n =>
    simp only [Slice.pre?, hl] at hp
    have c := cut h (b := size v - n) (e := size v) (by omega) (by omega)
    have e1 : v.beg + size v = v.fin := by omega
    rw [e1] at c
    refine ⟨_, ?_, c.1, c.2.1, ?_⟩
    · simp only [exec, last]; rw [bwd_ok (fun hn => by have := hz hn; omega) (by omega)]; rw [show v.fin - n = v.beg + (size v - n) by omega]
    · rw [c.2.2]; simp only [Slice.spec, hl]; rw [List.take_of_length_le]; rw [List.length_drop, hl]
  | sub off n =>
    simp only [Slice.pre?, hl] at hp
    cases n with
    | none =>
      have c := cut h (b := off) (e := size v) (by simp at hp; omega) (by omega)
      have e1 : v.beg + size v = v.fin := by omega
      rw [e1] at c
      refine ⟨_, ?_, c.1, c.2.1, ?_⟩
      · simp only [exec, subspan]; rw [fwd_ok (fun hn => by have := hz hn; simp at hp; omega) (full off (by simp at hp; omega))]
      · rw [c.2.2]; simp only [Slice.spec]; rw [List.take_of_length_le]; rw [List.length_drop, hl]
    | some n =>
      simp only [Option.getD_some] at hp
      have c := cut h (b := off) (e := off + n) (by omega) (by omega)
      refine ⟨_, ?_, c.1, c.2.1, ?_⟩
      · simp only [exec, subspan]
        rw [fwd_ok (fun hn => by have := hz hn; omega) (full off (by omega))]; dsimp only
        rw [fwd_ok (fun hn => by have := hz hn; omega) (by have := full (off + n) (by omega); omega)]; dsimp only
        rw [Nat.add_assoc]
      · rw [c.2.2]; simp only [Slice.spec]; rw [Nat.add_sub_cancel_left]
  | pre n =>
    simp only [Slice.pre?, hl] at hp
    have c := cut h (b := n) (e := size v) (by omega) (by omega)
    have e1 : v.beg + size v = v.fin := by omega
    rw [e1] at c
    refine ⟨_, ?_, c.1, c.2.1, ?_⟩
    · simp only [exec, removePrefix]; rw [fwd_ok (fun hn => by have := hz hn; omega) (full n hp)]
    · rw [c.2.2]; simp only [Slice.spec]; rw [List.take_of_length_le]; rw [List.length_drop, hl]
  | suf n =>
    simp only [Slice.pre?, hl] at hp
    have c := cut h (b := 0) (e := size v - n) (by omega) (by omega)
    rw [Nat.add_zero] at c
    refine ⟨_, ?_, c.1, c.2.1, by rw [c.2.2]; simp [Slice.spec, hl]⟩
    simp only [exec, removeSuffix]; rw [bwd_ok (fun hn => by have := hz hn; omega) (by omega)]; rw [show v.fin - n = v.beg + (size v - n) by omega]
  | substr p n =>
    simp only [exec, substr]
    by_cases hps : p < size v
    · rw [if_pos hps]
      have hnn : v.null = true → False := fun hn => by have := hz hn; omega
      rw [fwd_ok (fun hn => (hnn hn).elim) (full p (by omega))]; dsimp only
      have c := cut h (b := p) (e := p + min (n.getD (size v - p)) (size v - p)) (by omega) (by omega)
      rw [fwd_ok (fun hn => (hnn hn).elim) (by have := full (p + min (n.getD (size v - p)) (size v - p)) (by omega); omega)]
      rw [Nat.add_assoc]
      refine ⟨_, rfl, c.1, c.2.1, ?_⟩
      rw [c.2.2, Nat.add_sub_cancel_left]
      cases n with
      | none => simp only [Slice.spec, Option.getD_none, Nat.min_self]; rw [List.take_of_length_le]; rw [List.length_drop, hl]
      | some n =>
        simp only [Slice.spec, Option.getD_some]
        rw [List.take_eq_take_iff, List.length_drop, hl]; omega
    · rw [if_neg hps]
      refine ⟨empty, rfl, ⟨Nat.le_refl _, Nat.zero_le _, fun _ => ⟨rfl, rfl⟩⟩, .inl rfl, ?_⟩
      have e1 : (elems m v).drop p = [] := List.drop_eq_nil_of_le (by omega)
      have e2 : elems m empty = [] := rfl
      rw [e2]
      cases n <;> simp [Slice.spec, e1]

theorem within_trans {a b c : View} (h : Within a b) (g : Within b c) : Within a c := by
  unfold Within at *
  rcases h with h | ⟨h1, h2, h3⟩
  · exact .inl h
  · rcases g with g | ⟨g1, g2, g3⟩
    · rw [h1] at g; cases g
    · exact .inr ⟨g1, by omega, by omega⟩

theorem run_ok {m : List α} (os : List Slice) : ∀ {v : View}, Valid m v → Legal (elems m v) os → ∃ w, run m v os = .ok w ∧ Valid m w ∧ (os = [] ∨ Within w v) ∧ elems m w = specRun (elems m v) os := by
  induction os with
  | nil => intro v h _; exact ⟨v, rfl, h, .inl rfl, rfl⟩
  | cons o os ih =>
    intro v h hl
    obtain ⟨w, e1, h1, h2, h3⟩ := exec_ok h hl.1
    have hl2 := hl.2
    rw [← h3] at hl2
    obtain ⟨x, e2, g1, g2, g3⟩ := ih h1 hl2
    refine ⟨x, by simp only [run, e1, e2], g1, .inr ?_, by rw [g3, h3]; rfl⟩
    rcases g2 with g2 | g2
    · subst g2; simp only [run] at e2; injection e2 with e2; rw [← e2]; exact h2
    · exact within_trans g2 h2

/-- C48, slices: any chain of `first`, `last`, `subspan`, `remove_prefix`, `remove_suffix` (each within the size of the span it is applied to) and `substr` (any arguments) of a view forms no pointer outside the source, the result is
inside the view it was taken from, and its elements are the slice of the list. -/
theorem C48_slices {m : List α} {v : View} (h : Valid m v) (os : List Slice) (hl : Legal (elems m v) os) :
    ∃ w, run m v os = .ok w ∧ Valid m w ∧ (os = [] ∨ Within w v) ∧ elems m w = specRun (elems m v) os ∧ size w = (specRun (elems m v) os).length := by
  obtain ⟨w, e, h1, h2, h3⟩ := run_ok os h hl
  exact ⟨w, e, h1, h2, h3, by rw [← h3, elems_len h1]⟩

/-! ## Access -/

theorem rd_ok {m : List α} {v : View} (h : Valid m v) {i : Nat} (hi : i < size v) : ∃ x, (elems m v)[i]? = some x ∧ rd m v i = .ok x := by
  have hn : v.null = false := by
    cases hv : v.null
    · rfl
    · have := h.2.2 hv; unfold size at hi; omega
  have h1 := h.1; have h2 := h.2.1; unfold size at hi
  have hlt : v.beg + i < m.length := by omega
  refine ⟨m[v.beg + i], ?_, ?_⟩
  · rw [elems_of hn, List.getElem?_take, if_pos hi, List.getElem?_drop, List.getElem?_eq_getElem hlt]
  · unfold rd; rw [if_neg (by simp [hn]; omega), List.getElem?_eq_getElem hlt]

theorem rd_err {m : List α} {v : View} {i : Nat} (hi : size v ≤ i) (hb : v.beg ≤ v.fin) : rd m v i = .error .outOfBounds := by
  unfold rd; unfold size at hi; rw [if_pos (.inr (by omega))]

/-- C48, access: `[i]`, `front`, `back` of a view that has the element give it; `at` gives it or raises the error; `size` and `empty` are those of the slice. -/
theorem C48_access {m : List α} {v : View} (h : Valid m v) :
    size v = (elems m v).length ∧ (isEmpty v = true ↔ elems m v = []) ∧ (∀ i x, (elems m v)[i]? = some x → at? m v i = .ok x) ∧ (∀ i, atChecked m v i = .ok ((elems m v)[i]?)) ∧
    (∀ x, (elems m v).head? = some x → front m v = .ok x) ∧ (∀ x, (elems m v).getLast? = some x → back m v = .ok x) := by
  have hl := elems_len h
  have acc : ∀ i x, (elems m v)[i]? = some x → rd m v i = .ok x := by
    intro i x hx
    have hi : i < size v := by rw [← hl]; exact (List.getElem?_eq_some_iff.mp hx).1
    obtain ⟨y, h1, h2⟩ := rd_ok h hi
    rw [h1] at hx; injection hx with hx; rw [← hx]; exact h2
  refine ⟨hl.symm, ?_, acc, fun i => ?_, fun x hx => ?_, fun x hx => ?_⟩
  · rw [← List.length_eq_zero_iff, hl]; unfold isEmpty size; have := h.1; simp; omega
  · unfold atChecked
    by_cases hi : i < size v
    · obtain ⟨y, h1, h2⟩ := rd_ok h hi
      have hn : ¬ v.null = true := fun hn => by have := h.2.2 hn; unfold size at hi; omega
      rw [if_neg hn, if_pos hi, h2, h1]
    · rw [List.getElem?_eq_none (by omega)]; split
      · rfl
      · rfl
  · rw [List.head?_eq_getElem?] at hx; exact acc 0 x hx
  · rw [List.getLast?_eq_getElem?] at hx
    have hi : (elems m v).length - 1 < (elems m v).length := (List.getElem?_eq_some_iff.mp hx).1
    have := acc _ x hx
    rw [hl] at this hi
    have h1 := h.1
    unfold back size at *
    rw [if_neg (by omega), show v.fin - 1 - v.beg = v.fin - v.beg - 1 by omega]; exact this

/-- C48, `copy` writes the elements of the substring. -/
theorem C48_copy {m : List α} {v : View} (h : Valid m v) (count position : Nat) : copy m v count position = .ok (((elems m v).drop position).take count) := by
  have hl := elems_len h
  have key : ∀ n i, i + n ≤ size v → copyLoop m v n i = .ok (((elems m v).drop i).take n) := by
    intro n
    induction n with
    | zero => intro i _; simp [copyLoop]
    | succ n ih =>
      intro i hi
      obtain ⟨x, h1, h2⟩ := rd_ok h (show i < size v by omega)
      simp only [copyLoop, h2, ih (i + 1) (by omega)]
      have hlt : i < (elems m v).length := by omega
      rw [List.drop_eq_getElem_cons hlt, List.take_succ_cons]
      rw [List.getElem?_eq_getElem hlt] at h1
      injection h1 with h1; rw [h1]
  unfold copy
  by_cases hp : position < size v
  · rw [if_pos hp, key _ _ (by omega)]
    congr 1; rw [List.take_eq_take_iff, List.length_drop, hl]; omega
  · rw [if_neg hp, List.drop_eq_nil_of_le (by omega)]; simp

/-! ## Comparison -/

/-- `lt` is a strict total order on characters. -/
structure Total (lt : α → α → Bool) : Prop where
  irrefl : ∀ a, lt a a = false
  asymm : ∀ a b, lt a b = true → lt b a = false
  tri : ∀ a b, lt a b = false → lt b a = false → a = b

/-- Lexicographic order: at the first difference the left is smaller, or it is a proper prefix. -/
def Before (lt : α → α → Bool) (s t : List α) : Prop := ∃ p x y s' t', (s = p ∧ t = p ++ y :: t') ∨ (s = p ++ x :: s' ∧ t = p ++ y :: t' ∧ lt x y = true)

theorem lex_iff {lt : α → α → Bool} (ht : Total lt) (s t : List α) : lexCompare lt s t = true ↔ Before lt s t := by
  induction s generalizing t with
  | nil =>
    cases t with
    | nil =>
      simp only [lexCompare, List.isEmpty_nil, Bool.not_true, Bool.and_false, Bool.false_eq_true, false_iff]
      rintro ⟨p, x, y, s', t', ⟨rfl, h⟩ | ⟨h, _, _⟩⟩ <;> simp at h
    | cons y t => simp only [lexCompare, List.isEmpty_nil, List.isEmpty_cons, Bool.not_false, Bool.and_self, true_iff]; exact ⟨[], y, y, [], t, .inl ⟨rfl, rfl⟩⟩
  | cons x s ih =>
    cases t with
    | nil =>
      simp only [lexCompare, List.isEmpty_cons, Bool.false_and, Bool.false_eq_true, false_iff]
      rintro ⟨p, x, y, s', t', ⟨rfl, h⟩ | ⟨_, h, _⟩⟩ <;> simp at h
    | cons y t =>
      simp only [lexCompare]
      cases h1 : lt x y
      · cases h2 : lt y x
        · have e := ht.tri x y h1 h2
          subst e
          simp only [Bool.false_eq_true, if_false]
          rw [ih]
          constructor
          · rintro ⟨p, a, b, s', t', ⟨rfl, rfl⟩ | ⟨rfl, rfl, h⟩⟩
            · exact ⟨x :: s, a, b, s', t', .inl ⟨rfl, rfl⟩⟩
            · exact ⟨x :: p, a, b, s', t', .inr ⟨rfl, rfl, h⟩⟩
          · rintro ⟨p, a, b, s', t', ⟨rfl, h⟩ | ⟨h, h', h''⟩⟩
            · injection h with _ h; exact ⟨s, a, b, s', t', .inl ⟨rfl, h⟩⟩
            · cases p with
              | nil =>
                injection h with e1 _; injection h' with e2 _
                rw [← e1, ← e2, ht.irrefl] at h''; cases h''
              | cons z p =>
                injection h with _ h; injection h' with _ h'
                exact ⟨p, a, b, s', t', .inr ⟨h, h', h''⟩⟩
        · simp only [Bool.false_eq_true, if_false, if_true, false_iff]
          rintro ⟨p, a, b, s', t', ⟨rfl, h⟩ | ⟨h, h', h''⟩⟩
          · injection h with e _; rw [e, ht.irrefl] at h2; cases h2
          · cases p with
            | nil =>
              injection h with e1 _; injection h' with e2 _
              rw [← e1, ← e2, h1] at h''; cases h''
            | cons z p =>
              injection h with e1 h; injection h' with e2 h'
              rw [e1, e2, ht.irrefl] at h2; cases h2
      · simp only [if_true, true_iff]
        exact ⟨[], x, y, s, t, .inr ⟨rfl, rfl, h1⟩⟩

theorem lex_irrefl {lt : α → α → Bool} (ht : Total lt) (s : List α) : lexCompare lt s s = false := by
  induction s with
  | nil => rfl
  | cons x s ih => simp [lexCompare, ht.irrefl, ih]

theorem lex_tri {lt : α → α → Bool} (ht : Total lt) (s t : List α) (h1 : lexCompare lt s t = false) (h2 : lexCompare lt t s = false) : s = t := by
  induction s generalizing t with
  | nil => cases t with
    | nil => rfl
    | cons y t => simp [lexCompare] at h1
  | cons x s ih => cases t with
    | nil => simp [lexCompare] at h2
    | cons y t =>
      simp only [lexCompare] at h1 h2
      cases ha : lt x y
      · cases hb : lt y x
        · simp only [ha, hb, Bool.false_eq_true, if_false] at h1 h2
          rw [ht.tri x y ha hb, ih t h1 h2]
        · simp [hb] at h2
      · simp [ha] at h1

theorem lex_asymm {lt : α → α → Bool} (ht : Total lt) (s t : List α) (h1 : lexCompare lt s t = true) : lexCompare lt t s = false := by
  induction s generalizing t with
  | nil => cases t with
    | nil => simp [lexCompare] at h1
    | cons y t => simp [lexCompare]
  | cons x s ih => cases t with
    | nil => simp [lexCompare] at h1
    | cons y t =>
      simp only [lexCompare] at h1 ⊢
      cases ha : lt x y
      · cases hb : lt y x
        · simp only [ha, hb, Bool.false_eq_true, if_false] at h1 ⊢
          exact ih t h1
        · simp [ha, hb] at h1
      · simp [ht.asymm x y ha]

/-- `r` is the result of a three-way comparison. -/
def Cmp (lt : α → α → Bool) (s t : List α) (r : Int) : Prop := (r = 0 ↔ s = t) ∧ (r = 1 ↔ Before lt t s) ∧ (r = -1 ↔ Before lt s t) ∧ (r = 0 ∨ r = 1 ∨ r = -1)

theorem cmp_lex {lt : α → α → Bool} (ht : Total lt) {s t : List α} {r : Int} (h : (s = t ∧ r = 0) ∨ (lexCompare lt t s = true ∧ r = 1) ∨ (lexCompare lt s t = true ∧ r = -1)) : Cmp lt s t r := by
  unfold Cmp
  rw [← lex_iff ht, ← lex_iff ht]
  rcases h with ⟨rfl, rfl⟩ | ⟨h, rfl⟩ | ⟨h, rfl⟩
  · simp [lex_irrefl ht]
  · have h2 := lex_asymm ht _ _ h
    have h3 : s ≠ t := fun e => by rw [e, lex_irrefl ht] at h; cases h
    simp [h, h2, h3]
  · have h2 := lex_asymm ht _ _ h
    have h3 : s ≠ t := fun e => by rw [e, lex_irrefl ht] at h; cases h
    simp [h, h2, h3]

theorem equal4_iff [DecidableEq α] (s t : List α) : equal4 (fun x y => x == y) s t = true ↔ s = t := by
  rw [C49_equal]; simp

theorem svEq_iff [DecidableEq α] {m m2 : List α} {v w : View} (hv : Valid m v) (hw : Valid m2 w) : svEq m m2 v w = true ↔ elems m v = elems m2 w := by
  unfold svEq
  rw [Bool.and_eq_true, equal4_iff]
  exact ⟨fun h => h.2, fun h => ⟨by rw [← elems_len hv, ← elems_len hw, h]; simp, h⟩⟩

theorem compare_cmp [DecidableEq α] {lt : α → α → Bool} (ht : Total lt) {m m2 : List α} {v w : View} (hv : Valid m v) (hw : Valid m2 w) : Cmp lt (elems m v) (elems m2 w) (compare lt m m2 v w) := by
  apply cmp_lex ht
  unfold compare
  cases h : svEq m m2 v w
  · have hne : elems m v ≠ elems m2 w := fun e => by rw [(svEq_iff hv hw).mpr e] at h; cases h
    simp only [Bool.false_eq_true, if_false]
    unfold svLt
    cases h2 : lexCompare lt (elems m2 w) (elems m v)
    · right; right
      refine ⟨?_, by simp⟩
      cases h3 : lexCompare lt (elems m v) (elems m2 w)
      · exact absurd (lex_tri ht _ _ h3 h2) hne
      · rfl
    · right; left; simp
  · left; exact ⟨(svEq_iff hv hw).mp h, by simp⟩

/-- C48, comparisons: `==`, `<` and `compare` of views are those of the character sequences. -/
theorem C48_compare [DecidableEq α] {lt : α → α → Bool} (ht : Total lt) {m m2 : List α} {v w : View} (hv : Valid m v) (hw : Valid m2 w) :
    (svEq m m2 v w = true ↔ elems m v = elems m2 w) ∧ (svLt lt m m2 v w = true ↔ Before lt (elems m v) (elems m2 w)) ∧ Cmp lt (elems m v) (elems m2 w) (compare lt m m2 v w) :=
  ⟨svEq_iff hv hw, lex_iff ht _ _, compare_cmp ht hv hw⟩

/-- The string at a `const T*`. -/
def cstr [DecidableEq α] (zero : α) (text : List α) : List α := text.takeWhile (fun x => decide (x ≠ zero))

/-- C48, `compare(text)` with a terminated text; the memory after the terminator is not read. -/
theorem C48_compare_text [DecidableEq α] {lt : α → α → Bool} (ht : Total lt) {zero : α} (s text : List α) (hz : zero ∈ text) : ∃ r, cmpText lt zero s text = .ok r ∧ Cmp lt s (cstr zero text) r := by
  have key : ∃ r, cmpText lt zero s text = .ok r ∧ ((s = cstr zero text ∧ r = 0) ∨ (lexCompare lt (cstr zero text) s = true ∧ r = 1) ∨ (lexCompare lt s (cstr zero text) = true ∧ r = -1)) := by
    induction s generalizing text with
    | nil =>
      cases text with
      | nil => simp at hz
      | cons t ts =>
        simp only [cmpText]
        by_cases h : t = zero
        · exact ⟨0, by rw [if_pos h], .inl ⟨by simp [cstr, h], rfl⟩⟩
        · exact ⟨-1, by rw [if_neg h], .inr (.inr ⟨by simp [cstr, h, lexCompare], rfl⟩)⟩
    | cons x s ih =>
      cases text with
      | nil => simp at hz
      | cons t ts =>
        simp only [cmpText]
        by_cases h : t = zero
        · exact ⟨1, by rw [if_pos h], .inr (.inl ⟨by simp [cstr, h, lexCompare], rfl⟩)⟩
        · rw [if_neg h]
          have e : cstr zero (t :: ts) = t :: cstr zero ts := by simp [cstr, h]
          rw [e]
          cases h1 : lt x t
          · cases h2 : lt t x
            · have := ht.tri x t h1 h2; subst this
              obtain ⟨r, e1, h3⟩ := ih ts (by simpa [Ne.symm h] using hz)
              refine ⟨r, by simp [e1], ?_⟩
              simpa [lexCompare, ht.irrefl] using h3
            · exact ⟨1, by simp, .inr (.inl ⟨by simp [lexCompare, h2], rfl⟩)⟩
          · exact ⟨-1, by simp, .inr (.inr ⟨by simp [lexCompare, h1], rfl⟩)⟩
  obtain ⟨r, e, h⟩ := key
  exact ⟨r, e, cmp_lex ht h⟩

theorem strlen_ok [DecidableEq α] {zero : α} (text : List α) (hz : zero ∈ text) : strlen zero text = .ok (cstr zero text).length := by
  induction text with
  | nil => simp at hz
  | cons t ts ih =>
    simp only [strlen]
    by_cases h : t = zero
    · simp [h, cstr]
    · rw [if_neg h, ih (by simpa [Ne.symm h] using hz)]; simp [cstr, h]

theorem substr_ok {m : List α} {v : View} (h : Valid m v) (p : Nat) (n : Option Nat) : ∃ w, substr m v p n = .ok w ∧ Valid m w ∧ elems m w = (Slice.substr p n).spec (elems m v) := by
  obtain ⟨w, e, h1, _, h3⟩ := exec_ok h (o := .substr p n) trivial
  exact ⟨w, e, h1, h3⟩

theorem cmp_zero {lt : α → α → Bool} {s t : List α} {r : Int} (h : Cmp lt s t r) : (r == 0) = true ↔ s = t := by rw [beq_iff_eq]; exact h.1

/-- C48, `starts_with` and `ends_with`, for views and for terminated texts. -/
theorem C48_starts_ends [DecidableEq α] {lt : α → α → Bool} (ht : Total lt) {m m2 : List α} {v w : View} (hv : Valid m v) (hw : Valid m2 w) {zero : α} (text : List α) (hz : zero ∈ text) :
    (∃ r, startsWith lt m m2 v w = .ok r ∧ (r = true ↔ elems m2 w <+: elems m v)) ∧ (∃ r, endsWith lt m m2 v w = .ok r ∧ (r = true ↔ elems m2 w <:+ elems m v)) ∧
    (∃ r, startsText lt zero m v text = .ok r ∧ (r = true ↔ cstr zero text <+: elems m v)) ∧ (∃ r, endsText lt zero m v text = .ok r ∧ (r = true ↔ cstr zero text <:+ elems m v)) := by
  have hlv := elems_len hv; have hlw := elems_len hw
  have hs := strlen_ok text hz
  refine ⟨?_, ?_, ?_, ?_⟩
  · unfold startsWith
    by_cases hle : size w ≤ size v
    · rw [if_pos hle]; unfold compareSub
      obtain ⟨s, e, h1, h2⟩ := substr_ok hv 0 (some (size w))
      rw [e]
      refine ⟨_, rfl, ?_⟩
      rw [cmp_zero (compare_cmp ht h1 hw), h2]; simp only [Slice.spec, List.drop_zero]
      rw [List.prefix_iff_eq_take, hlw]; exact eq_comm
    · rw [if_neg hle]; refine ⟨_, rfl, ?_⟩
      simp only [Bool.false_eq_true, false_iff]; intro h; have := h.length_le; omega
  · unfold endsWith
    by_cases hle : size w ≤ size v
    · rw [if_pos hle]; unfold compareSub
      obtain ⟨s, e, h1, h2⟩ := substr_ok hv (size v - size w) none
      rw [e]
      refine ⟨_, rfl, ?_⟩
      rw [cmp_zero (compare_cmp ht h1 hw), h2]; simp only [Slice.spec]
      rw [List.suffix_iff_eq_drop, hlw, hlv]; exact eq_comm
    · rw [if_neg hle]; refine ⟨_, rfl, ?_⟩
      simp only [Bool.false_eq_true, false_iff]; intro h; have := h.length_le; omega
  · unfold startsText; rw [hs]; dsimp only
    by_cases hle : (cstr zero text).length ≤ size v
    · rw [if_pos hle]
      obtain ⟨s, e, h1, h2⟩ := substr_ok hv 0 (some (cstr zero text).length)
      obtain ⟨r, e2, h3⟩ := C48_compare_text ht (elems m s) text hz
      rw [e]; dsimp only; rw [e2]
      refine ⟨_, rfl, ?_⟩
      rw [cmp_zero h3, h2]; simp only [Slice.spec, List.drop_zero]
      rw [List.prefix_iff_eq_take]; exact eq_comm
    · rw [if_neg hle]; refine ⟨_, rfl, ?_⟩
      simp only [Bool.false_eq_true, false_iff]; intro h; have := h.length_le; omega
  · unfold endsText; rw [hs]; dsimp only
    by_cases hle : (cstr zero text).length ≤ size v
    · rw [if_pos hle]
      obtain ⟨s, e, h1, h2⟩ := substr_ok hv (size v - (cstr zero text).length) (some (cstr zero text).length)
      obtain ⟨r, e2, h3⟩ := C48_compare_text ht (elems m s) text hz
      rw [e]; dsimp only; rw [e2]
      refine ⟨_, rfl, ?_⟩
      rw [cmp_zero h3, h2]; simp only [Slice.spec]
      rw [List.take_of_length_le (by rw [List.length_drop]; omega), List.suffix_iff_eq_drop, hlv]; exact eq_comm
    · rw [if_neg hle]; refine ⟨_, rfl, ?_⟩
      simp only [Bool.false_eq_true, false_iff]; intro h; have := h.length_le; omega

/-! ## Searching -/

/-- `t` occurs in `s` at position `i`. -/
def OccursAt (s t : List α) (i : Nat) : Prop := i ≤ s.length ∧ t <+: s.drop i

theorem matchAt_iff [DecidableEq α] (s t : List α) (i : Nat) : MatchAt (fun x y => x == y) s t i ↔ OccursAt s t i := by
  unfold MatchAt OccursAt
  constructor
  · rintro ⟨h1, h2⟩
    refine ⟨by omega, ?_⟩
    rw [List.prefix_iff_getElem?]
    intro j hj
    rw [List.getElem?_drop]
    have hl : i + j < s.length := by omega
    have := h2 j s[i + j] t[j] (List.getElem?_eq_getElem hl) (List.getElem?_eq_getElem hj)
    rw [List.getElem?_eq_getElem hl]; simp at this; rw [this]
  · rintro ⟨h0, h⟩
    have hlen := h.length_le; rw [List.length_drop] at hlen
    refine ⟨by omega, fun j x y hx hy => ?_⟩
    rw [List.prefix_iff_getElem?] at h
    have hj := (List.getElem?_eq_some_iff.mp hy).1
    have := h j hj
    rw [List.getElem?_drop, hx] at this
    rw [List.getElem?_eq_getElem hj] at hy
    injection hy with hy; injection this with this
    simp [this, hy]

theorem occurs_drop {s t : List α} {p i : Nat} (hp : p ≤ s.length) : OccursAt (s.drop p) t i ↔ OccursAt s t (p + i) := by
  unfold OccursAt; rw [List.drop_drop, List.length_drop]
  constructor
  · rintro ⟨h1, h2⟩; exact ⟨by omega, h2⟩
  · rintro ⟨h1, h2⟩; exact ⟨by omega, h2⟩

/-- C48, `find` and `contains`: the first occurrence of a non empty view from `position ≤ size()` on. -/
theorem C48_find [DecidableEq α] {m m2 : List α} {v w : View} (hv : Valid m v) (hw : Valid m2 w) (hne : elems m2 w ≠ []) {position : Nat} (hp : position ≤ size v) :
    (∃ r, find m m2 v w position = .ok r ∧ match r with
      | none => ∀ i, position ≤ i → ¬ OccursAt (elems m v) (elems m2 w) i
      | some k => position ≤ k ∧ OccursAt (elems m v) (elems m2 w) k ∧ ∀ i, position ≤ i → i < k → ¬ OccursAt (elems m v) (elems m2 w) i) := by
  have hlv := elems_len hv; have hlw := elems_len hw
  have hpos : 0 < (elems m2 w).length := List.length_pos_iff.mpr hne
  unfold find
  by_cases hlt : size v < size w
  · rw [if_pos hlt]; refine ⟨_, rfl, fun i _ h => ?_⟩
    have := h.2.length_le; rw [List.length_drop] at this; omega
  · rw [if_neg hlt]
    have h1 := hv.1; have h2 := hv.2.1
    have hs : size v = v.fin - v.beg := rfl
    rw [fwd_ok (fun hn => by have := hv.2.2 hn; omega) (by omega)]; dsimp only
    rw [if_neg (by omega)]
    have c := cut hv (b := position) (e := size v) hp (by omega)
    rw [show v.beg + size v = v.fin by omega] at c
    have hel : elems m { v with beg := v.beg + position } = (elems m v).drop position := by
      rw [c.2.2, List.take_of_length_le]; rw [List.length_drop]; omega
    rw [hel]
    obtain ⟨g1, g2, g3⟩ := C49_search (fun x y : α => x == y) (elems m2 w) ((elems m v).drop position)
    generalize search (fun x y : α => x == y) (elems m2 w) ((elems m v).drop position) = k at *
    have hd : ∀ i, MatchAt (fun x y => x == y) ((elems m v).drop position) (elems m2 w) i ↔ OccursAt (elems m v) (elems m2 w) (position + i) := fun i => by
      rw [matchAt_iff, occurs_drop (by omega)]
    rw [List.length_drop, hlv] at g2
    refine ⟨_, rfl, ?_⟩
    by_cases hk : v.beg + position + k = v.fin
    · rw [if_pos hk]
      intro i hi hoc
      rcases g3 with g3 | ⟨_, g3⟩
      · have := ((hd k).mp g3).2.length_le
        rw [List.length_drop] at this; omega
      · exact g3 (i - position) ((hd _).mpr (by rw [show position + (i - position) = i by omega]; exact hoc))
    · rw [if_neg hk]
      have e1 : v.beg + position + k - v.beg = position + k := by omega
      dsimp only; rw [e1]
      refine ⟨by omega, ?_, fun i hi hik hoc => ?_⟩
      · rcases g3 with g3 | ⟨g3, _⟩
        · exact (hd k).mp g3
        · rw [List.length_drop] at g3; omega
      · exact g1 (i - position) (by omega) ((hd _).mpr (by rw [show position + (i - position) = i by omega]; exact hoc))

theorem C48_contains [DecidableEq α] {m m2 : List α} {v w : View} (hv : Valid m v) (hw : Valid m2 w) (hne : elems m2 w ≠ []) :
    ∃ r, contains m m2 v w = .ok r ∧ (r = true ↔ elems m2 w <:+: elems m v) := by
  obtain ⟨r, e, h⟩ := C48_find hv hw hne (Nat.zero_le _)
  refine ⟨r.isSome, by unfold contains; rw [e], ?_⟩
  have occ : (∃ i, OccursAt (elems m v) (elems m2 w) i) ↔ elems m2 w <:+: elems m v := by
    constructor
    · rintro ⟨i, _, t, ht⟩
      exact ⟨(elems m v).take i, t, by rw [List.append_assoc, ht, List.take_append_drop]⟩
    · rintro ⟨a, b, hab⟩
      exact ⟨a.length, by rw [← hab]; simp, b, by rw [← hab, List.append_assoc, List.drop_left]⟩
  rw [← occ]
  cases r with
  | none => simp only [Option.isSome_none, Bool.false_eq_true, false_iff]; rintro ⟨i, hi⟩; exact h i (Nat.zero_le _) hi
  | some k => simp only [Option.isSome_some, true_iff]; exact ⟨k, h.2.1⟩

/-- C48 (partial), `rfind` without a position: the last occurrence of a non empty view.  With a position below the size the answer can be wrong: `rfind_not_found_wrong`, `rfind_position_wrong`. -/
theorem C48_rfind_partial [DecidableEq α] {m m2 : List α} {v w : View} (hv : Valid m v) (hw : Valid m2 w) (hne : elems m2 w ≠ []) {position : Option Nat} (hp : ∀ p, position = some p → size v ≤ p) :
    ∃ r, rfind m m2 v w position = .ok r ∧ match r with
      | none => ∀ i, ¬ OccursAt (elems m v) (elems m2 w) i
      | some k => OccursAt (elems m v) (elems m2 w) k ∧ ∀ i, k < i → ¬ OccursAt (elems m v) (elems m2 w) i := by
  have hlv := elems_len hv; have hlw := elems_len hw
  have hpos : 0 < (elems m2 w).length := List.length_pos_iff.mpr hne
  unfold rfind
  by_cases hlt : size v < size w
  · rw [if_pos hlt]; refine ⟨_, rfl, fun i h => ?_⟩
    have := h.2.length_le; rw [List.length_drop] at this; omega
  · rw [if_neg hlt]
    have h1 := hv.1; have h2 := hv.2.1
    have hs : size v = v.fin - v.beg := rfl
    have em : min (position.getD (size v)) (size v) = size v := by
      cases position with
      | none => simp
      | some p => have := hp p rfl; simp; omega
    rw [em, fwd_ok (fun hn => by have := hv.2.2 hn; omega) (by omega)]; dsimp only
    have e2 : ({ v with fin := v.beg + size v } : View) = v := by rw [show v.beg + size v = v.fin by omega]
    rw [e2]
    obtain ⟨r, e, h⟩ := C49_find_end (fun x y : α => x == y) (elems m2 w) (elems m v) hne
    rw [e]
    refine ⟨_, rfl, ?_⟩
    simp only [matchAt_iff] at h
    rcases h with ⟨g1, g2⟩ | ⟨g1, g2⟩
    · have := g1.2.length_le; rw [List.length_drop] at this
      rw [if_neg (by omega)]; exact ⟨g1, g2⟩
    · rw [if_pos (by omega)]; exact g2

theorem oneOf_ok [DecidableEq α] {m2 : List α} {w : View} (hw : Valid m2 w) (x : α) : oneOf m2 w x (size w) 0 = .ok (decide (x ∈ elems m2 w)) := by
  have hl := elems_len hw
  have key : ∀ n j, j + n = size w → oneOf m2 w x n j = .ok (decide (x ∈ (elems m2 w).drop j)) := by
    intro n
    induction n with
    | zero => intro j hj; rw [List.drop_eq_nil_of_le (by omega)]; simp [oneOf]
    | succ n ih =>
      intro j hj
      obtain ⟨y, h1, h2⟩ := rd_ok hw (show j < size w by omega)
      have hlt : j < (elems m2 w).length := by omega
      rw [List.getElem?_eq_getElem hlt] at h1
      injection h1 with h1
      rw [List.drop_eq_getElem_cons hlt, h1]
      simp only [oneOf, h2, ih (j + 1) (by omega)]
      by_cases h : x = y
      · simp [h]
      · simp [h]
  exact key _ 0 (by omega)

/-- C48, `find_first_of` (`want = true`) and `find_first_not_of`: the first position from `position` on whose character is (not) one of the given ones; any position may be given. -/
theorem C48_find_first [DecidableEq α] {m m2 : List α} {v w : View} (hv : Valid m v) (hw : Valid m2 w) (want : Bool) (position : Nat) :
    ∃ r, findFirst m m2 v w want position = .ok r ∧ match r with
      | none => ∀ i x, position ≤ i → (elems m v)[i]? = some x → decide (x ∈ elems m2 w) = !want
      | some k => position ≤ k ∧ (∃ x, (elems m v)[k]? = some x ∧ decide (x ∈ elems m2 w) = want) ∧ ∀ i x, position ≤ i → i < k → (elems m v)[i]? = some x → decide (x ∈ elems m2 w) = !want := by
  have hlv := elems_len hv
  have key : ∀ n i, i + n = size v → ∃ r, firstLoop m m2 v w want n i = .ok r ∧ match r with
      | none => ∀ j x, i ≤ j → (elems m v)[j]? = some x → decide (x ∈ elems m2 w) = !want
      | some k => i ≤ k ∧ (∃ x, (elems m v)[k]? = some x ∧ decide (x ∈ elems m2 w) = want) ∧ ∀ j x, i ≤ j → j < k → (elems m v)[j]? = some x → decide (x ∈ elems m2 w) = !want := by
    intro n
    induction n with
    | zero => intro i hi; exact ⟨none, rfl, fun j x hj hx => by have := (List.getElem?_eq_some_iff.mp hx).1; omega⟩
    | succ n ih =>
      intro i hi
      obtain ⟨y, h1, h2⟩ := rd_ok hv (show i < size v by omega)
      simp only [firstLoop, h2, oneOf_ok hw]
      by_cases hf : decide (y ∈ elems m2 w) = want
      · refine ⟨some i, by simp [hf], Nat.le_refl _, ⟨y, h1, hf⟩, fun j x h3 h4 => by omega⟩
      · rw [if_neg (by simpa using hf)]
        have hy : decide (y ∈ elems m2 w) = !want := by revert hf; cases want <;> cases decide (y ∈ elems m2 w) <;> simp
        obtain ⟨r, e, h⟩ := ih (i + 1) (by omega)
        refine ⟨r, e, ?_⟩
        have one : ∀ j x, i ≤ j → ¬ i + 1 ≤ j → (elems m v)[j]? = some x → decide (x ∈ elems m2 w) = !want := by
          intro j x h3 h4 hx
          rw [show j = i by omega, h1] at hx; injection hx with hx; rw [← hx]; exact hy
        cases r with
        | none => intro j x h3 hx; by_cases h4 : i + 1 ≤ j
                  · exact h j x h4 hx
                  · exact one j x h3 h4 hx
        | some k =>
          obtain ⟨g1, g2, g3⟩ := h
          refine ⟨by omega, g2, fun j x h3 h5 hx => ?_⟩
          by_cases h4 : i + 1 ≤ j
          · exact g3 j x h4 h5 hx
          · exact one j x h3 h4 hx
  unfold findFirst
  by_cases hp : position < size v
  · rw [if_pos hp]; exact key _ _ (by omega)
  · rw [if_neg hp]; exact ⟨none, rfl, fun i x hi hx => by have := (List.getElem?_eq_some_iff.mp hx).1; omega⟩

/-- C48, `find_last_of` and `find_last_not_of`: the last position up to `position` (`none`: from the end) whose character is (not) one of the given ones. -/
theorem C48_find_last [DecidableEq α] {m m2 : List α} {v w : View} (hv : Valid m v) (hw : Valid m2 w) (want : Bool) (position : Option Nat) :
    ∃ r, View.findLast m m2 v w want position = .ok r ∧ match r with
      | none => ∀ i x, (∀ p, position = some p → i ≤ p) → (elems m v)[i]? = some x → decide (x ∈ elems m2 w) = !want
      | some k => (∀ p, position = some p → k ≤ p) ∧ (∃ x, (elems m v)[k]? = some x ∧ decide (x ∈ elems m2 w) = want) ∧
          ∀ i x, (∀ p, position = some p → i ≤ p) → k < i → (elems m v)[i]? = some x → decide (x ∈ elems m2 w) = !want := by
  have hlv := elems_len hv
  have key : ∀ n, n ≤ size v → ∃ r, lastLoop m m2 v w want n = .ok r ∧ match r with
      | none => ∀ j x, j < n → (elems m v)[j]? = some x → decide (x ∈ elems m2 w) = !want
      | some k => k < n ∧ (∃ x, (elems m v)[k]? = some x ∧ decide (x ∈ elems m2 w) = want) ∧ ∀ j x, k < j → j < n → (elems m v)[j]? = some x → decide (x ∈ elems m2 w) = !want := by
    intro n
    induction n with
    | zero => intro _; exact ⟨none, rfl, fun j x hj => by omega⟩
    | succ n ih =>
      intro hn
      obtain ⟨y, h1, h2⟩ := rd_ok hv (show n < size v by omega)
      simp only [lastLoop, h2, oneOf_ok hw]
      by_cases hf : decide (y ∈ elems m2 w) = want
      · exact ⟨some n, by simp [hf], by omega, ⟨y, h1, hf⟩, fun j x h3 h4 => by omega⟩
      · rw [if_neg (by simpa using hf)]
        have hy : decide (y ∈ elems m2 w) = !want := by revert hf; cases want <;> cases decide (y ∈ elems m2 w) <;> simp
        obtain ⟨r, e, h⟩ := ih (by omega)
        refine ⟨r, e, ?_⟩
        have one : ∀ j x, ¬ j < n → j < n + 1 → (elems m v)[j]? = some x → decide (x ∈ elems m2 w) = !want := by
          intro j x h3 h4 hx
          rw [show j = n by omega, h1] at hx; injection hx with hx; rw [← hx]; exact hy
        cases r with
        | none => intro j x h3 hx; by_cases h4 : j < n
                  · exact h j x h4 hx
                  · exact one j x h4 h3 hx
        | some k =>
          obtain ⟨g1, g2, g3⟩ := h
          refine ⟨by omega, g2, fun j x h3 h5 hx => ?_⟩
          by_cases h4 : j < n
          · exact g3 j x h3 h4 hx
          · exact one j x h4 h5 hx
  unfold View.findLast
  by_cases he : isEmpty v = true
  · rw [if_pos he]
    refine ⟨none, rfl, fun i x _ hx => ?_⟩
    have := (List.getElem?_eq_some_iff.mp hx).1
    unfold isEmpty at he; unfold size at hlv; simp at he; omega
  · rw [if_neg he]
    have hpos : 0 < size v := by unfold isEmpty at he; unfold size; have := hv.1; simp at he; omega
    obtain ⟨r, e, h⟩ := key (min (position.getD (size v - 1)) (size v - 1) + 1) (by omega)
    refine ⟨r, e, ?_⟩
    have bound : ∀ i, i < size v → ((∀ p, position = some p → i ≤ p) ↔ i < min (position.getD (size v - 1)) (size v - 1) + 1) := by
      intro i hi
      cases position with
      | none => simp; omega
      | some q => simp; omega
    cases r with
    | none => intro i x hi hx
              have hl := (List.getElem?_eq_some_iff.mp hx).1
              exact h i x ((bound i (by omega)).mp hi) hx
    | some k =>
      obtain ⟨g1, g2, g3⟩ := h
      refine ⟨(bound k (by omega)).mpr g1, g2, fun i x hi hk hx => ?_⟩
      have hl := (List.getElem?_eq_some_iff.mp hx).1
      exact g3 i x hk ((bound i (by omega)).mp hi) hx

/-- C48, spans: `==` says that the spans are the same range, `etl::equal` that the elements are equal. -/
theorem C48_span_equal [DecidableEq α] {m : List α} {v w : View} (hv : Valid m v) (hw : Valid m w) : (spanEq v w = true ↔ v = w) ∧ (spanEqual m v w = true ↔ elems m v = elems m w) := by
  have h1 : spanEq v w = true ↔ v = w := by
    obtain ⟨a1, a2, a3⟩ := v; obtain ⟨b1, b2, b3⟩ := w
    unfold spanEq size
    have := hv.1; have := hw.1; simp only at *
    simp only [Bool.and_eq_true, beq_iff_eq, View.mk.injEq]
    constructor
    · rintro ⟨⟨e1, e2⟩, e3⟩; refine ⟨?_, ?_, ?_⟩ <;> first | assumption | omega
    · rintro ⟨e1, e2, e3⟩; refine ⟨⟨?_, ?_⟩, ?_⟩ <;> first | assumption | omega
  refine ⟨h1, ?_⟩
  unfold spanEqual
  rw [Bool.or_eq_true, Bool.or_eq_true, h1, equal4_iff, Bool.and_eq_true]
  have ev : ∀ x, Valid m x → isEmpty x = true → elems m x = [] := fun x hx he => (C48_access hx).2.1.mp he
  constructor
  · rintro ((⟨a, b⟩ | h) | h)
    · rw [ev v hv a, ev w hw b]
    · rw [h]
    · exact h
  · exact fun h => .inr h

/-! ## Examples -/

example : Valid [1, 2, 3, 4, 5] (whole [1, 2, 3, 4, 5]) := ⟨by decide, by decide, by decide⟩
example : Legal (elems [1, 2, 3, 4, 5, 6] (whole [1, 2, 3, 4, 5, 6])) [.sub 1 none, .pre 1, .substr 1 (some 9), .last 2] := by simp [Legal, Slice.pre?, Slice.spec, elems, whole]
example : (run [1, 2, 3, 4, 5, 6] (whole [1, 2, 3, 4, 5, 6]) [.sub 1 none, .pre 1, .substr 1 (some 9), .last 2]).toOption = some ⟨false, 4, 6⟩ := by decide
example : Total (fun a b : Nat => decide (a < b)) := ⟨by simp, by intro a b; simp; omega, by intro a b; simp; omega⟩
example : (find [7, 8, 9, 8, 9] [8, 9] (whole [7, 8, 9, 8, 9]) (whole [8, 9]) 2).toOption = some (some 3) := by decide
example : (rfind [7, 8, 9, 8, 9, 1] [8, 9] (whole [7, 8, 9, 8, 9, 1]) (whole [8, 9]) none).toOption = some (some 3) := by decide

/-! ## Findings -/

/-- `rfind` of a text that does not occur before `position` returns `position` instead of `npos`: "abc".rfind("x", 1) is 1. -/
theorem rfind_not_found_wrong : (rfind [1, 2, 3] [9] (whole [1, 2, 3]) (whole [9]) (some 1)).toOption = some (some 1) ∧ ¬ OccursAt [1, 2, 3] [9] 1 := ⟨by decide, by rintro ⟨_, h⟩; revert h; decide⟩
/-- `rfind` finds only occurrences that end at or before `position`, not those that start there: "abc".rfind("c", 2) is 2 by accident, "abcd".rfind("b", 1) is 1, but "abab".rfind("ab", 2) is 0, not 2. -/
theorem rfind_position_wrong : (rfind [1, 2, 1, 2] [1, 2] (whole [1, 2, 1, 2]) (whole [1, 2]) (some 2)).toOption = some (some 0) ∧ OccursAt [1, 2, 1, 2] [1, 2] 2 := ⟨by decide, by decide, by decide⟩
/-- `find` does not check the position: a position beyond the size runs past the end. -/
theorem find_position_unchecked : find [1, 2, 3] [2] ⟨false, 0, 2⟩ (whole [2]) 3 = .error .outOfBounds := by decide
/-- The empty view is found everywhere but at the end (there `npos`, where `std::string_view` says `size()`); so it is not found in an empty view, and `rfind` never finds it. -/
theorem find_empty_at_end : (find [1, 2] ([] : List Nat) (whole [1, 2]) View.empty 2).toOption = some none ∧ (find [1, 2] ([] : List Nat) (whole [1, 2]) View.empty 1).toOption = some (some 1) ∧
    (rfind [1, 2] ([] : List Nat) (whole [1, 2]) View.empty none).toOption = some none := by decide
/-- A `span<T, 3>` made of a pointer and the size 2 has size 3: its last element is outside of what it was made from. -/
theorem fixed_span_ignores_size : size (fixed 3 0 2) = 3 ∧ at? [1, 2] (fixed 3 0 2) 2 = .error .outOfBounds := by decide
/-- `first(count)` with a count above the size is not checked and leaves the parent if the source is longer. -/
theorem first_unchecked : (first [1, 2, 3] ⟨false, 0, 1⟩ 3).toOption = some ⟨false, 0, 3⟩ := by decide

end Etl.View
