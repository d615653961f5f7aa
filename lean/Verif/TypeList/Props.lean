import Verif.TypeList.Model
import Mathlib.Tactic.Linarith
/-!
# C103: programs over lists of types
-/
namespace Etl.TypeList

variable {τ : Type} [DecidableEq τ]

/-! ## Indexing -/

theorem nth_eq (ts : List τ) (n : Nat) : nthType n ts = ts[n]? := by
  induction ts generalizing n with
  | nil => cases n <;> rfl
  | cons t ts ih =>
    cases n with
    | zero => rfl
    | succ n =>
      rw [nthType, List.getElem?_cons_succ]
      split_ifs with h
      · exact ih n
      · rw [List.getElem?_eq_none (by omega)]

theorem helper_eq (ts : List τ) (i n : Nat) (h : n ≤ i) (hi : i < n + ts.length) : typeFromIndexHelper i n ts = ts[i - n]? := by
  induction ts generalizing n with
  | nil => simp at hi; omega
  | cons t ts ih =>
    cases ts with
    | nil =>
      simp at hi
      rw [show i - n = 0 by omega]; rfl
    | cons u us =>
      rw [typeFromIndexHelper]
      · split_ifs with he
        · rw [show i - n = 0 by omega]; rfl
        · rw [ih (n + 1) (by omega) (by simp at hi ⊢; omega), show i - n = (i - (n + 1)) + 1 by omega, List.getElem?_cons_succ]
      · simp

/-- **C103**, indexing: `nth_type`, `type_select` and `parameter_pack::type_from_index` give the type at the index, and do not compile beyond
the end of the list. -/
theorem C103_nth (ts : List τ) (i : Nat) : nthType i ts = ts[i]? ∧ typeFromIndex i ts = ts[i]? := by
  refine ⟨nth_eq ts i, ?_⟩
  unfold typeFromIndex
  split_ifs with h
  · rw [helper_eq ts i 0 (by omega) (by omega)]; rfl
  · rw [List.getElem?_eq_none (by omega)]

theorem isOneOf_iff (t : τ) (ts : List τ) : isOneOf t ts = true ↔ t ∈ ts := by
  induction ts with
  | nil => simp [isOneOf]
  | cons u us ih => cases us with
    | nil => simp [isOneOf]
    | cons v vs => rw [isOneOf] <;> simp [ih]

theorem indexHelper_pos (t : τ) (ts : List τ) (h : ts ≠ []) : 0 < indexOfTypeHelper t ts := by
  cases ts with
  | nil => exact absurd rfl h
  | cons u us => cases us with
    | nil => simp [indexOfTypeHelper]
    | cons v vs => rw [indexOfTypeHelper] <;> first | (split_ifs <;> omega) | simp

theorem indexHelper_eq (t : τ) (ts : List τ) (h : t ∈ ts) : indexOfTypeHelper t ts = ts.idxOf t + 1 := by
  induction ts with
  | nil => simp at h
  | cons u us ih =>
    cases us with
    | nil =>
      have : t = u := by simpa using h
      subst this
      simp [indexOfTypeHelper]
    | cons v vs =>
      rw [indexOfTypeHelper]
      · split_ifs with he
        · subst he; simp
        · have : t ∈ v :: vs := by
            rcases List.mem_cons.1 h with h | h
            · exact absurd h he
            · exact h
          have hc : (u :: v :: vs).idxOf t = (v :: vs).idxOf t + 1 := by
            rw [List.idxOf_cons (x := u)]
            have : (u == t) = false := by simpa using Ne.symm he
            rw [this]; rfl
          rw [ih this, hc]; omega
      · simp

/-- **C103**, the index of a type: defined for exactly the types of the list, and the first position of the type. -/
theorem C103_index_of (t : τ) (ts : List τ) (i : Nat) : indexOfType t ts = some i ↔ ts[i]? = some t ∧ ∀ j, j < i → ts[j]? ≠ some t := by
  unfold indexOfType
  by_cases h : t ∈ ts
  · rw [if_pos ((isOneOf_iff t ts).2 h), indexHelper_eq t ts h, Nat.add_sub_cancel]
    have hlt := List.idxOf_lt_length_iff.2 h
    have hget : ts[ts.idxOf t]? = some t := by
      rw [List.getElem?_eq_getElem hlt, List.getElem_idxOf]
    have hfirst : ∀ j, j < ts.idxOf t → ts[j]? ≠ some t := by
      intro j hj he
      have hj' : j < ts.length := by omega
      rw [List.getElem?_eq_getElem hj'] at he
      simp only [Option.some.injEq] at he
      have := List.not_of_lt_findIdx (p := (· == t)) (xs := ts) (i := j) hj
      simp [he] at this
    constructor
    · intro he; simp only [Option.some.injEq] at he; subst he; exact ⟨hget, hfirst⟩
    · rintro ⟨h1, h2⟩
      rcases Nat.lt_trichotomy i (ts.idxOf t) with hlt' | heq | hgt
      · exact absurd h1 (hfirst i hlt')
      · rw [heq]
      · exact absurd hget (h2 _ hgt)
  · rw [if_neg (fun hh => h ((isOneOf_iff t ts).1 hh))]
    constructor
    · intro h'; cases h'
    · rintro ⟨h1, _⟩
      exact absurd (List.mem_of_getElem? h1) h

/-- **C103**: in a list without duplicates, index and type determine each other. -/
theorem C103_inverse (ts : List τ) (h : hasDuplicates ts = false) (t : τ) (i : Nat) : indexOfType t ts = some i ↔ typeFromIndex i ts = some t := by
  have nodup : ∀ ts : List τ, hasDuplicates ts = false → ts.Nodup := by
    intro ts
    induction ts with
    | nil => intro _; exact List.nodup_nil
    | cons u us ih =>
      intro h
      cases us with
      | nil => simp
      | cons v vs =>
        rw [hasDuplicates] at h
        · split_ifs at h with hm
          have hm' : u ∉ v :: vs := fun hh => hm ((isOneOf_iff u _).2 hh)
          exact List.nodup_cons.2 ⟨hm', ih h⟩
        · simp
  have hn := nodup ts h
  rw [C103_index_of, (C103_nth ts i).2]
  constructor
  · exact fun h => h.1
  · intro h1
    refine ⟨h1, fun j hj h2 => ?_⟩
    have hi : i < ts.length := by
      by_contra hc
      rw [List.getElem?_eq_none (by omega)] at h1; cases h1
    rw [List.getElem?_eq_getElem hi] at h1
    rw [List.getElem?_eq_getElem (by omega : j < ts.length)] at h2
    simp only [Option.some.injEq] at h1 h2
    have := (List.getElem_inj hn).1 (h1.trans h2.symm)
    omega

example : hasDuplicates [3, 1, 2] = false ∧ indexOfType 2 [3, 1, 2] = some 2 := by decide

/-- **C103**, duplicates: `has_duplicates`, `count_of`, `has_duplicates_of`, `is_one_of`. -/
theorem C103_duplicates (ts : List τ) (t : τ) : (hasDuplicates ts = true ↔ ¬ ts.Nodup) ∧ countOf t ts = ts.count t ∧ (hasDuplicatesOf t ts = true ↔ 2 ≤ ts.count t) ∧ (isOneOf t ts = true ↔ t ∈ ts) := by
  have hc : countOf t ts = ts.count t := by
    induction ts with
    | nil => rfl
    | cons u us ih =>
      rw [countOf, ih, List.count_cons]
      by_cases h : t = u
      · subst h; simp; omega
      · simp [h, Ne.symm h]
  refine ⟨?_, hc, by simp [hasDuplicatesOf, hc]; omega, isOneOf_iff t ts⟩
  induction ts with
  | nil => simp [hasDuplicates]
  | cons u us ih =>
    cases us with
    | nil => simp [hasDuplicates]
    | cons v vs =>
      rw [hasDuplicates]
      · rw [List.nodup_cons, not_and_or, not_not, ← isOneOf_iff]
        split_ifs with h
        · simp [h]
        · have hc' : countOf t (v :: vs) = (v :: vs).count t := by
            have := hc
            rw [countOf, List.count_cons] at this
            by_cases h : t = u
            · subst h; simp at this; omega
            · simp [h, Ne.symm h] at this; exact this
          rw [ih hc']
          simp [h]
      · simp

/-! ## Lists -/

/-- **C103**, selection and concatenation of lists of types, and index sequences. -/
theorem C103_lists (ts : List τ) (is : List Nat) (l : List τ) (ls : List (List τ)) (n : Nat) :
    typeListSelect ts is = is.mapM (fun i => ts[i]?) ∧ typeListCat l ls = (l :: ls).flatten ∧ makeIndexSequence n = List.range n ∧
    typeListSelect ts (makeIndexSequence ts.length) = some ts := by
  have sel : ∀ is, typeListSelect ts is = is.mapM (fun i => ts[i]?) := by
    intro is
    induction is with
    | nil => rfl
    | cons i is ih =>
      rw [typeListSelect, ih, nth_eq, List.mapM_cons]
      cases ts[i]? with
      | none => rfl
      | some t => cases List.mapM (fun i => ts[i]?) is <;> rfl
  have seq : ∀ n acc, makeIndexSequenceAux n acc = List.range n ++ acc := by
    intro n
    induction n with
    | zero => intro acc; rfl
    | succ n ih => intro acc; rw [makeIndexSequenceAux, ih, List.range_succ, List.append_assoc]; rfl
  have seq' : ∀ n, makeIndexSequence n = List.range n := fun n => by rw [makeIndexSequence, seq, List.append_nil]
  refine ⟨sel is, ?_, seq' n, ?_⟩
  · induction ls generalizing l with
    | nil => simp [typeListCat]
    | cons l2 ls ih => rw [typeListCat, ih]; simp
  · rw [sel, seq']
    have : ∀ (pre post : List τ), ts = pre ++ post → (List.range' pre.length post.length).mapM (fun i => ts[i]?) = some post := by
      intro pre post
      induction post generalizing pre with
      | nil => intro _; rfl
      | cons p ps ih =>
        intro he
        rw [List.length_cons, List.range'_succ, List.mapM_cons]
        have h1 : ts[pre.length]? = some p := by rw [he]; simp
        have h2 := ih (pre ++ [p]) (by rw [he]; simp)
        rw [List.length_append, List.length_singleton] at h2
        rw [h1, h2]; rfl
    have := this [] ts rfl
    rw [List.length_nil, ← List.range_eq_range'] at this
    exact this

/-! ## Lookup -/

theorem cons_cases {α β : Type} (f : List α → β) (g : α → List α → β) (hnil : ∀ p, f [p] = g p []) (hcons : ∀ p q rest, f (p :: q :: rest) = g p (q :: rest)) (p : α) (rest : List α) : f (p :: rest) = g p rest := by
  cases rest with
  | nil => exact hnil p
  | cons q rest => exact hcons p q rest

/-- **C103**, lookup: the first pair with the id (or the type) is found, and without one the program does not compile. -/
theorem C103_lookup (id : Int) (t : τ) (ps : List (τ × Int)) (qs : List (τ × τ)) :
    typeFromId id ps = (ps.find? fun p => id = p.2).map Prod.fst ∧ typeFromType t qs = (qs.find? fun p => t = p.1).map Prod.snd := by
  constructor
  · induction ps with
    | nil => rfl
    | cons p ps ih =>
      have : typeFromId id (p :: ps) = if id = p.2 then some p.1 else typeFromId id ps := by
        cases ps with
        | nil => rfl
        | cons q rest => rw [typeFromId]; simp
      rw [this, ih, List.find?_cons]
      by_cases h : id = p.2 <;> simp [h]
  · induction qs with
    | nil => rfl
    | cons p ps ih =>
      have : typeFromType t (p :: ps) = if t = p.1 then some p.2 else typeFromType t ps := by
        cases ps with
        | nil => rfl
        | cons q rest => rw [typeFromType]; simp
      rw [this, ih, List.find?_cons]
      by_cases h : t = p.1 <;> simp [h]

/-- **C103**: the id of a type is that of the first pair with it, for ids of `int` other than -1, on a platform where `size_t` is at least
as wide as `int`. -/
theorem C103_id_from_type (w : Nat) (hw : 32 ≤ w) (t : τ) (ps : List (τ × Int)) (hids : ∀ p ∈ ps, 0 ≤ p.2 ∧ p.2 < 2 ^ 31) :
    idFromType w t ps = (ps.find? fun p => t = p.1).map fun p => p.2.toNat := by
  have h32 : (2 : Nat) ^ 32 ≤ 2 ^ w := Nat.pow_le_pow_right (by omega) hw
  have h32' : (2 : Int) ^ 32 ≤ 2 ^ w := by exact_mod_cast h32
  have key : idFromTypeHelper w t ps = match ps.find? fun p => t = p.1 with
      | some p => p.2.toNat
      | none => 2 ^ w - 1 := by
    induction ps with
    | nil => rfl
    | cons p ps ih =>
      have hp := hids p (by simp)
      have hmod : (p.2 % 2 ^ w).toNat = p.2.toNat := by rw [Int.emod_eq_of_lt hp.1 (by omega)]
      have : idFromTypeHelper w t (p :: ps) = if t = p.1 then p.2.toNat else idFromTypeHelper w t ps := by
        cases ps with
        | nil => simp only [idFromTypeHelper, hmod]
        | cons q rest => rw [idFromTypeHelper, hmod]; simp
      rw [this, ih (fun q hq => hids q (List.mem_cons_of_mem _ hq)), List.find?_cons]
      by_cases h : t = p.1 <;> simp [h]
  unfold idFromType
  rw [key]
  cases hf : ps.find? fun p => t = p.1 with
  | none => simp
  | some p =>
    have hp := hids p (List.mem_of_find?_eq_some hf)
    rw [if_neg (by simp only; omega)]; rfl

/-- **Finding** (C103): the id -1 is taken for "unknown": `id_from_type` of a type registered with it does not compile. -/
theorem C103_id_minus_one (w : Nat) (t : τ) : idFromType w t [(t, -1)] = none := by
  have h1 : (-1 : Int) % 2 ^ w = 2 ^ w - 1 := by
    rcases Nat.eq_zero_or_pos w with rfl | h
    · rfl
    · have h2 : (2 : Int) ≤ 2 ^ w := by
        calc (2 : Int) = 2 ^ 1 := rfl
          _ ≤ 2 ^ w := pow_le_pow_right₀ (by omega) h
      have : (-1 : Int) % 2 ^ w = (-1 + 1 * 2 ^ w) % 2 ^ w := (Int.add_mul_emod_self_right ..).symm
      rw [this, Int.emod_eq_of_lt (by omega) (by omega)]; omega
  have h3 : idFromTypeHelper w t [(t, -1)] = 2 ^ w - 1 := by
    simp only [idFromTypeHelper, if_true, h1]
    have : ((2 : Int) ^ w - 1) = ((2 ^ w - 1 : Nat) : Int) := by
      rw [Int.natCast_sub Nat.one_le_two_pow]; push_cast; rfl
    rw [this]; exact Int.toNat_natCast _
  simp [idFromType, h3]

/-! ## Extremes and best fits -/

/-- **C103**, `largest_type` (and `largest_alignment`): one of the types, none larger, and strictly larger than all after it. -/
theorem C103_largest (measure : τ → Nat) (ts : List τ) (h : ts ≠ []) :
    ∃ pre t post, ts = pre ++ t :: post ∧ largestType measure ts = some t ∧ (∀ u ∈ pre, measure u ≤ measure t) ∧ ∀ u ∈ post, measure u < measure t := by
  induction ts with
  | nil => exact absurd rfl h
  | cons t ts ih =>
    cases ts with
    | nil => exact ⟨[], t, [], rfl, rfl, by simp, by simp⟩
    | cons v vs =>
      obtain ⟨pre, m, post, h1, h2, h3, h4⟩ := ih (by simp)
      have e : largestType measure (t :: v :: vs) = some (if measure t > measure m then t else m) := by
        rw [largestType, h2]; simp
      by_cases hg : measure t > measure m
      · refine ⟨[], t, v :: vs, rfl, by rw [e, if_pos hg], by simp, ?_⟩
        intro u hu
        rw [h1] at hu
        rcases List.mem_append.1 hu with hu | hu
        · exact Nat.lt_of_le_of_lt (h3 u hu) hg
        · rcases List.mem_cons.1 hu with rfl | hu
          · exact hg
          · exact Nat.lt_trans (h4 u hu) hg
      · refine ⟨t :: pre, m, post, by rw [h1]; rfl, by rw [e, if_neg hg], ?_, h4⟩
        intro u hu
        rcases List.mem_cons.1 hu with rfl | hu
        · omega
        · exact h3 u hu

/-- **C103**, `smallest_type`. -/
theorem C103_smallest (measure : τ → Nat) (ts : List τ) (h : ts ≠ []) :
    ∃ pre t post, ts = pre ++ t :: post ∧ smallestType measure ts = some t ∧ (∀ u ∈ pre, measure t ≤ measure u) ∧ ∀ u ∈ post, measure t < measure u := by
  induction ts with
  | nil => exact absurd rfl h
  | cons t ts ih =>
    cases ts with
    | nil => exact ⟨[], t, [], rfl, rfl, by simp, by simp⟩
    | cons v vs =>
      obtain ⟨pre, m, post, h1, h2, h3, h4⟩ := ih (by simp)
      have e : smallestType measure (t :: v :: vs) = some (if measure t < measure m then t else m) := by
        rw [smallestType, h2]; simp
      by_cases hg : measure t < measure m
      · refine ⟨[], t, v :: vs, rfl, by rw [e, if_pos hg], by simp, ?_⟩
        intro u hu
        rw [h1] at hu
        rcases List.mem_append.1 hu with hu | hu
        · exact Nat.lt_of_lt_of_le hg (h3 u hu)
        · rcases List.mem_cons.1 hu with rfl | hu
          · exact hg
          · exact Nat.lt_trans hg (h4 u hu)
      · refine ⟨t :: pre, m, post, by rw [h1]; rfl, by rw [e, if_neg hg], ?_, h4⟩
        intro u hu
        rcases List.mem_cons.1 hu with rfl | hu
        · omega
        · exact h3 u hu

example : largestType (fun n : Nat => n % 10) [13, 25, 5, 4] = some 5 ∧ smallestType (fun n : Nat => n % 10) [13, 3, 25] = some 3 := by decide

/-- `b` is the least of the widths 8, 16, 32, 64 that is good enough -/
def Best (good : Nat → Prop) (b : Nat) : Prop := b ∈ [8, 16, 32, 64] ∧ good b ∧ ∀ b' ∈ [8, 16, 32, 64], good b' → b ≤ b'

/-- **C103**, best fits: the narrowest type with so many bits, or that holds the value; for up to 64 bits. -/
theorem C103_best_fit :
    (∀ n, n ≤ 64 → Best (fun b => n ≤ b) (smallestForBits n)) ∧
    (∀ v : Nat, v < 2 ^ 64 → Best (fun b => v < 2 ^ b) (smallestUintForValue v)) ∧
    (∀ v : Int, -2 ^ 63 ≤ v → v < 2 ^ 63 → Best (fun b => -2 ^ (b - 1) ≤ v ∧ v < 2 ^ (b - 1)) (smallestIntForValue v)) ∧
    (∀ n ∈ [8, 16, 32], largerType n = 2 * n) ∧ largerType 64 = 64 := by
  refine ⟨?_, ?_, ?_, by decide, by decide⟩
  · intro n hn
    unfold smallestForBits Best
    split_ifs <;> simp [bestFit] <;> omega
  · intro v hv
    unfold smallestUintForValue Best
    split_ifs <;> simp [bestFit] <;> omega
  · intro v h1 h2
    unfold smallestIntForValue Best
    split_ifs <;> simp [bestFit] <;> omega

/-- **Finding** (C103): more bits than any type has are not rejected; the widest type is given. -/
theorem C103_too_many_bits (n : Nat) (h : 64 < n) : smallestForBits n = 64 := by
  unfold smallestForBits
  rw [if_pos (by omega), if_pos (by omega), if_pos (by omega)]; rfl

end Etl.TypeList
