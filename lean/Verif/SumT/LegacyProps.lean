import Verif.SumT.Legacy
import Mathlib.Tactic.SplitIfs

/-!
# C116: the legacy variant

The specification: a variant is nothing or a value with its type.
-/
namespace Etl.SumT.Legacy

variable {V : Type}

/-- The ideal variants of a program: `none` is a name without an object, `some none` an empty variant. -/
abbrev Ideal (V : Type) := Nat → Option (Option (Nat × V))

def Arg.ok (σ : Ideal V) (t i : Nat) : Arg V → Prop
  | .value _ => True
  | .content j => j ≠ i ∧ ∃ v, σ j = some (some (t, v))
def Arg.val (σ : Ideal V) (d : V) : Arg V → V
  | .value v => v
  | .content j => match σ j with
    | some (some (_, v)) => v
    | _ => d

/-- The operations the language and the documentation allow: names in use are not made again, those not in use are not used; supported types; the argument is not the variant's own object and has the right type. -/
def Legal (types : List Nat) (σ : Ideal V) : Op V → Prop
  | .default i => σ i = none
  | .ofValue i t a => σ i = none ∧ t ∈ types ∧ a.ok σ t i
  | .inPlace i k t a => σ i = none ∧ types[k]? = some t ∧ a.ok σ t i
  | .copy i j => σ i = none ∧ σ j ≠ none
  | .destroy i => σ i ≠ none
  | .emplace i t a => σ i ≠ none ∧ t ∈ types ∧ a.ok σ t i
  | .emplaceThrows i t => σ i ≠ none ∧ t ∈ types
  | .assignValue i t a => σ i ≠ none ∧ t ∈ types ∧ a.ok σ t i
  | .assignCopy i j => σ i ≠ none ∧ σ j ≠ none
  | .clear i => σ i ≠ none
/-- What they do to ideal variants. -/
def spec (d : V) (σ : Ideal V) : Op V → Ideal V
  | .default i => upd σ i (some none)
  | .ofValue i t a => upd σ i (some (some (t, a.val σ d)))
  | .inPlace i _ t a => upd σ i (some (some (t, a.val σ d)))
  | .copy i j => upd σ i (σ j)
  | .destroy i => upd σ i none
  | .emplace i t a => upd σ i (some (some (t, a.val σ d)))
  | .emplaceThrows i _ => upd σ i (some none)
  | .assignValue i t a => upd σ i (some (some (t, a.val σ d)))
  | .assignCopy i j => upd σ i (σ j)
  | .clear i => upd σ i (some none)
def LegalRun (types : List Nat) (d : V) (σ : Ideal V) : List (Op V) → Prop
  | [] => True
  | o :: os => Legal types σ o ∧ LegalRun types d (spec d σ o) os
def specRun (d : V) (σ : Ideal V) : List (Op V) → Ideal V
  | [] => σ
  | o :: os => specRun d (spec d σ o) os

/-- What can be observed of a variant that should hold `c`. -/
structure Shows (types : List Nat) (x : Var V) (c : Option (Nat × V)) : Prop where
  storage : x.data = c
  valid : isValid x = c.isSome
  index : ∀ k, x.typeId = some k ↔ ∃ t v, c = some (t, v) ∧ types[k]? = some t
  type : ∀ t, t ∈ types → (isType types t x = true ↔ ∃ v, c = some (t, v))
  got : ∀ t, t ∈ types → ∀ v, get types t x = .ok (some v) ↔ c = some (t, v)
  wrong : ∀ t, t ∈ types → (∀ v, c ≠ some (t, v)) → get types t x = .ok none
  called : call types x = .ok c
  visited : visit types x = .ok c
  base : ∀ b, isBase types b x = true ↔ ∃ t v, c = some (t, v) ∧ b t = true

/-! ## Proofs -/

theorem lookup_some {types : List Nat} (hn : types.Nodup) : ∀ {t k : Nat}, lookup types t = some k ↔ types[k]? = some t := by
  induction types with
  | nil => intro t k; simp [lookup]
  | cons a l ih =>
    intro t k
    rw [List.nodup_cons] at hn
    simp only [lookup]
    by_cases e : t = a
    · subst e
      rw [if_pos rfl]
      cases k with
      | zero => simp
      | succ k =>
        simp only [List.getElem?_cons_succ]
        constructor
        · intro h; cases h
        · intro h; exact absurd (List.mem_of_getElem? h) hn.1
    · rw [if_neg e]
      cases k with
      | zero =>
        simp only [List.getElem?_cons_zero, Option.some.injEq]
        constructor
        · intro h; split at h <;> cases h
        · intro h; exact absurd h.symm e
      | succ k =>
        rw [List.getElem?_cons_succ, ← ih hn.2]
        cases hh : lookup l t <;> simp

theorem lookup_mem {types : List Nat} {t : Nat} (h : t ∈ types) : ∃ k, lookup types t = some k := by
  induction types with
  | nil => simp at h
  | cons a l ih =>
    simp only [lookup]
    by_cases e : t = a
    · exact ⟨0, by rw [if_pos e]⟩
    · rcases List.mem_cons.mp h with h | h
      · exact absurd h e
      · obtain ⟨k, hk⟩ := ih h
        exact ⟨k + 1, by rw [if_neg e, hk]⟩

theorem supported_iff {types : List Nat} {t : Nat} : supported types t = true ↔ t ∈ types := by
  unfold supported; rw [List.any_eq_true]; simp

/-- The concrete variant holds `c`. -/
def Rep (types : List Nat) (x : Var V) (c : Option (Nat × V)) : Prop := x.data = c ∧ (match c with
  | none => x.typeId = none
  | some (t, _) => ∃ k, x.typeId = some k ∧ types[k]? = some t)

theorem rep_empty (types : List Nat) : Rep types (⟨none, none⟩ : Var V) none := ⟨rfl, rfl⟩

theorem destruct_ok {types : List Nat} {x : Var V} {c : Option (Nat × V)} (h : Rep types x c) : destructCurrent types x = .ok ⟨none, none⟩ := by
  obtain ⟨h1, h2⟩ := h
  obtain ⟨d, ti⟩ := x
  cases c with
  | none => simp only at h1 h2; subst h1; subst h2; rfl
  | some p =>
    obtain ⟨t, v⟩ := p
    obtain ⟨k, e1, e2⟩ := h2
    simp only at h1 e1
    subst h1; subst e1
    simp only [destructCurrent]
    rw [e2]; simp [destroyAt]

theorem get_ok {types : List Nat} (hn : types.Nodup) {x : Var V} {t : Nat} {v : V} (h : Rep types x (some (t, v))) : get types t x = .ok (some v) := by
  obtain ⟨h1, k, e1, e2⟩ := h
  unfold get isType
  rw [if_pos (by simpa [e1] using ((lookup_some hn).mpr e2).symm)]
  rw [h1]; simp [read]

theorem copy_ok {types : List Nat} (hn : types.Nodup) {y : Var V} {c : Option (Nat × V)} (h : Rep types y c) : ∃ x, copyFrom types ⟨none, none⟩ y = .ok (some x) ∧ Rep types x c := by
  cases c with
  | none =>
    obtain ⟨h1, h2⟩ := h
    simp only at h2
    exact ⟨⟨none, none⟩, by unfold copyFrom; rw [h2], rep_empty _⟩
  | some p =>
    obtain ⟨t, v⟩ := p
    have hg := get_ok hn h
    obtain ⟨h1, k, e1, e2⟩ := h
    exact ⟨⟨some (t, v), some k⟩, by unfold copyFrom; rw [e1]; simp only; rw [e2]; simp only; rw [hg]; rfl, rfl, k, rfl, e2⟩

def Inv (types : List Nat) (w : World V) (σ : Ideal V) : Prop := ∀ i, match σ i with
  | none => w i = none
  | some c => ∃ x, w i = some x ∧ Rep types x c

theorem inv_none {types : List Nat} {w : World V} {σ : Ideal V} (h : Inv types w σ) {i : Nat} (hi : σ i = none) : w i = none := by
  have := h i; rw [hi] at this; exact this
theorem inv_some {types : List Nat} {w : World V} {σ : Ideal V} (h : Inv types w σ) {i : Nat} {c : Option (Nat × V)} (hi : σ i = some c) : ∃ x, w i = some x ∧ Rep types x c := by
  have := h i; rw [hi] at this; exact this
theorem inv_upd {types : List Nat} {w : World V} {σ : Ideal V} (h : Inv types w σ) (i : Nat) {x : Var V} {c : Option (Nat × V)} (hx : Rep types x c) : Inv types (upd w i (some x)) (upd σ i (some c)) := by
  intro j
  by_cases e : j = i
  · subst e; rw [upd_same, upd_same]; exact ⟨x, rfl, hx⟩
  · rw [upd_other _ _ e, upd_other _ _ e]; exact h j
theorem inv_del {types : List Nat} {w : World V} {σ : Ideal V} (h : Inv types w σ) (i : Nat) : Inv types (upd w i none) (upd σ i none) := by
  intro j
  by_cases e : j = i
  · subst e; rw [upd_same, upd_same]
  · rw [upd_other _ _ e, upd_other _ _ e]; exact h j

theorem evalArg_ok {types : List Nat} {w : World V} {σ : Ideal V} (h : Inv types w σ) {t i : Nat} {a : Arg V} (ha : a.ok σ t i) (d : V) (o : Option (Var V)) : evalArg (upd w i o) t a = .ok (a.val σ d) ∧ evalArg w t a = .ok (a.val σ d) := by
  cases a with
  | value v => exact ⟨rfl, rfl⟩
  | content j =>
    obtain ⟨hj, v, hv⟩ := ha
    obtain ⟨x, e1, e2, _⟩ := inv_some h hv
    simp only [evalArg, Arg.val, hv]
    rw [upd_other _ _ hj, e1]
    simp [e2, read]

theorem create_ok {types : List Nat} {w : World V} {σ : Ideal V} (h : Inv types w σ) {t i k : Nat} {a : Arg V} (ha : a.ok σ t i) (d : V) (hk : types[k]? = some t) :
    ∃ w', create w i t (some k) a = .ok w' ∧ Inv types w' (upd σ i (some (some (t, a.val σ d)))) := by
  refine ⟨_, ?_, inv_upd h i (x := ⟨some (t, a.val σ d), some k⟩) ⟨rfl, k, rfl, hk⟩⟩
  unfold create
  rw [(evalArg_ok h ha d none).2]; rfl

theorem replace_ok {types : List Nat} (hn : types.Nodup) {w : World V} {σ : Ideal V} (h : Inv types w σ) {t i : Nat} {a : Arg V} (hi : σ i ≠ none) (ht : t ∈ types) (ha : a.ok σ t i) (d : V) :
    ∃ w', replace types w i t a = .ok w' ∧ Inv types w' (upd σ i (some (some (t, a.val σ d)))) := by
  obtain ⟨c, hc⟩ := Option.ne_none_iff_exists'.mp hi
  obtain ⟨x, e1, e2⟩ := inv_some h hc
  obtain ⟨k, hk⟩ := lookup_mem ht
  refine ⟨upd w i (some ⟨some (t, a.val σ d), some k⟩), ?_, inv_upd h i (x := ⟨some (t, a.val σ d), some k⟩) ⟨rfl, k, rfl, (lookup_some hn).mp hk⟩⟩
  unfold replace
  rw [e1]
  simp only [destruct_ok e2]
  rw [(evalArg_ok h ha d _).1]
  simp only [construct, hk]

theorem step_ok {types : List Nat} (hn : types.Nodup) (d : V) {w : World V} {σ : Ideal V} (h : Inv types w σ) {o : Op V} (hl : Legal types σ o) : ∃ w', step types w o = .ok (some w') ∧ Inv types w' (spec d σ o) := by
  cases o with
  | default i => exact ⟨_, rfl, inv_upd h i (rep_empty _)⟩
  | ofValue i t a =>
    obtain ⟨k, hk⟩ := lookup_mem hl.2.1
    obtain ⟨w', e1, e2⟩ := create_ok h hl.2.2 d ((lookup_some hn).mp hk)
    exact ⟨w', by simp only [step]; rw [if_pos (supported_iff.mpr hl.2.1), hk, e1], e2⟩
  | inPlace i k t a =>
    obtain ⟨w', e1, e2⟩ := create_ok h hl.2.2 d hl.2.1
    exact ⟨w', by simp only [step]; rw [if_pos ((lookup_some hn).mpr hl.2.1), e1], e2⟩
  | copy i j =>
    obtain ⟨c, hc⟩ := Option.ne_none_iff_exists'.mp hl.2
    obtain ⟨y, e1, e2⟩ := inv_some h hc
    obtain ⟨x, f1, f2⟩ := copy_ok hn e2
    refine ⟨_, by simp only [step]; rw [e1]; simp only; rw [f1], ?_⟩
    show Inv types _ (upd σ i (σ j))
    rw [hc]; exact inv_upd h i f2
  | destroy i =>
    obtain ⟨c, hc⟩ := Option.ne_none_iff_exists'.mp (show σ i ≠ none from hl)
    obtain ⟨x, e1, e2⟩ := inv_some h hc
    exact ⟨_, by simp only [step]; rw [e1]; simp only; rw [destruct_ok e2], inv_del h i⟩
  | emplace i t a =>
    obtain ⟨w', e1, e2⟩ := replace_ok hn h hl.1 hl.2.1 hl.2.2 d
    exact ⟨w', by simp only [step]; rw [if_pos (supported_iff.mpr hl.2.1), e1], e2⟩
  | emplaceThrows i t =>
    obtain ⟨c, hc⟩ := Option.ne_none_iff_exists'.mp (show σ i ≠ none from hl.1)
    obtain ⟨x, e1, e2⟩ := inv_some h hc
    exact ⟨_, by simp only [step]; rw [if_pos (supported_iff.mpr hl.2), e1]; simp only; rw [destruct_ok e2], inv_upd h i (rep_empty _)⟩
  | assignValue i t a =>
    obtain ⟨w', e1, e2⟩ := replace_ok hn h hl.1 hl.2.1 hl.2.2 d
    exact ⟨w', by simp only [step]; rw [if_pos (supported_iff.mpr hl.2.1), e1], e2⟩
  | assignCopy i j =>
    obtain ⟨c, hc⟩ := Option.ne_none_iff_exists'.mp hl.1
    obtain ⟨x, e1, e2⟩ := inv_some h hc
    obtain ⟨c', hc'⟩ := Option.ne_none_iff_exists'.mp hl.2
    obtain ⟨y, f1, f2⟩ := inv_some h hc'
    by_cases e : i = j
    · refine ⟨w, by simp only [step]; rw [e1, f1]; simp only; rw [if_pos e], ?_⟩
      subst e
      show Inv types w (upd σ i (σ i))
      have : upd σ i (σ i) = σ := by
        funext m
        by_cases hm : m = i
        · subst hm; rw [upd_same]
        · rw [upd_other _ _ hm]
      rw [this]; exact h
    · obtain ⟨z, g1, g2⟩ := copy_ok hn f2
      refine ⟨_, by simp only [step]; rw [e1, f1]; simp only; rw [if_neg e, destruct_ok e2]; simp only; rw [g1], ?_⟩
      show Inv types _ (upd σ i (σ j))
      rw [hc']; exact inv_upd h i g2
  | clear i =>
    obtain ⟨c, hc⟩ := Option.ne_none_iff_exists'.mp (show σ i ≠ none from hl)
    obtain ⟨x, e1, e2⟩ := inv_some h hc
    exact ⟨_, by simp only [step]; rw [e1]; simp only; rw [destruct_ok e2], inv_upd h i (rep_empty _)⟩

theorem run_ok {types : List Nat} (hn : types.Nodup) (d : V) (os : List (Op V)) : ∀ {w : World V} {σ : Ideal V}, Inv types w σ → LegalRun types d σ os → ∃ w', run types w os = .ok (some w') ∧ Inv types w' (specRun d σ os) := by
  induction os with
  | nil => intro w σ h _; exact ⟨w, rfl, h⟩
  | cons o os ih =>
    intro w σ h hl
    obtain ⟨w1, e1, h1⟩ := step_ok hn d h hl.1
    obtain ⟨w2, e2, h2⟩ := ih h1 hl.2
    exact ⟨w2, by simp only [run]; rw [e1]; exact e2, h2⟩

theorem shows {types : List Nat} (hn : types.Nodup) {x : Var V} {c : Option (Nat × V)} (h : Rep types x c) : Shows types x c := by
  obtain ⟨d, ti⟩ := x
  cases c with
  | none =>
    obtain ⟨h1, h2⟩ := h
    simp only at h1 h2
    subst h1; subst h2
    have ht : ∀ t, t ∈ types → isType types t (⟨none, none⟩ : Var V) = false := fun t m => by
      obtain ⟨k, hk⟩ := lookup_mem m
      unfold isType; rw [hk]; simp
    have hg : ∀ t, t ∈ types → get types t (⟨none, none⟩ : Var V) = .ok none := fun t m => by
      unfold get; rw [ht t m]; simp
    exact ⟨rfl, rfl, fun k => by simp, fun t m => by rw [ht t m]; simp, fun t m v => by rw [hg t m]; simp, fun t m _ => hg t m, rfl, rfl, fun b => by simp [isBase]⟩
  | some p =>
    obtain ⟨t0, v0⟩ := p
    have hg0 := get_ok hn h
    obtain ⟨h1, k, e1, e2⟩ := h
    simp only at h1 e1
    subst h1; subst e1
    have hk := (lookup_some hn).mpr e2
    have ht : ∀ t, t ∈ types → (isType types t (⟨some (t0, v0), some k⟩ : Var V) = true ↔ t = t0) := fun t m => by
      unfold isType
      rw [decide_eq_true_eq]
      constructor
      · intro e
        have := (lookup_some hn).mp e.symm
        rw [e2] at this; injection this with e; exact e.symm
      · rintro rfl; exact hk.symm
    have hw : ∀ t, t ∈ types → t ≠ t0 → get types t (⟨some (t0, v0), some k⟩ : Var V) = .ok none := fun t m ne => by
      unfold get
      rw [if_neg (fun e => ne ((ht t m).mp e))]
    refine ⟨rfl, rfl, fun k' => ?_, fun t m => ?_, fun t m v => ?_, fun t m hv => ?_, ?_, ?_, fun b => ?_⟩
    · constructor
      · rintro e; injection e with e; subst e; exact ⟨t0, v0, rfl, e2⟩
      · rintro ⟨t, v, e, f⟩
        injection e with e; injection e with e3 e4
        subst e3
        rw [← (lookup_some hn).mpr f, hk]
    · rw [ht t m]; constructor
      · rintro rfl; exact ⟨v0, rfl⟩
      · rintro ⟨v, e⟩; injection e with e; injection e with e _; exact e.symm
    · by_cases e : t = t0
      · subst e; rw [hg0]; simp
      · rw [hw t m e]; simp [Ne.symm e]
    · by_cases e : t = t0
      · subst e; exact absurd rfl (hv v0)
      · exact hw t m e
    · simp only [call]; rw [e2]; simp [read]
    · simp only [visit]; rw [e2]; simp only; rw [hg0]
    · simp only [isBase]; rw [e2]
      constructor
      · intro hb; exact ⟨t0, v0, rfl, hb⟩
      · rintro ⟨t, v, e, hb⟩; injection e with e; injection e with e _; subst e; exact hb

theorem rep_of_shows {types : List Nat} {x : Var V} {c : Option (Nat × V)} (h : Shows types x c) : Rep types x c := by
  refine ⟨h.storage, ?_⟩
  have hv := h.valid
  unfold isValid at hv
  cases c with
  | none =>
    simp only [Option.isSome_none, decide_eq_false_iff_not, ne_eq, Decidable.not_not] at hv
    exact hv
  | some p =>
    obtain ⟨t, v⟩ := p
    simp only [Option.isSome_some, decide_eq_true_eq] at hv
    obtain ⟨k, hk⟩ := Option.ne_none_iff_exists'.mp hv
    obtain ⟨t', v', e, f⟩ := (h.index k).mp hk
    injection e with e; injection e with e _; subst e
    exact ⟨k, hk, f⟩

/-! ## The theorems -/

def start : World V := fun _ => none
def none' : Ideal V := fun _ => none

theorem inv_start (types : List Nat) : Inv types (start : World V) none' := fun _ => rfl

/-- C116: take any declaration with different types and any legal sequence of operations on any number of variants, from an empty world, including constructors that throw.  Nothing is constructed over a live object, no dead object
is read or destroyed, no assertion fires, every destroyed variant leaves no object behind, and every variant shows exactly the ideal value: `is_valid`, `index`, `is_type`, `get` of each type (the error for all but one), the reader that is
called, the visitor's argument and `is_base_of`. -/
theorem C116_histories {types : List Nat} (hn : types.Nodup) (d : V) (os : List (Op V)) (hl : LegalRun types d none' os) :
    ∃ w, run types start os = .ok (some w) ∧ ∀ i, match specRun d none' os i with
      | none => w i = none
      | some c => ∃ x, w i = some x ∧ Shows types x c := by
  obtain ⟨w, e, h⟩ := run_ok hn d os (inv_start types) hl
  refine ⟨w, e, fun i => ?_⟩
  have := h i
  split
  · rename_i hh; rw [hh] at this; exact this
  · rename_i c hh
    rw [hh] at this
    obtain ⟨x, e1, e2⟩ := this
    exact ⟨x, e1, shows hn e2⟩

/-- C116, `is_same_type` (partial): for two variants of the same declaration it tells whether both are empty or hold the same type; for different declarations whether both hold the same type, if this variant is not empty.
Missing, because false: an empty variant and one that holds a type it does not support (`same_type_empty`). -/
theorem C116_same_type_partial {types us : List Nat} (hn : types.Nodup) {x y z : Var V} {c e f : Option (Nat × V)} (sx : Shows types x c) (sy : Shows types y e) (sz : Shows us z f) :
    (isSame x y = true ↔ c.map Prod.fst = e.map Prod.fst) ∧ (c ≠ none → (isSameOther types us x z = true ↔ ∃ t v v', c = some (t, v) ∧ f = some (t, v'))) := by
  have hx := rep_of_shows sx
  have hy := rep_of_shows sy
  have hz := rep_of_shows sz
  constructor
  · unfold isSame
    rw [decide_eq_true_eq]
    cases c with
    | none =>
      have h1 : x.typeId = none := hx.2
      rw [h1]
      cases e with
      | none => have h2 : y.typeId = none := hy.2
                rw [h2]; simp
      | some p => obtain ⟨_, k, h2, _⟩ := hy
                  rw [h2]; simp
    | some q =>
      obtain ⟨_, k, h1, h3⟩ := hx
      rw [h1]
      cases e with
      | none => have h2 : y.typeId = none := hy.2
                rw [h2]; simp
      | some p =>
        obtain ⟨_, k', h2, h4⟩ := hy
        rw [h2]
        simp only [Option.some.injEq, Option.map_some]
        constructor
        · rintro rfl; rw [h3] at h4; injection h4
        · intro e
          have := (lookup_some hn).mpr h3
          rw [e, (lookup_some hn).mpr h4] at this; injection this with this; exact this.symm
  · intro hc
    unfold isSameOther
    cases f with
    | none => have h2 : z.typeId = none := hz.2
              rw [h2]; simp
    | some p =>
      obtain ⟨t', v'⟩ := p
      obtain ⟨_, k', h2, h4⟩ := hz
      rw [h2]
      simp only [h4]
      rw [decide_eq_true_eq]
      cases c with
      | none => exact absurd rfl hc
      | some q =>
        obtain ⟨t, v⟩ := q
        obtain ⟨_, k, h1, h3⟩ := hx
        rw [h1]
        constructor
        · intro e
          have := (lookup_some hn).mp e.symm
          rw [h3] at this; injection this with this
          subst this; exact ⟨_, _, _, rfl, rfl⟩
        · rintro ⟨s, v1, v2, e1, e2⟩
          injection e1 with e1; injection e1 with e1 _
          injection e2 with e2; injection e2 with e2 _
          subst e1; subst e2
          exact ((lookup_some hn).mpr h3).symm

/-- C116, `upcast_ptr` (partial): null unless the held type has the base; otherwise the address of the base subobject, provided that it is at the beginning of the object (`off` is its offset).
Missing, because false: other bases (`upcast_offset`). -/
theorem C116_upcast_partial {types : List Nat} {x : Var V} {c : Option (Nat × V)} (sx : Shows types x c) (b : Nat → Bool) (off : Nat → Nat) (h0 : ∀ t v, c = some (t, v) → b t = true → off t = 0) :
    upcastPtr types b x = (match c with
      | none => none
      | some (t, _) => if b t then some (off t) else none) := by
  have hs := sx.base b
  unfold upcastPtr
  cases c with
  | none => rw [if_neg (fun e => by simp at hs; rw [hs] at e; cases e)]
  | some p =>
    obtain ⟨t, v⟩ := p
    simp only
    by_cases e : b t = true
    · rw [if_pos (hs.mpr ⟨t, v, rfl, e⟩), if_pos e, h0 t v rfl e]
    · rw [if_neg (fun f => by obtain ⟨t', v', g, g2⟩ := hs.mp f; injection g with g; injection g with g _; subst g; exact e g2), if_neg e]

/-! ## Examples and findings -/

/-- Types 7 and 9; a variant is made from a value, copied, emplaced from the other's content, cleared by a throwing constructor, destroyed. -/
def demo : List (Op Nat) := [.default 0, .ofValue 1 7 (.value 70), .copy 2 1, .assignValue 0 7 (.content 1), .emplace 1 9 (.value 90), .assignCopy 2 1, .emplaceThrows 1 7, .assignCopy 0 0, .inPlace 3 1 9 (.content 2), .clear 2, .destroy 3]
example : LegalRun [7, 9] 0 none' demo := by
  simp [demo, LegalRun, Legal, spec, Arg.ok, Arg.val, none', upd]
example : (List.range 4).map (specRun 0 none' demo) = [some (some (7, 70)), some none, some none, none] := by decide
example : ((run [7, 9] start demo).toOption.bind id).map (fun w => (List.range 4).map fun i => (w i).map fun x => (x.data, x.typeId)) = some [some (some (7, 70), some 0), some (none, none), some (none, none), none] := by decide +kernel

/-- `v = v.get<T>()` and `v.emplace<T>(v.get<T>())`: the object is destroyed before it is read. -/
theorem own_value_undefined : run [7, 9] (start : World Nat) [.ofValue 0 7 (.value 70), .assignValue 0 7 (.content 0)] = .error .deadAccess := by rfl
/-- An empty variant claims to be of every type it does not support. -/
theorem empty_is_unsupported_type (t : Nat) (h : t ∉ [7, 9]) : isType [7, 9] t (⟨none, none⟩ : Var Nat) = true := by
  simp at h
  simp [isType, lookup, h]
/-- An empty variant is "of the same type" as a variant of another declaration that holds a type it does not support, and not of the same type as an empty one. -/
theorem same_type_empty : isSameOther [7, 9] [5] (⟨none, none⟩ : Var Nat) ⟨some (5, 50), some 0⟩ = true ∧ isSameOther [7, 9] [5] (⟨none, none⟩ : Var Nat) ⟨none, none⟩ = false := by decide
/-- A second base class, at an offset: the pointer is that of the whole object. -/
theorem upcast_offset : ∃ off : Nat → Nat, upcastPtr [7, 9] (fun t => t == 7) (⟨some (7, 70), some 0⟩ : Var Nat) ≠ some (off 7) := ⟨fun _ => 8, by decide⟩

end Etl.SumT.Legacy
