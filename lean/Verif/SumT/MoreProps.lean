import Verif.SumT.More
import Verif.SumT.Props

/-!
# C106: comparisons, visits and `result`

Specification.  A variant is an index and a value, or nothing (valueless); an optional is a value or nothing; an expected and a result are a value or an error.  Nothing is the smallest; variants compare by index, then by value.  A visit calls the function once, with the values that are there.
-/
namespace Etl.SumT

variable {V R : Type}

/-! ## visit -/

/-- the variant `x` is in the state `p` -/
def VState (T : Tys V) (x : Var V) : Option (Nat × V) → Prop
  | none => x.typeId = none
  | some (k, v) => Shows T x k v

theorem Shows.id {T : Tys V} {x : Var V} {k : Nat} {v : V} (h : Shows T x k v) : x.typeId = some k := h.2.2.1
theorem Shows.get {T : Tys V} {x : Var V} {k : Nat} {v : V} (h : Shows T x k v) : get T x k = .ok (.value v) := by
  have := (h.2.2.2.1 k h.1).1
  rwa [if_pos rfl] at this
theorem Shows.type {T : Tys V} {x : Var V} {k : Nat} {v : V} (h : Shows T x k v) : typeFrom T.types k = tyOf T k := typeFrom_eq h.1

theorem range_table {α : Type} (f : Nat → α) {n k : Nat} (h : k < n) : ((List.range n).map f)[k]? = some (f k) := by
  rw [List.getElem?_map, List.getElem?_range h]; rfl

/-- C106, visit: of variants that all hold a value, whatever their number, the function is called with their types and values in order, and its answer returned. -/
theorem C106_visit (xs : List (Tys V × Var V)) (ps : List (Nat × V)) (h : List.Forall₂ (fun x p => Shows x.1 x.2 p.1 p.2) xs ps) (f : List (Nat × V) → Res (Got R)) :
    visit xs f = f (List.zipWith (fun x p => (tyOf x.1 p.1, p.2)) xs ps) := by
  induction h generalizing f with
  | nil => rfl
  | @cons x p xs ps hx _ ih =>
    obtain ⟨T, x⟩ := x
    obtain ⟨k, v⟩ := p
    simp only at hx
    simp only [visit, hx.id]
    rw [range_table _ hx.1]
    simp only
    rw [ih, hx.get, hx.type]
    rfl
/-- C106, visit: if one of the variants is valueless, the visit is an error and the function is not called. -/
theorem C106_visit_valueless (xs : List (Tys V × Var V)) (ps : List (Option (Nat × V))) (h : List.Forall₂ (fun x p => VState x.1 x.2 p) xs ps) (hn : none ∈ ps) (f : List (Nat × V) → Res (Got R)) :
    visit xs f = .ok .error := by
  induction h generalizing f with
  | nil => cases hn
  | @cons x p xs ps hx _ ih =>
    obtain ⟨T, x⟩ := x
    simp only at hx
    cases p with
    | none => simp only [visit]; rw [show x.typeId = none from hx]
    | some p =>
      obtain ⟨k, v⟩ := p
      have hx : Shows T x k v := hx
      simp only [visit, hx.id]
      rw [range_table _ hx.1]
      simp only
      exact ih (by simpa using hn) _

theorem attempts_ok {S : Type} {T : Tys V} {x : Var V} {k : Nat} {v : V} (h : Shows T x k v) (f : Visitor V S) (s : S) (l : List Nat) (hl : k ∈ l) :
    attempts T f s x l = .ok (f (tyOf T k) v s x) := by
  induction l with
  | nil => cases hl
  | cons a l ih =>
    simp only [attempts, h.id]
    by_cases hk : k = a
    · subst hk; rw [if_pos rfl, h.get, h.type]
    · rw [if_neg (by simpa using hk)]
      exact ih (by simpa [hk] using hl)
theorem attempts_none {S : Type} {T : Tys V} {x : Var V} (h : x.typeId = none) (f : Visitor V S) (s : S) (l : List Nat) :
    attempts T f s x l = .ok (s, x) := by
  induction l with
  | nil => rfl
  | cons a l ih => simp only [attempts, h]; rw [if_neg (by simp)]; exact ih
/-- C106, accept: the visitor is called once, with the type and the value that the variant holds at the call, even if the visitor changes the variant; a valueless variant calls nothing. -/
theorem C106_accept {S : Type} (T : Tys V) (x : Var V) (p : Option (Nat × V)) (h : VState T x p) (f : Visitor V S) (s : S) :
    accept T f s x = .ok (match p with
      | none => (s, x)
      | some (k, v) => f (tyOf T k) v s x) := by
  cases p with
  | none => exact attempts_none h f s _
  | some p => obtain ⟨k, v⟩ := p; exact attempts_ok h f s _ (List.mem_range.mpr h.1)

/-! ## comparisons of variants -/

/-- equal: the same alternative with equal values, or both valueless -/
def SameVar (T : Tys V) (eq : Nat → V → V → Bool) : Option (Nat × V) → Option (Nat × V) → Prop
  | none, none => True
  | some (k, v), some (l, u) => k = l ∧ eq (tyOf T k) v u = true
  | _, _ => False
/-- less: valueless first, then by alternative, then by value -/
def LessVar (T : Tys V) (lt : Nat → V → V → Bool) : Option (Nat × V) → Option (Nat × V) → Prop
  | none, some _ => True
  | some (k, v), some (l, u) => k < l ∨ k = l ∧ lt (tyOf T k) v u = true
  | _, none => False
instance (T : Tys V) (eq : Nat → V → V → Bool) (p q : Option (Nat × V)) : Decidable (SameVar T eq p q) := by
  rcases p with _ | ⟨k, v⟩ <;> rcases q with _ | ⟨l, u⟩ <;> unfold SameVar <;> infer_instance
instance (T : Tys V) (lt : Nat → V → V → Bool) (p q : Option (Nat × V)) : Decidable (LessVar T lt p q) := by
  rcases p with _ | ⟨k, v⟩ <;> rcases q with _ | ⟨l, u⟩ <;> unfold LessVar <;> infer_instance

theorem VState.npos {T : Tys V} {x : Var V} {p : Option (Nat × V)} (h : VState T x p) : x.typeId = p.map Prod.fst := by
  cases p with
  | none => exact h
  | some p => exact (h : Shows T x p.1 p.2).id

theorem idxOf_tyOf {T : Tys V} (hn : T.types.Nodup) {k : Nat} (hk : k < T.types.length) : T.types.idxOf (tyOf T k) = k := by
  unfold tyOf
  rw [List.getD_eq_getElem?_getD, List.getElem?_eq_getElem hk, Option.getD_some]
  exact hn.idxOf_getElem k hk
theorem tyOf_mem {T : Tys V} {k : Nat} (hk : k < T.types.length) : tyOf T k ∈ T.types := by
  unfold tyOf
  rw [List.getD_eq_getElem?_getD, List.getElem?_eq_getElem hk, Option.getD_some]
  exact List.getElem_mem hk

theorem visit_same {T : Tys V} (hn : T.types.Nodup) (cmp : Nat → V → V → Bool) {x y : Var V} {k : Nat} {v u : V} (hx : Shows T x k v) (hy : Shows T y k u) :
    visit [(T, x)] (withOther T cmp y) = .ok (.value (cmp (tyOf T k) v u)) := by
  rw [C106_visit [(T, x)] [(k, v)] (List.Forall₂.cons hx List.Forall₂.nil)]
  show withOther T cmp y [(tyOf T k, v)] = _
  have := (hy.2.2.2.2 _ (tyOf_mem hx.1)).1
  rw [idxOf_tyOf hn hx.1, if_pos rfl] at this
  simp only [withOther, this]

/-- C106, variants: `==`, `!=`, `<`, `>`, `<=`, `>=` of two variants whose types are all different: equality of alternative and value, and the order by alternative and value, with a valueless variant first. -/
theorem C106_variant_compare (T : Tys V) (hn : T.types.Nodup) (eq lt : Nat → V → V → Bool) {x y : Var V} {p q : Option (Nat × V)} (hx : VState T x p) (hy : VState T y q) :
    varEq T eq x y = boolOk (decide (SameVar T eq p q)) ∧ varNe T eq x y = boolOk (decide (¬ SameVar T eq p q)) ∧
    varLt T lt x y = boolOk (decide (LessVar T lt p q)) ∧ varGt T lt x y = boolOk (decide (LessVar T lt q p)) ∧
    varLe T lt x y = boolOk (decide (¬ LessVar T lt q p)) ∧ varGe T lt x y = boolOk (decide (¬ LessVar T lt p q)) := by
  have he : varEq T eq x y = boolOk (decide (SameVar T eq p q)) := by
    unfold varEq
    rw [hx.npos, hy.npos]
    rcases p with _ | ⟨k, v⟩ <;> rcases q with _ | ⟨l, u⟩
    · rfl
    · rfl
    · rfl
    · rw [if_neg (by simp), if_neg (by simp)]
      by_cases hkl : k = l
      · subst hkl
        rw [if_neg (by simp), visit_same hn eq hx hy]
        simp [SameVar, boolOk]
      · rw [if_pos (by simpa using hkl)]
        simp [SameVar, boolOk, hkl]
  have hl : ∀ {x y : Var V} {p q : Option (Nat × V)}, VState T x p → VState T y q → varLt T lt x y = boolOk (decide (LessVar T lt p q)) := by
    intro x y p q hx hy
    unfold varLt
    rw [hx.npos, hy.npos]
    rcases p with _ | ⟨k, v⟩ <;> rcases q with _ | ⟨l, u⟩
    · rfl
    · rfl
    · rfl
    · rw [if_neg (by simp), if_neg (by simp), if_neg (by simp)]
      simp only [Option.map]
      by_cases hkl : k = l
      · subst hkl
        rw [if_neg (by simp), visit_same hn lt hx hy]
        simp [LessVar, boolOk]
      · rw [if_pos hkl]
        simp [LessVar, boolOk, hkl]
  refine ⟨he, ?_, hl hx hy, hl hy hx, ?_, ?_⟩
  · unfold varNe; rw [he]; simp [notGot, boolOk]
  · unfold varLe varGt; rw [hl hy hx]; simp [notGot, boolOk]
  · unfold varGe; rw [hl hx hy]; simp [notGot, boolOk]

/-- C106, variants: if `<` is a strict total order on the values of each type, with `==` its equality, then the comparisons of variants are a strict total order with its equality. -/
theorem C106_variant_order (T : Tys V) (eq lt : Nat → V → V → Bool) (hirr : ∀ t v, lt t v v = false) (htr : ∀ t a b c, lt t a b = true → lt t b c = true → lt t a c = true)
    (htri : ∀ t a b, lt t a b = true ∨ eq t a b = true ∨ lt t b a = true) (heq : ∀ t a b, eq t a b = true ↔ a = b) :
    (∀ p, ¬ LessVar T lt p p) ∧ (∀ p q r, LessVar T lt p q → LessVar T lt q r → LessVar T lt p r) ∧
    (∀ p q, LessVar T lt p q ∨ SameVar T eq p q ∨ LessVar T lt q p) ∧ (∀ p q, SameVar T eq p q ↔ p = q) := by
  refine ⟨?_, ?_, ?_, ?_⟩
  · rintro (_ | ⟨k, v⟩) h
    · exact h
    · rcases h with h | ⟨_, h⟩
      · omega
      · rw [hirr] at h; cases h
  · rintro (_ | ⟨k, v⟩) (_ | ⟨l, u⟩) (_ | ⟨m, z⟩) h1 h2
    all_goals first | trivial | (exact False.elim h1) | (exact False.elim h2) | skip
    rcases h1 with h1 | ⟨rfl, h1⟩ <;> rcases h2 with h2 | ⟨rfl, h2⟩
    · exact Or.inl (by omega)
    · exact Or.inl (by omega)
    · exact Or.inl (by omega)
    · exact Or.inr ⟨rfl, htr _ _ _ _ h1 h2⟩
  · rintro (_ | ⟨k, v⟩) (_ | ⟨l, u⟩)
    · exact Or.inr (Or.inl trivial)
    · exact Or.inl trivial
    · exact Or.inr (Or.inr trivial)
    · rcases Nat.lt_trichotomy k l with h | rfl | h
      · exact Or.inl (Or.inl h)
      · rcases htri (tyOf T k) v u with h | h | h
        · exact Or.inl (Or.inr ⟨rfl, h⟩)
        · exact Or.inr (Or.inl ⟨rfl, h⟩)
        · exact Or.inr (Or.inr (Or.inr ⟨rfl, h⟩))
      · exact Or.inr (Or.inr (Or.inl h))
  · rintro (_ | ⟨k, v⟩) (_ | ⟨l, u⟩)
    · simp [SameVar]
    · simp [SameVar]
    · simp [SameVar]
    · simp [SameVar, heq]

/-! ## comparisons of optionals -/

/-- the order on the values, with nothing first -/
def LessOpt (lt : V → V → Bool) : Option V → Option V → Bool
  | _, none => false
  | none, some _ => true
  | some v, some u => lt v u
def SameOpt (eq : V → V → Bool) : Option V → Option V → Bool
  | none, none => true
  | some v, some u => eq v u
  | _, _ => false
/-- what each operator says of two optional values -/
def RelOpt (C : Cmp V) : Rel → Option V → Option V → Bool
  | .eq, p, q => SameOpt C.eq p q
  | .ne, p, q => !SameOpt C.eq p q
  | .lt, p, q => LessOpt C.lt p q
  | .le, p, q => !LessOpt C.lt q p
  | .gt, p, q => LessOpt C.lt q p
  | .ge, p, q => !LessOpt C.lt p q
/-- the comparisons of the value type fit together -/
structure Cmp.Fits (C : Cmp V) : Prop where
  sym : ∀ a b, C.eq a b = C.eq b a
  le : ∀ a b, C.le a b = !C.lt b a
  gt : ∀ a b, C.gt a b = C.lt b a
  ge : ∀ a b, C.ge a b = !C.lt a b

theorem oWith_ok {x : Opt V} {v : V} (h : OShows x (some v)) (debug : Bool) (f : V → Bool) : oWith debug x f = boolOk (f v) := by
  unfold oWith; rw [h.2.2.1 v rfl debug]; rfl

/-- C106, optionals: every operator on two optionals, an optional and `nullopt`, an optional and a value, in both orders, with and without debug checks, gives the answer for their values, with nothing first; no value is read that is not there. -/
theorem C106_optional_compare (C : Cmp V) (debug : Bool) (r : Rel) {x y : Opt V} {p q : Option V} (hx : OShows x p) (hy : OShows y q) :
    oCmp debug C r x y = boolOk (RelOpt C r p q) ∧ oCmpNull r x = RelOpt C r p none ∧ oNullCmp r x = RelOpt C r none p ∧
    (C.Fits → ∀ u, oCmpVal debug C r x u = boolOk (RelOpt C r p (some u)) ∧ oValCmp debug C r u x = boolOk (RelOpt C r (some u) p)) := by
  have vx : x.valid = p.isSome := hx.2.1
  have vy : y.valid = q.isSome := hy.2.1
  have he : oEq debug C x y = boolOk (SameOpt C.eq p q) := by
    unfold oEq; rw [vx, vy]
    cases p with
    | none => cases q <;> simp [SameOpt]
    | some v =>
      cases q with
      | none => simp [SameOpt]
      | some u => simp only [Option.isSome]; rw [if_neg (by simp), if_neg (by simp)]; unfold oWith2; rw [hx.2.2.1 v rfl debug]; exact oWith_ok hy debug _
  have hl : ∀ {x y : Opt V} {p q : Option V}, OShows x p → OShows y q → oLt debug C x y = boolOk (LessOpt C.lt p q) := by
    intro x y p q hx hy
    unfold oLt; rw [show x.valid = p.isSome from hx.2.1, show y.valid = q.isSome from hy.2.1]
    cases p with
    | none => cases q <;> simp [LessOpt]
    | some v =>
      cases q with
      | none => simp [LessOpt]
      | some u => simp only [Option.isSome]; rw [if_neg (by simp), if_neg (by simp)]; unfold oWith2; rw [hx.2.2.1 v rfl debug]; exact oWith_ok hy debug _
  refine ⟨?_, ?_, ?_, ?_⟩
  · cases r
    · exact he
    · show notGot _ = _; rw [he]; rfl
    · exact hl hx hy
    · show notGot _ = _; rw [hl hy hx]; rfl
    · exact hl hy hx
    · show notGot _ = _; rw [hl hx hy]; rfl
  · cases r <;> cases p <;> simp [oCmpNull, RelOpt, SameOpt, LessOpt, vx]
  · cases r <;> cases p <;> simp [oNullCmp, RelOpt, SameOpt, LessOpt, vx]
  · intro hf u
    cases p with
    | none => cases r <;> simp [oCmpVal, oValCmp, RelOpt, SameOpt, LessOpt, vx, notGot, boolOk]
    | some v => cases r <;> simp [oCmpVal, oValCmp, RelOpt, SameOpt, LessOpt, vx, oWith_ok hx, notGot, boolOk, hf.le, hf.gt, hf.ge, hf.sym u v]
/-- C106, optionals: with a strict total order on the values, `<` is a strict total order on the optionals, and `==` its equality. -/
theorem C106_optional_order (C : Cmp V) (hirr : ∀ v, C.lt v v = false) (htr : ∀ a b c, C.lt a b = true → C.lt b c = true → C.lt a c = true)
    (htri : ∀ a b, C.lt a b = true ∨ a = b ∨ C.lt b a = true) (heq : ∀ a b, C.eq a b = true ↔ a = b) :
    (∀ p, RelOpt C .lt p p = false) ∧ (∀ p q s, RelOpt C .lt p q = true → RelOpt C .lt q s = true → RelOpt C .lt p s = true) ∧
    (∀ p q, RelOpt C .lt p q = true ∨ p = q ∨ RelOpt C .lt q p = true) ∧ (∀ p q, RelOpt C .eq p q = true ↔ p = q) := by
  refine ⟨?_, ?_, ?_, ?_⟩
  · rintro (_ | v)
    · rfl
    · exact hirr v
  · rintro (_ | a) (_ | b) (_ | c) h1 h2
    all_goals first | rfl | (cases h1; done) | (cases h2; done) | skip
    exact htr _ _ _ h1 h2
  · rintro (_ | a) (_ | b)
    · exact Or.inr (Or.inl rfl)
    · exact Or.inl rfl
    · exact Or.inr (Or.inr rfl)
    · rcases htri a b with h | rfl | h
      · exact Or.inl h
      · exact Or.inr (Or.inl rfl)
      · exact Or.inr (Or.inr h)
  · rintro (_ | a) (_ | b) <;> simp [RelOpt, SameOpt, heq]

/-! ## comparisons of expecteds -/

/-- equal: both values or both errors, and these equal -/
def SameSum (eqv eqe : V → V → Bool) : V ⊕ V → V ⊕ V → Bool
  | .inl v, .inl u => eqv v u
  | .inr v, .inr u => eqe v u
  | _, _ => false
/-- C106, expecteds: `==` and `!=` with another expected, a value or an `unexpected`: an error never equals a value. -/
theorem C106_expected_compare (T : Tys V) (eqv eqe : V → V → Bool) {x y : Var V} {p q : V ⊕ V} (hx : EShows T x p) (hy : EShows T y q) (u : V) :
    eEq T eqv eqe x y = boolOk (SameSum eqv eqe p q) ∧ eNe T eqv eqe x y = boolOk (!SameSum eqv eqe p q) ∧
    eEqVal T eqv x u = boolOk (SameSum eqv eqe p (.inl u)) ∧ eNeVal T eqv x u = boolOk (!SameSum eqv eqe p (.inl u)) ∧
    eEqUnexp T eqe x u = boolOk (SameSum eqv eqe p (.inr u)) ∧ eNeUnexp T eqe x u = boolOk (!SameSum eqv eqe p (.inr u)) := by
  obtain ⟨_, x2, x3, x4, _, _⟩ := hx
  obtain ⟨_, y2, y3, y4, _, _⟩ := hy
  have h1 : eEq T eqv eqe x y = boolOk (SameSum eqv eqe p q) := by
    unfold eEq; rw [x2, y2, x3, y3, x4, y4]
    cases p <;> cases q <;> simp [SameSum, gWith2, gWith, boolOk]
  have h2 : eEqVal T eqv x u = boolOk (SameSum eqv eqe p (.inl u)) := by
    unfold eEqVal; rw [x2, x3]
    cases p <;> simp [SameSum, gWith, boolOk]
  have h3 : eEqUnexp T eqe x u = boolOk (SameSum eqv eqe p (.inr u)) := by
    unfold eEqUnexp; rw [x2, x4]
    cases p <;> simp [SameSum, gWith, boolOk]
  refine ⟨h1, ?_, h2, ?_, h3, ?_⟩
  · unfold eNe; rw [h1]; rfl
  · unfold eNeVal; rw [h2]; rfl
  · unfold eNeUnexp; rw [h3]; rfl

/-! ## expected<void, E> -/

/-- the objects: `none` is success, `some e` an error -/
def vLift (T : Tys V) (a : OAbs V) : Abs V := fun i => (a i).map fun p => match p with
  | none => (0, T.dflt (tyOf T 0))
  | some e => (1, e)
/-- one operation on an object that is success or an error -/
def vSpecStep (moved : V → V) (a : OAbs V) : VOp V → Option (OAbs V)
  | .default i => if (a i).isNone then some (upd a i (some none)) else none
  | .ofUnexpected i x => if (a i).isNone then oSetSpec moved a i x else none
  | .copy i j => match a j with
    | some y => if (a i).isNone then some (upd a i (some y)) else none
    | none => none
  | .move i j => match a j with
    | some y => if (a i).isNone then some (upd (upd a j (some (y.map moved))) i (some y)) else none
    | none => none
  | .destroy i => if (a i).isSome then some (upd a i none) else none
  | .assignCopy i j => match a i, a j with
    | some _, some y => some (upd a i (some y))
    | _, _ => none
  | .assignMove i j => match a i, a j with
    | some _, some y => if i = j then some a else some (upd (upd a j (some (y.map moved))) i (some y))
    | _, _ => none
  | .assignUnexpected i x => if (a i).isSome then oSetSpec moved a i x else none
  | .swap i j => match a i, a j with
    | some x, some y => some (upd (upd a i (some y)) j (some x))
    | _, _ => none
def vSpecRun (moved : V → V) (a : OAbs V) : List (VOp V) → Option (OAbs V)
  | [] => some a
  | o :: os => match vSpecStep moved a o with
    | none => none
    | some a => vSpecRun moved a os
/-- The `expected<void, E>` `x` shows `p`: success (`none`) or that error; the accesses and comparisons say so. -/
def VShows (T : Tys V) (x : Var V) (p : Option V) : Prop :=
  vHasValue x = p.isNone ∧ vError T x = .ok (match p with
    | none => .error
    | some e => .value e)

def vIdx (T : Tys V) (p : Option V) : Nat × V := match p with
  | none => (0, T.dflt (tyOf T 0))
  | some e => (1, e)
theorem vLift_upd (T : Tys V) (a : OAbs V) (i : Nat) (p : Option (Option V)) : vLift T (upd a i p) = upd (vLift T a) i (p.map (vIdx T)) := by
  funext j; unfold vLift upd; split <;> rfl

section
variable {T : Tys V} {tm te : Nat} (hT : T.types = [tm, te])
include hT
theorem vty0 : tyOf T 0 = tm := by unfold tyOf; rw [hT]; rfl
theorem vty1 : tyOf T 1 = te := by unfold tyOf; rw [hT]; rfl
theorem vSet_ok (hd : tm ≠ te) {a a' : OAbs V} {i : Nat} {x : Arg V} (h : oSetSpec (T.moved te) a i x = some a') : setSpec T (vLift T a) i 1 x = some (vLift T a') := by
  unfold oSetSpec at h
  unfold setSpec
  cases x with
  | value v =>
    simp only [oArgSpec, Option.some.injEq] at h
    subst h
    simp only [argSpec, Option.some.injEq]
    rw [vLift_upd]; rfl
  | content j m =>
    simp only [oArgSpec] at h
    simp only [argSpec]
    have t0 := vty0 hT
    have t1 := vty1 hT
    rcases haj : a j with _ | _ | e
    · rw [haj] at h; cases h
    · rw [haj] at h; cases h
    · rw [haj] at h
      simp only at h
      have e1 : vLift T a j = some (1, e) := by unfold vLift; rw [haj]; rfl
      rw [e1]
      simp only
      by_cases hj : j ≠ i
      · rw [if_pos hj] at h
        rw [if_pos ⟨hj, by first | trivial | exact t1⟩]
        simp only [Option.some.injEq] at h ⊢
        rw [← h, vLift_upd, t1]
        cases m
        · rfl
        · simp only [if_true]; rw [vLift_upd]; rfl
      · rw [if_neg hj] at h; cases h

theorem vStep_ok (hd : tm ≠ te) (hc : ∀ t ∈ [tm, te], T.copyable t = true ∧ T.moveable t = true) (hm : T.moved tm (T.dflt tm) = T.dflt tm) {a a' : OAbs V} {o : VOp V} (h : vSpecStep (T.moved te) a o = some a') :
    specStep T (vLift T a) (o.toVariant T) = some (vLift T a') := by
  have t0 := vty0 hT
  have t1 := vty1 hT
  have f1 : typeFrom T.types 1 = te := by rw [hT]; rfl
  have len : T.types.length = 2 := by rw [hT]; rfl
  have m1 : te ∈ T.types := by rw [hT]; simp
  have i1 : T.types.idxOf te = 1 := by rw [hT, List.idxOf_cons_ne _ hd, List.idxOf_cons_self]
  have isn : ∀ {i}, (a i).isNone = true → (vLift T a i).isNone = true := by intro i hi; unfold vLift; simpa using hi
  have iss : ∀ {i}, (a i).isSome = true → (vLift T a i).isSome = true := by intro i hi; unfold vLift; simpa using hi
  have lf : ∀ {i p}, a i = some p → vLift T a i = some (vIdx T p) := by intro i p hp; unfold vLift; rw [hp]; rfl
  have cp : ∀ p : Option V, T.copyable (tyOf T (vIdx T p).1) = true ∧ T.moveable (tyOf T (vIdx T p).1) = true := by
    intro p; cases p <;> simp only [vIdx]
    · rw [t0]; exact hc _ (by simp)
    · rw [t1]; exact hc _ (by simp)
  have mvd : ∀ p : Option V, vIdx T (p.map (T.moved te)) = ((vIdx T p).1, T.moved (tyOf T (vIdx T p).1) (vIdx T p).2) := by
    intro p; cases p <;> simp only [vIdx, Option.map]
    · rw [t0, hm]
    · rw [t1]
  cases o with
  | default i =>
    simp only [vSpecStep] at h
    split at h
    · next hi =>
      simp only [Option.some.injEq] at h; subst h
      simp only [VOp.toVariant, specStep]
      rw [if_pos ⟨by simpa using isn hi, by omega⟩, vLift_upd]; rfl
    · cases h
  | ofUnexpected i x =>
    simp only [vSpecStep] at h
    split at h
    · next hi => simp only [VOp.toVariant, specStep]; rw [f1, if_pos ⟨isn hi, m1⟩, i1]; exact vSet_ok hT hd h
    · cases h
  | copy i j =>
    simp only [vSpecStep] at h
    split at h
    · next y hj =>
      split at h
      · next hi =>
        simp only [Option.some.injEq] at h; subst h
        simp only [VOp.toVariant, specStep]
        rw [lf hj]
        simp only
        rw [if_pos ⟨isn hi, (cp y).1⟩, vLift_upd]; rfl
      · cases h
    · cases h
  | move i j =>
    simp only [vSpecStep] at h
    split at h
    · next y hj =>
      split at h
      · next hi =>
        simp only [Option.some.injEq] at h; subst h
        simp only [VOp.toVariant, specStep]
        rw [lf hj]
        simp only
        rw [if_pos ⟨isn hi, (cp y).2⟩, vLift_upd, vLift_upd, Option.map_some, Option.map_some, mvd]
      · cases h
    · cases h
  | destroy i =>
    simp only [vSpecStep] at h
    split at h
    · next hi =>
      simp only [Option.some.injEq] at h; subst h
      simp only [VOp.toVariant, specStep]
      rw [if_pos (iss hi), vLift_upd]; rfl
    · cases h
  | assignCopy i j =>
    simp only [vSpecStep] at h
    split at h
    · next x y hi hj =>
      simp only [Option.some.injEq] at h; subst h
      simp only [VOp.toVariant, specStep]
      rw [lf hi, lf hj]
      simp only
      rw [if_pos (cp y).1, vLift_upd]; rfl
    · cases h
  | assignMove i j =>
    simp only [vSpecStep] at h
    split at h
    · next x y hi hj =>
      simp only [VOp.toVariant, specStep]
      rw [lf hi, lf hj]
      simp only
      by_cases hij : i = j
      · rw [if_pos hij] at h ⊢; simp only [Option.some.injEq] at h; rw [h]
      · rw [if_neg hij] at h ⊢
        simp only [Option.some.injEq] at h; subst h
        rw [if_pos (cp y).2, vLift_upd, vLift_upd, Option.map_some, Option.map_some, mvd]
    · cases h
  | assignUnexpected i x =>
    simp only [vSpecStep] at h
    split at h
    · next hi => simp only [VOp.toVariant, specStep]; rw [if_pos ⟨iss hi, by omega⟩]; exact vSet_ok hT hd h
    · cases h
  | swap i j =>
    simp only [vSpecStep] at h
    split at h
    · next x y hi hj =>
      simp only [Option.some.injEq] at h; subst h
      simp only [VOp.toVariant, specStep]
      rw [lf hi, lf hj]
      simp only
      rw [if_pos ⟨(cp x).2, (cp y).2⟩, vLift_upd, vLift_upd]; rfl
    · cases h
end

/-- C106, `expected<void, E>`: whatever a program does, no error object is constructed over a live one, destroyed twice or left alive, and each expected is success or the error last stored. -/
theorem C106_expected_void (T : Tys V) {tm te : Nat} (hT : T.types = [tm, te]) (hd : tm ≠ te) (hc : ∀ t ∈ [tm, te], T.copyable t = true ∧ T.moveable t = true) (hm : T.moved tm (T.dflt tm) = T.dflt tm)
    (os : List (VOp V)) {a : OAbs V} (h : vSpecRun (T.moved te) (fun _ => none) os = some a) :
    ∃ w, run T (fun _ => none) (os.map (VOp.toVariant T)) = .ok w ∧ (∀ i, (w i).isSome = (a i).isSome) ∧ ∀ i x p, w i = some x → a i = some p → VShows T x p := by
  have key : ∀ (os : List (VOp V)) (b : OAbs V), vSpecRun (T.moved te) b os = some a → specRun T (vLift T b) (os.map (VOp.toVariant T)) = some (vLift T a) := by
    intro os
    induction os with
    | nil => intro b h; simp only [vSpecRun, Option.some.injEq] at h; subst h; rfl
    | cons o os ih =>
      intro b h
      simp only [vSpecRun] at h
      split at h
      · cases h
      · next b1 h1 =>
        simp only [List.map_cons, specRun]
        rw [vStep_ok hT hd hc hm h1]
        exact ih b1 h
  obtain ⟨w, hw, hs⟩ := C47_variant T _ (key os _ h)
  refine ⟨w, hw, fun i => ?_, fun i x p hx hp => ?_⟩
  · have := hs i
    unfold vLift at this
    cases ha : a i <;> cases hwi : w i <;> rw [ha, hwi] at this <;> first | rfl | (exact False.elim this)
  · have := hs i
    rw [hx, show vLift T a i = some (vIdx T p) by unfold vLift; rw [hp]; rfl] at this
    obtain ⟨s1, s2, s3, s4, s5⟩ := this
    have len : T.types.length = 2 := by rw [hT]; rfl
    have g1 := (s4 1 (by omega)).1
    refine ⟨?_, ?_⟩
    · unfold vHasValue; rw [s3]; cases p <;> rfl
    · unfold vError; rw [g1]; cases p <;> rfl
/-- C106, `expected<void, E>`: two are equal if both are success or both hold equal errors; success never equals an `unexpected`. -/
theorem C106_expected_void_compare (T : Tys V) (eqe : V → V → Bool) {x y : Var V} {p q : Option V} (hx : VShows T x p) (hy : VShows T y q) (u : V) :
    vEq T eqe x y = boolOk (SameOpt eqe p q) ∧ vEqUnexp T eqe x u = boolOk (SameOpt eqe p (some u)) := by
  obtain ⟨x1, x2⟩ := hx
  obtain ⟨y1, y2⟩ := hy
  constructor
  · unfold vEq; rw [x1, y1, x2, y2]; cases p <;> cases q <;> simp [SameOpt, gWith2, gWith, boolOk]
  · unfold vEqUnexp; rw [x1, x2]; cases p <;> simp [SameOpt, gWith, boolOk]

/-! ## result -/

/-- one operation on results: values (`inl`) and errors (`inr`).  Taking what is there moves it out: the result keeps what a move leaves behind. -/
def rSpecStep (mv me : V → V) (a : EAbs V) : ROp V → Option (EAbs V × Option (Got V))
  | .ofValue i x => if (a i).isNone then (eSetSpec mv me a i true x).map (·, none) else none
  | .ofError i x => if (a i).isNone then (eSetSpec mv me a i false x).map (·, none) else none
  | .copy i j => match a j with
    | some y => if (a i).isNone then some (upd a i (some y), none) else none
    | none => none
  | .move i j => match a j with
    | some y => if (a i).isNone then some (upd (upd a j (some (movedSum mv me y))) i (some y), none) else none
    | none => none
  | .destroy i => if (a i).isSome then some (upd a i none, none) else none
  | .assignCopy i j => match a i, a j with
    | some _, some y => some (upd a i (some y), none)
    | _, _ => none
  | .assignMove i j => match a i, a j with
    | some _, some y => if i = j then some (a, none) else some (upd (upd a j (some (movedSum mv me y))) i (some y), none)
    | _, _ => none
  | .assignValue i x => if (a i).isSome then (eSetSpec mv me a i true x).map (·, none) else none
  | .assignError i x => if (a i).isSome then (eSetSpec mv me a i false x).map (·, none) else none
  | .take i side => match a i, side with
    | some (.inl v), true => some (upd a i (some (.inl (mv v))), some (.value v))
    | some (.inr e), false => some (upd a i (some (.inr (me e))), some (.value e))
    | some _, _ => some (a, some .error)
    | none, _ => none
def rSpecRun (mv me : V → V) (a : EAbs V) : List (ROp V) → Option (EAbs V × List (Got V))
  | [] => some (a, [])
  | o :: os => match rSpecStep mv me a o with
    | none => none
    | some (a, out) => (rSpecRun mv me a os).map fun r => (r.1, out.toList ++ r.2)
/-- The result `x` shows `p`: exactly the value or the error is alive in it; the accesses say so. -/
def RShows (T : Tys V) (x : Var V) (p : V ⊕ V) : Prop :=
  rHasValue x = p.isLeft ∧ rPeek T x true = .ok (match p with | .inl v => .value v | .inr _ => .error) ∧ rPeek T x false = .ok (match p with | .inl _ => .error | .inr e => .value e)

def rIdx : V ⊕ V → Nat × V
  | .inl v => (0, v)
  | .inr e => (1, e)
def rLift (a : EAbs V) : Abs V := fun i => (a i).map rIdx
theorem rLift_upd (a : EAbs V) (i : Nat) (p : Option (V ⊕ V)) : rLift (upd a i p) = upd (rLift a) i (p.map rIdx) := by
  funext j; unfold rLift upd; split <;> rfl

section
variable {T : Tys V} {tv te : Nat} (hT : T.types = [tv, te])
include hT
theorem rSet_ok {a a' : EAbs V} {i : Nat} {side : Bool} {x : Arg V} (h : eSetSpec (T.moved tv) (T.moved te) a i side x = some a') : setSpec T (rLift a) i (if side then 0 else 1) x = some (rLift a') := by
  unfold eSetSpec at h
  unfold setSpec
  cases x with
  | value v =>
    simp only [eArgSpec, Option.some.injEq] at h
    subst h
    simp only [argSpec, Option.some.injEq]
    rw [rLift_upd]
    cases side <;> rfl
  | content j m =>
    simp only [eArgSpec] at h
    simp only [argSpec]
    have t0 := vty0 hT
    have t1 := vty1 hT
    cases haj : a j with
    | none => rw [haj] at h; cases h
    | some p =>
      have e : rLift a j = some (rIdx p) := by unfold rLift; rw [haj]; rfl
      rw [e]
      rw [haj] at h
      cases p with
      | inl v =>
        simp only at h
        by_cases hc : j ≠ i ∧ side = true
        · rw [if_pos hc] at h
          simp only [Option.some.injEq] at h
          obtain ⟨hj, rfl⟩ := hc
          simp only [rIdx, if_true]
          rw [if_pos (show j ≠ i ∧ True from ⟨hj, trivial⟩)]
          simp only [Option.some.injEq]
          rw [← h, rLift_upd, t0]
          cases m
          · rfl
          · simp only [if_true]; rw [rLift_upd]; rfl
        · rw [if_neg hc] at h; cases h
      | inr v =>
        simp only at h
        by_cases hc : j ≠ i ∧ side = false
        · rw [if_pos hc] at h
          simp only [Option.some.injEq] at h
          obtain ⟨hj, rfl⟩ := hc
          simp only [rIdx, Bool.false_eq_true, if_false]
          rw [if_pos (show j ≠ i ∧ True from ⟨hj, trivial⟩)]
          simp only [Option.some.injEq]
          rw [← h, rLift_upd, t1]
          cases m
          · rfl
          · simp only [if_true]; rw [rLift_upd]; rfl
        · rw [if_neg hc] at h; cases h

theorem rTake_ok (hd : tv ≠ te) {a a' : EAbs V} {i : Nat} {side : Bool} {out : Option (Got V)} (h : rSpecStep (T.moved tv) (T.moved te) a (.take i side) = some (a', out)) :
    rTake T (lift T (rLift a)) i side = .ok (lift T (rLift a'), out) := by
  have t0 := vty0 hT
  have t1 := vty1 hT
  have len : T.types.length = 2 := by rw [hT]; rfl
  have s0 : sideType T true = tv := by unfold sideType; rw [hT]; rfl
  have s1 : sideType T false = te := by unfold sideType; rw [hT]; rfl
  have i0 : T.types.idxOf tv = 0 := by rw [hT, List.idxOf_cons_self]
  have i1 : T.types.idxOf te = 1 := by rw [hT, List.idxOf_cons_ne _ hd, List.idxOf_cons_self]
  have m0 : tv ∈ T.types := by rw [hT]; simp
  have m1 : te ∈ T.types := by rw [hT]; simp
  have c0 : ∀ v : V, Shows T (conc T (0, v)) 0 v := fun v => shows_conc (by omega)
  have c1 : ∀ v : V, Shows T (conc T (1, v)) 1 v := fun v => shows_conc (by omega)
  simp only [rSpecStep] at h
  unfold rTake
  rcases hai : a i with _ | v | e
  · rw [hai] at h; cases h
  · rw [hai] at h
    have lw : lift T (rLift a) i = some (conc T (0, v)) := by unfold lift rLift; rw [hai]; rfl
    rw [lw]
    cases side with
    | true =>
      simp only [Option.some.injEq, Prod.mk.injEq] at h
      obtain ⟨rfl, rfl⟩ := h
      simp only [s0]
      rw [((c0 v).2.2.2.2 tv m0).1, i0, if_pos rfl]
      simp only [evalArg]
      rw [lw]
      simp only
      have e2 : read (conc T (0, v)).data tv = .ok v := by simp [read, conc, t0]
      rw [e2, rLift_upd, lift_upd]
      simp [conc, rIdx, t0]
    | false =>
      simp only [Option.some.injEq, Prod.mk.injEq] at h
      obtain ⟨rfl, rfl⟩ := h
      simp only [s1]
      rw [((c0 v).2.2.2.2 te m1).1, i1, if_neg (by omega)]
  · rw [hai] at h
    have lw : lift T (rLift a) i = some (conc T (1, e)) := by unfold lift rLift; rw [hai]; rfl
    rw [lw]
    cases side with
    | true =>
      simp only [Option.some.injEq, Prod.mk.injEq] at h
      obtain ⟨rfl, rfl⟩ := h
      simp only [s0]
      rw [((c1 e).2.2.2.2 tv m0).1, i0, if_neg (by omega)]
    | false =>
      simp only [Option.some.injEq, Prod.mk.injEq] at h
      obtain ⟨rfl, rfl⟩ := h
      simp only [s1]
      rw [((c1 e).2.2.2.2 te m1).1, i1, if_pos rfl]
      simp only [evalArg]
      rw [lw]
      simp only
      have e2 : read (conc T (1, e)).data te = .ok e := by simp [read, conc, t1]
      rw [e2, rLift_upd, lift_upd]
      simp [conc, rIdx, t1]

theorem rStep_ok (hd : tv ≠ te) (hc : ∀ t ∈ [tv, te], T.copyable t = true ∧ T.moveable t = true) {a a' : EAbs V} {o : ROp V} {out : Option (Got V)} (h : rSpecStep (T.moved tv) (T.moved te) a o = some (a', out)) :
    rStep T (lift T (rLift a)) o = .ok (lift T (rLift a'), out) := by
  have t0 := vty0 hT
  have t1 := vty1 hT
  have f0 : typeFrom T.types 0 = tv := by rw [hT]; rfl
  have f1 : typeFrom T.types 1 = te := by rw [hT]; rfl
  have len : T.types.length = 2 := by rw [hT]; rfl
  have m0 : tv ∈ T.types := by rw [hT]; simp
  have m1 : te ∈ T.types := by rw [hT]; simp
  have i0 : T.types.idxOf tv = 0 := by rw [hT, List.idxOf_cons_self]
  have i1 : T.types.idxOf te = 1 := by rw [hT, List.idxOf_cons_ne _ hd, List.idxOf_cons_self]
  have isn : ∀ {i}, (a i).isNone = true → (rLift a i).isNone = true := by intro i hi; unfold rLift; simpa using hi
  have iss : ∀ {i}, (a i).isSome = true → (rLift a i).isSome = true := by intro i hi; unfold rLift; simpa using hi
  have lf : ∀ {i p}, a i = some p → rLift a i = some (rIdx p) := by intro i p hp; unfold rLift; rw [hp]; rfl
  have cp : ∀ p : V ⊕ V, T.copyable (tyOf T (rIdx p).1) = true ∧ T.moveable (tyOf T (rIdx p).1) = true := by
    intro p; cases p <;> simp only [rIdx]
    · rw [t0]; exact hc _ (by simp)
    · rw [t1]; exact hc _ (by simp)
  have mvd : ∀ p : V ⊕ V, rIdx (movedSum (T.moved tv) (T.moved te) p) = ((rIdx p).1, T.moved (tyOf T (rIdx p).1) (rIdx p).2) := by
    intro p; cases p <;> simp only [rIdx, movedSum]
    · rw [t0]
    · rw [t1]
  have fin : ∀ {p : Op V} {b : EAbs V}, specStep T (rLift a) p = some (rLift b) → noOut (step T (lift T (rLift a)) p) = .ok (lift T (rLift b), none) := by
    intro p b hp; rw [step_ok hp]; rfl
  cases o with
  | ofValue i x =>
    simp only [rSpecStep] at h
    split at h
    · next hi =>
      simp only [Option.map_eq_some_iff, Prod.mk.injEq] at h
      obtain ⟨b, hb, rfl, rfl⟩ := h
      refine fin ?_
      simp only [specStep]; rw [f0, if_pos ⟨isn hi, m0⟩, i0]; exact rSet_ok hT hb
    · cases h
  | ofError i x =>
    simp only [rSpecStep] at h
    split at h
    · next hi =>
      simp only [Option.map_eq_some_iff, Prod.mk.injEq] at h
      obtain ⟨b, hb, rfl, rfl⟩ := h
      refine fin ?_
      simp only [specStep]; rw [f1, if_pos ⟨isn hi, m1⟩, i1]; exact rSet_ok hT hb
    · cases h
  | copy i j =>
    simp only [rSpecStep] at h
    split at h
    · next y hj =>
      split at h
      · next hi =>
        simp only [Option.some.injEq, Prod.mk.injEq] at h; obtain ⟨rfl, rfl⟩ := h
        refine fin ?_
        simp only [specStep]
        rw [lf hj]
        simp only
        rw [if_pos ⟨isn hi, (cp y).1⟩, rLift_upd]; rfl
      · cases h
    · cases h
  | move i j =>
    simp only [rSpecStep] at h
    split at h
    · next y hj =>
      split at h
      · next hi =>
        simp only [Option.some.injEq, Prod.mk.injEq] at h; obtain ⟨rfl, rfl⟩ := h
        refine fin ?_
        simp only [specStep]
        rw [lf hj]
        simp only
        rw [if_pos ⟨isn hi, (cp y).2⟩, rLift_upd, rLift_upd, Option.map_some, Option.map_some, mvd]
      · cases h
    · cases h
  | destroy i =>
    simp only [rSpecStep] at h
    split at h
    · next hi =>
      simp only [Option.some.injEq, Prod.mk.injEq] at h; obtain ⟨rfl, rfl⟩ := h
      refine fin ?_
      simp only [specStep]
      rw [if_pos (iss hi), rLift_upd]; rfl
    · cases h
  | assignCopy i j =>
    simp only [rSpecStep] at h
    split at h
    · next x y hi hj =>
      simp only [Option.some.injEq, Prod.mk.injEq] at h; obtain ⟨rfl, rfl⟩ := h
      refine fin ?_
      simp only [specStep]
      rw [lf hi, lf hj]
      simp only
      rw [if_pos (cp y).1, rLift_upd]; rfl
    · cases h
  | assignMove i j =>
    simp only [rSpecStep] at h
    split at h
    · next x y hi hj =>
      by_cases hij : i = j
      · rw [if_pos hij] at h; simp only [Option.some.injEq, Prod.mk.injEq] at h; obtain ⟨rfl, rfl⟩ := h
        refine fin ?_
        simp only [specStep]
        rw [lf hi, lf hj]
        simp only
        rw [if_pos hij]
      · rw [if_neg hij] at h
        simp only [Option.some.injEq, Prod.mk.injEq] at h; obtain ⟨rfl, rfl⟩ := h
        refine fin ?_
        simp only [specStep]
        rw [lf hi, lf hj]
        simp only
        rw [if_neg hij, if_pos (cp y).2, rLift_upd, rLift_upd, Option.map_some, Option.map_some, mvd]
    · cases h
  | assignValue i x =>
    simp only [rSpecStep] at h
    split at h
    · next hi =>
      simp only [Option.map_eq_some_iff, Prod.mk.injEq] at h
      obtain ⟨b, hb, rfl, rfl⟩ := h
      refine fin ?_
      simp only [specStep]; rw [f0, if_pos ⟨iss hi, m0⟩, i0]; exact rSet_ok hT hb
    · cases h
  | assignError i x =>
    simp only [rSpecStep] at h
    split at h
    · next hi =>
      simp only [Option.map_eq_some_iff, Prod.mk.injEq] at h
      obtain ⟨b, hb, rfl, rfl⟩ := h
      refine fin ?_
      simp only [specStep]; rw [f1, if_pos ⟨iss hi, m1⟩, i1]; exact rSet_ok hT hb
    · cases h
  | take i side => exact rTake_ok hT hd h
end

/-- C106, `result`: the value and the error type are two types that can be copied and moved.  Whatever a program does, no object is constructed over a live one, destroyed twice or left alive; every access gives the value or the error last stored, or an error if it asks for the other; and every result shows at the end what the specification says. -/
theorem C106_result (T : Tys V) {tv te : Nat} (hT : T.types = [tv, te]) (hd : tv ≠ te) (hc : ∀ t ∈ [tv, te], T.copyable t = true ∧ T.moveable t = true)
    (os : List (ROp V)) {a : EAbs V} {outs : List (Got V)} (h : rSpecRun (T.moved tv) (T.moved te) (fun _ => none) os = some (a, outs)) :
    ∃ w, rRun T (fun _ => none) os = .ok (w, outs) ∧ (∀ i, (w i).isSome = (a i).isSome) ∧ ∀ i x p, w i = some x → a i = some p → RShows T x p := by
  have key : ∀ (os : List (ROp V)) (b : EAbs V) (outs : List (Got V)), rSpecRun (T.moved tv) (T.moved te) b os = some (a, outs) → rRun T (lift T (rLift b)) os = .ok (lift T (rLift a), outs) := by
    intro os
    induction os with
    | nil => intro b outs h; simp only [rSpecRun, Option.some.injEq, Prod.mk.injEq] at h; obtain ⟨rfl, rfl⟩ := h; rfl
    | cons o os ih =>
      intro b outs h
      simp only [rSpecRun] at h
      split at h
      · cases h
      · next b1 out h1 =>
        simp only [Option.map_eq_some_iff] at h
        obtain ⟨r, hr, hq⟩ := h
        obtain ⟨r1, r2⟩ := r
        simp only [Prod.mk.injEq] at hq
        obtain ⟨rfl, rfl⟩ := hq
        simp only [rRun]
        rw [rStep_ok hT hd hc h1]
        simp only
        rw [ih b1 r2 hr]
  refine ⟨_, key os _ outs h, fun i => ?_, fun i x p hx hp => ?_⟩
  · unfold lift rLift; cases a i <;> rfl
  · have len : T.types.length = 2 := by rw [hT]; rfl
    have s0 : sideType T true = tv := by unfold sideType; rw [hT]; rfl
    have s1 : sideType T false = te := by unfold sideType; rw [hT]; rfl
    have i0 : T.types.idxOf tv = 0 := by rw [hT, List.idxOf_cons_self]
    have i1 : T.types.idxOf te = 1 := by rw [hT, List.idxOf_cons_ne _ hd, List.idxOf_cons_self]
    have m0 : tv ∈ T.types := by rw [hT]; simp
    have m1 : te ∈ T.types := by rw [hT]; simp
    have hx' : x = conc T (rIdx p) := by
      unfold lift rLift at hx; rw [hp] at hx; simpa using hx.symm
    subst hx'
    have sh : Shows T (conc T (rIdx p)) (rIdx p).1 (rIdx p).2 := shows_conc (by cases p <;> simp only [rIdx] <;> omega)
    refine ⟨?_, ?_, ?_⟩
    · unfold rHasValue; rw [sh.id]; cases p <;> rfl
    · unfold rPeek; rw [s0, (sh.2.2.2.2 tv m0).1, i0]; cases p <;> rfl
    · unfold rPeek; rw [s1, (sh.2.2.2.2 te m1).1, i1]; cases p <;> rfl

/-- one operation on objects that hold something or nothing -/
def sSpecStep (moved : V → V) (a : OAbs V) : SOp V → Option (OAbs V)
  | .default i => if (a i).isNone then some (upd a i (some none)) else none
  | .ofValue i x => if (a i).isNone then oSetSpec moved a i x else none
  | .copy i j => match a j with
    | some y => if (a i).isNone then some (upd a i (some y)) else none
    | none => none
  | .move i j => match a j with
    | some y => if (a i).isNone then some (upd (upd a j (some (y.map moved))) i (some y)) else none
    | none => none
  | .destroy i => if (a i).isSome then some (upd a i none) else none
  | .assignValue i x => if (a i).isSome then oSetSpec moved a i x else none
def sSpecRun (moved : V → V) (a : OAbs V) : List (SOp V) → Option (OAbs V)
  | [] => some a
  | o :: os => match sSpecStep moved a o with
    | none => none
    | some a => sSpecRun moved a os
/-- a name that the program does not create -/
def SOp.name : SOp V → Nat
  | .default i => i
  | .ofValue i _ => i
  | .copy i _ => i
  | .move i _ => i
  | .destroy i => i
  | .assignValue i _ => i
theorem exists_fresh (os : List (SOp V)) : ∃ tmp, ∀ o ∈ os, o.name < tmp := by
  induction os with
  | nil => exact ⟨0, by simp⟩
  | cons o os ih =>
    obtain ⟨t, ht⟩ := ih
    refine ⟨t + o.name + 1, ?_⟩
    intro o' ho
    rcases List.mem_cons.mp ho with rfl | h
    · omega
    · have := ht o' h; omega
theorem sRun_tmp (moved : V → V) (t t' : Nat) (os : List (SOp V)) : ∀ w, oRun moved t w (os.map SOp.toOptional) = oRun moved t' w (os.map SOp.toOptional) := by
  induction os with
  | nil => intro w; rfl
  | cons o os ih =>
    intro w
    have e : oStep moved t w o.toOptional = oStep moved t' w o.toOptional := by cases o <;> rfl
    simp only [List.map_cons, oRun, e]
    cases oStep moved t' w o.toOptional with
    | error e => rfl
    | ok w => exact ih w
theorem sSpec_eq (moved : V → V) (os : List (SOp V)) : ∀ a, sSpecRun moved a os = oSpecRun moved a (os.map SOp.toOptional) := by
  induction os with
  | nil => intro a; rfl
  | cons o os ih =>
    intro a
    have e : sSpecStep moved a o = oSpecStep moved a o.toOptional := by cases o <;> rfl
    simp only [List.map_cons, sSpecRun, oSpecRun, e]
    cases oSpecStep moved a o.toOptional with
    | none => rfl
    | some a => exact ih a
/-- C106, `result<void, E>` and `result<T, void>`: after any program each object holds what was last stored, or nothing, and nothing is constructed over a live object, destroyed twice or left alive.  For `result<void, E>` nothing is success and what it holds is the error. -/
theorem C106_result_void (moved : V → V) (os : List (SOp V)) {a : OAbs V} (h : sSpecRun moved (fun _ => none) os = some a) :
    ∃ w, oRun moved 0 (fun _ => none) (os.map SOp.toOptional) = .ok w ∧ (∀ i, (w i).isSome = (a i).isSome) ∧
      ∀ i x p, w i = some x → a i = some p → OShows x p ∧ rvHasValue x = p.isNone ∧ (∀ e, p = some e → ∀ debug, rvError debug x = .ok (.value e)) ∧ (p = none → rvError true x = .ok .error) := by
  obtain ⟨tmp, ht⟩ := exists_fresh os
  rw [sSpec_eq] at h
  obtain ⟨w, hw, hs⟩ := C47_optional moved tmp (os.map SOp.toOptional) (by
    intro o ho
    obtain ⟨s, hs, rfl⟩ := List.mem_map.mp ho
    have := ht s hs
    cases s <;> simp only [SOp.toOptional, OOp.fresh, SOp.name] at * <;> omega) h
  refine ⟨w, by rw [sRun_tmp moved 0 tmp]; exact hw, fun i => ?_, fun i x p hx hp => ?_⟩
  · have := hs i
    cases ha : a i <;> cases hwi : w i <;> rw [ha, hwi] at this <;> first | rfl | (exact False.elim this)
  · have := hs i
    rw [hx, hp] at this
    have sh : OShows x p := this
    refine ⟨sh, ?_, sh.2.2.1, sh.2.2.2.1⟩
    unfold rvHasValue; rw [sh.2.1]; cases p <;> rfl

/-! ## Examples -/

/-- types 0, 1, 2 -/
def exV : Tys Nat := ⟨[0, 1, 2], fun _ => true, fun _ => true, fun _ _ => 0, fun _ => 7⟩
example : exV.types.Nodup := by decide
example : Shows exV (conc exV (1, 5)) 1 5 := shows_conc (by decide)
example : VState exV ⟨none, none, none⟩ none := rfl
/-- a visit of two variants -/
example : (match visit [(exV, conc exV (1, 5)), (exV, conc exV (2, 8))] (fun args => .ok (.value (args.map Prod.snd))) with
    | .ok (.value l) => decide (l = [5, 8])
    | _ => false) = true := by decide +kernel
example : (match varLt exV (fun _ a b => decide (a < b)) (conc exV (1, 9)) (conc exV (2, 3)) with
    | .ok (.value b) => b
    | _ => false) = true := by decide +kernel
def natCmp : Cmp Nat := ⟨fun a b => decide (a = b), fun a b => decide (a < b), fun a b => decide (a ≤ b), fun a b => decide (a > b), fun a b => decide (a ≥ b)⟩
example : natCmp.Fits := ⟨fun a b => by simp [natCmp, eq_comm], fun a b => by simp only [natCmp]; by_cases h : a ≤ b <;> simp [h] <;> omega, fun a b => rfl, fun a b => by simp only [natCmp]; by_cases h : b ≤ a <;> simp [h] <;> omega⟩
/-- types 1, 2, both copyable and moveable -/
def exR : Tys Nat := ⟨[1, 2], fun _ => true, fun _ => true, fun _ _ => 0, fun _ => 0⟩
example : exR.types = [1, 2] ∧ (1 : Nat) ≠ 2 ∧ (∀ t ∈ [1, 2], exR.copyable t = true ∧ exR.moveable t = true) ∧ exR.moved 1 (exR.dflt 1) = exR.dflt 1 := by decide
def exVOps : List (VOp Nat) := [.default 1, .ofUnexpected 2 (.value 5), .swap 1 2, .copy 3 1, .assignUnexpected 2 (.content 1 false), .assignMove 1 2, .destroy 3]
example : (match vSpecRun (fun _ => 0) (fun _ => none) exVOps with
    | some a => decide (a 1 = some (some 5) ∧ a 2 = some (some 0) ∧ a 3 = none)
    | none => false) = true := by decide +kernel
def exROps : List (ROp Nat) := [.ofValue 1 (.value 5), .ofError 2 (.value 6), .copy 3 1, .take 3 true, .take 2 true, .assignError 1 (.content 2 false), .assignMove 3 1, .destroy 2]
example : (match rSpecRun (fun _ => 0) (fun _ => 0) (fun _ => none) exROps with
    | some (a, outs) => decide (a 1 = some (.inr 0) ∧ a 2 = none ∧ a 3 = some (.inr 6) ∧ outs = [.value 5, .error])
    | none => false) = true := by decide +kernel
example : (match sSpecRun (fun _ => 0) (fun _ => none) [.default 1, .ofValue 2 (.value 5), .assignValue 1 (.content 2 true), .copy 3 1, .destroy 3] with
    | some a => decide (a 1 = some (some 5) ∧ a 2 = some (some 0) ∧ a 3 = none)
    | none => false) = true := by decide +kernel

/-! ## Findings -/

/-- Reading the value of a `result` that is not `const` empties it: the second `auto x = r.value()` gives what the first move left behind, although the result still has a value. -/
theorem result_value_moves_out : (match rRun exR (fun _ => none) [.ofValue 1 (.value 5), .take 1 true, .take 1 true] with
    | .ok (w, outs) => decide (outs = [.value 5, .value 0]) && (match w 1 with
      | some x => rHasValue x
      | none => false)
    | .error _ => false) = true := by decide +kernel
/-- With a repeated type, two variants with the same alternative and the same value cannot be compared: the visitor looks for the value by type and finds the first alternative of that type. -/
theorem compare_repeated_type_fails : (match varEq ⟨[1, 1], fun _ => true, fun _ => true, fun _ (v : Nat) => v, fun _ => 0⟩ (fun _ a b => decide (a = b)) (conc ⟨[1, 1], fun _ => true, fun _ => true, fun _ v => v, fun _ => 0⟩ (1, 5)) (conc ⟨[1, 1], fun _ => true, fun _ => true, fun _ v => v, fun _ => 0⟩ (1, 5)) with
    | .ok .error => true
    | _ => false) = true := by decide +kernel

end Etl.SumT
