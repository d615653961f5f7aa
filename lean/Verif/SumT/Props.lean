import Verif.SumT.Model
import Mathlib.Tactic.ByContra
import Mathlib.Tactic.SplitIfs
import Mathlib.Tactic.Tauto
import Mathlib.Data.List.Basic

/-!
# C47: optional, variant and expected hold exactly one live object

Specification: a variant is the index of its alternative and a value, an optional is a value or nothing, an expected is a value or an error.  `specRun` is `none` for a program that does what the caller must not do: use an object that does not exist, create one twice, name a type or an index that is not there, copy a type that cannot be copied, or give a variant a reference to its own content.
-/
namespace Etl.SumT

variable {V : Type}

/-! ## variant -/

/-- the type of alternative `k` -/
def tyOf (T : Tys V) (k : Nat) : Nat := T.types.getD k 0
/-- the objects: index and value -/
abbrev Abs (V : Type) := Nat → Option (Nat × V)
/-- the value of an argument of type `t`, for the object `own`; a moved argument changes -/
def argSpec (T : Tys V) (a : Abs V) (own t : Nat) : Arg V → Option (V × Abs V)
  | .value v => some (v, a)
  | .content j mv => match a j with
    | none => none
    | some (k, v) => if j ≠ own ∧ tyOf T k = t then some (v, if mv then upd a j (some (k, T.moved t v)) else a) else none
/-- object `i` becomes alternative `k` with the argument as value -/
def setSpec (T : Tys V) (a : Abs V) (i k : Nat) (x : Arg V) : Option (Abs V) := match argSpec T a i (tyOf T k) x with
  | none => none
  | some (v, a) => some (upd a i (some (k, v)))
/-- one operation -/
def specStep (T : Tys V) (a : Abs V) : Op V → Option (Abs V)
  | .default i => if a i = none ∧ 0 < T.types.length then some (upd a i (some (0, T.dflt (tyOf T 0)))) else none
  | .ofValue i t x => if (a i).isNone ∧ t ∈ T.types then setSpec T a i (T.types.idxOf t) x else none
  | .inPlace i k x => if (a i).isNone ∧ k < T.types.length then setSpec T a i k x else none
  | .copy i j => match a j with
    | some (k, v) => if (a i).isNone ∧ T.copyable (tyOf T k) then some (upd a i (some (k, v))) else none
    | none => none
  | .move i j => match a j with
    | some (k, v) => if (a i).isNone ∧ T.moveable (tyOf T k) then some (upd (upd a j (some (k, T.moved (tyOf T k) v))) i (some (k, v))) else none
    | none => none
  | .destroy i => if (a i).isSome then some (upd a i none) else none
  | .emplaceT i t x => if (a i).isSome ∧ t ∈ T.types then setSpec T a i (T.types.idxOf t) x else none
  | .emplaceI i k x => if (a i).isSome ∧ k < T.types.length then setSpec T a i k x else none
  | .assignValue i t x => if (a i).isSome ∧ t ∈ T.types then setSpec T a i (T.types.idxOf t) x else none
  | .assignCopy i j => match a i, a j with
    | some _, some (k, v) => if T.copyable (tyOf T k) then some (upd a i (some (k, v))) else none
    | _, _ => none
  | .assignMove i j => match a i, a j with
    | some _, some (k, v) => if i = j then some a else if T.moveable (tyOf T k) then some (upd (upd a j (some (k, T.moved (tyOf T k) v))) i (some (k, v))) else none
    | _, _ => none
  | .swap i j => match a i, a j with
    | some (k, v), some (l, u) => if T.moveable (tyOf T k) ∧ T.moveable (tyOf T l) then some (upd (upd a i (some (l, u))) j (some (k, v))) else none
    | _, _ => none
def specRun (T : Tys V) (a : Abs V) : List (Op V) → Option (Abs V)
  | [] => some a
  | o :: os => match specStep T a o with
    | none => none
    | some a => specRun T a os

/-- The variant `x` shows alternative `k` with value `v`: that object, of that type, is the only one alive in it; the index says so; every access with that index or type gives the value, every other an error. -/
def Shows (T : Tys V) (x : Var V) (k : Nat) (v : V) : Prop :=
  k < T.types.length ∧ x.data = some (tyOf T k, v) ∧ x.typeId = some k ∧
  (∀ l < T.types.length, get T x l = .ok (if l = k then .value v else .error) ∧ getIf T x l = .ok (if l = k then some v else none)) ∧
  (∀ t ∈ T.types, getT T x t = .ok (if T.types.idxOf t = k then .value v else .error) ∧ holds T x t = decide (T.types.idxOf t = k))

theorem indexOf_eq {l : List Nat} {t : Nat} (h : t ∈ l) : indexOf l t = l.idxOf t := by
  induction l with
  | nil => cases h
  | cons a l ih =>
    cases l with
    | nil => simp only [List.mem_singleton] at h; subst h; simp [indexOf]
    | cons b rest =>
      simp only [indexOf]
      by_cases ha : a = t
      · subst ha; simp
      · rw [if_neg ha, ih (by simpa [Ne.symm ha] using h), List.idxOf_cons_ne _ ha]; omega
theorem typeFrom_eq {l : List Nat} : ∀ {k : Nat}, k < l.length → typeFrom l k = l.getD k 0 := by
  induction l with
  | nil => intro k h; simp at h
  | cons a l ih =>
    intro k h
    cases l with
    | nil => simp at h; subst h; rfl
    | cons b rest =>
      cases k with
      | zero => rfl
      | succ k => simp only [typeFrom]; rw [ih (by simpa using h)]; rfl
theorem tyOf_idxOf {T : Tys V} {t : Nat} (h : t ∈ T.types) : tyOf T (T.types.idxOf t) = t ∧ T.types.idxOf t < T.types.length := by
  have hl := List.idxOf_lt_length_iff.mpr h
  refine ⟨?_, hl⟩
  unfold tyOf
  rw [List.getD_eq_getElem?_getD, List.getElem?_eq_getElem hl, Option.getD_some, List.getElem_idxOf]

/-- the variant of an index and a value -/
def conc (T : Tys V) (p : Nat × V) : Var V := ⟨some (tyOf T p.1, p.2), some (tyOf T p.1), some p.1⟩
def lift (T : Tys V) (a : Abs V) : World V := fun i => (a i).map (conc T)
theorem lift_upd (T : Tys V) (a : Abs V) (i : Nat) (p : Option (Nat × V)) : lift T (upd a i p) = upd (lift T a) i (p.map (conc T)) := by
  funext j; unfold lift upd; split <;> rfl
theorem upd_upd {β : Type} (f : Nat → β) (i : Nat) (x y : β) : upd (upd f i x) i y = upd f i y := by
  funext j; unfold upd; split <;> rfl
theorem upd_comm {β : Type} (f : Nat → β) {i j : Nat} (h : i ≠ j) (x y : β) : upd (upd f i x) j y = upd (upd f j y) i x := by
  funext k; unfold upd; split_ifs <;> simp_all
theorem upd_id {β : Type} (f : Nat → β) (i : Nat) : upd f i (f i) = f := by
  funext k; unfold upd; split_ifs with h; · rw [h]
  · rfl

theorem read_conc (T : Tys V) (p : Nat × V) : read (conc T p).data (tyOf T p.1) = .ok p.2 := by simp [read, conc]

/-- the argument, with the content of the object `own` replaced by anything -/
theorem arg_ok {T : Tys V} {a a' : Abs V} {own t : Nat} {x : Arg V} {v : V} (h : argSpec T a own t x = some (v, a')) (y : Option (Var V)) :
    evalArg T (upd (lift T a) own y) t x = .ok (v, upd (lift T a') own y) := by
  cases x with
  | value u => simp only [argSpec, Option.some.injEq, Prod.mk.injEq] at h; obtain ⟨rfl, rfl⟩ := h; rfl
  | content j mv =>
    simp only [argSpec] at h
    cases haj : a j with
    | none => rw [haj] at h; cases h
    | some p =>
      obtain ⟨k, u⟩ := p
      rw [haj] at h
      simp only at h
      split at h
      · next hc =>
        obtain ⟨hne, hty⟩ := hc
        simp only [Option.some.injEq, Prod.mk.injEq] at h
        obtain ⟨rfl, rfl⟩ := h
        simp only [evalArg]
        have e : upd (lift T a) own y j = some (conc T (k, u)) := by rw [upd_other _ _ hne]; unfold lift; rw [haj]; rfl
        rw [e]
        simp only
        have e2 : read (conc T (k, u)).data t = .ok u := by rw [← hty]; exact read_conc T (k, u)
        rw [e2]
        simp only
        cases mv with
        | false => rfl
        | true =>
          simp only [if_true]
          rw [lift_upd, upd_comm _ (Ne.symm hne)]
          simp [conc, hty]
      · cases h

theorem create_ok {T : Tys V} {a a' : Abs V} {i k : Nat} {x : Arg V} (hi : a i = none) (h : setSpec T a i k x = some a') : create T (lift T a) i k (tyOf T k) x = .ok (lift T a') := by
  unfold setSpec at h
  split at h
  · cases h
  · next v a1 h1 =>
    simp only [Option.some.injEq] at h
    subst h
    have := arg_ok h1 none
    have e : upd (lift T a) i none = lift T a := by
      have : lift T a i = none := by unfold lift; rw [hi]; rfl
      conv_rhs => rw [← upd_id (lift T a) i, this]
    rw [e] at this
    unfold create
    rw [this]
    simp only [construct]
    rw [lift_upd, upd_upd]; rfl
theorem replace_ok {T : Tys V} {a a' : Abs V} {i k : Nat} {x : Arg V} (hi : (a i).isSome) (h : setSpec T a i k x = some a') : replace T (lift T a) i k (tyOf T k) x = .ok (lift T a') := by
  unfold setSpec at h
  obtain ⟨p, hp⟩ := Option.isSome_iff_exists.mp hi
  split at h
  · cases h
  · next v a1 h1 =>
    simp only [Option.some.injEq] at h
    subst h
    have e : lift T a i = some (conc T p) := by unfold lift; rw [hp]; rfl
    unfold replace
    rw [e]
    simp only
    have ed : opDestroy (conc T p).operation (conc T p).data = .ok none := by simp [opDestroy, conc, destroyAt]
    rw [ed]
    simp only
    rw [arg_ok h1]
    simp only [construct]
    rw [lift_upd, upd_upd]; rfl

theorem copyCtor_ok {T : Tys V} {p : Nat × V} (h : T.copyable (tyOf T p.1)) : copyCtor T (conc T p) = .ok (conc T p) := by
  simp [copyCtor, conc, opCopy, h, read, construct]
theorem moveCtor_ok {T : Tys V} {p : Nat × V} (h : T.moveable (tyOf T p.1)) : moveCtor T (conc T p) = .ok (conc T p, conc T (p.1, T.moved (tyOf T p.1) p.2)) := by
  simp [moveCtor, conc, opMove, h, read, construct]
theorem dtor_ok (T : Tys V) (p : Nat × V) : dtor (conc T p) = .ok none := by simp [dtor, conc, opDestroy, destroyAt]
theorem assignCopy_ok {T : Tys V} {q p : Nat × V} (h : T.copyable (tyOf T p.1)) : assignCopy T (conc T q) (conc T p) = .ok (conc T p) := by
  simp [assignCopy, conc, opCopy, opDestroy, destroyAt, h, read, construct]
theorem assignMove_ok {T : Tys V} {q p : Nat × V} (h : T.moveable (tyOf T p.1)) : assignMove T (conc T q) (conc T p) = .ok (conc T p, conc T (p.1, T.moved (tyOf T p.1) p.2)) := by
  simp [assignMove, conc, opMove, opDestroy, destroyAt, h, read, construct]

theorem step_ok {T : Tys V} {a a' : Abs V} {o : Op V} (h : specStep T a o = some a') : step T (lift T a) o = .ok (lift T a') := by
  have lf : ∀ i p, a i = some p → lift T a i = some (conc T p) := by intro i p hp; unfold lift; rw [hp]; rfl
  cases o with
  | default i =>
    simp only [specStep] at h
    split at h
    · next hc =>
      simp only [step]
      rw [typeFrom_eq hc.2]
      refine create_ok (T := T) hc.1 ?_
      simp only [setSpec, argSpec]
      exact h
    · cases h
  | ofValue i t x =>
    simp only [specStep] at h
    split at h
    · next hc =>
      simp only [step]
      have := create_ok (T := T) (by simpa using hc.1) h
      rw [(tyOf_idxOf hc.2).1] at this
      rw [indexOf_eq hc.2]; exact this
    · cases h
  | inPlace i k x =>
    simp only [specStep] at h
    split at h
    · next hc =>
      simp only [step]
      rw [typeFrom_eq hc.2]
      exact create_ok (T := T) (by simpa using hc.1) h
    · cases h
  | copy i j =>
    simp only [specStep] at h
    split at h
    · next k v hj =>
      split at h
      · next hc =>
        simp only [Option.some.injEq] at h
        subst h
        simp only [step]
        rw [lf j _ hj]
        simp only
        rw [copyCtor_ok hc.2]
        simp only
        rw [lift_upd]; rfl
      · cases h
    · cases h
  | move i j =>
    simp only [specStep] at h
    split at h
    · next k v hj =>
      split at h
      · next hc =>
        simp only [Option.some.injEq] at h
        subst h
        simp only [step]
        rw [lf j _ hj]
        simp only
        rw [moveCtor_ok hc.2]
        simp only
        rw [lift_upd, lift_upd]; rfl
      · cases h
    · cases h
  | destroy i =>
    simp only [specStep] at h
    split at h
    · next hc =>
      simp only [Option.some.injEq] at h
      subst h
      obtain ⟨p, hp⟩ := Option.isSome_iff_exists.mp hc
      simp only [step]
      rw [lf i _ hp]
      simp only
      rw [dtor_ok]
      simp only
      rw [lift_upd]; rfl
    · cases h
  | emplaceT i t x =>
    simp only [specStep] at h
    split at h
    · next hc =>
      simp only [step]
      have := replace_ok (T := T) hc.1 h
      rw [(tyOf_idxOf hc.2).1] at this
      rw [indexOf_eq hc.2]; exact this
    · cases h
  | emplaceI i k x =>
    simp only [specStep] at h
    split at h
    · next hc =>
      simp only [step]
      rw [typeFrom_eq hc.2]
      exact replace_ok (T := T) hc.1 h
    · cases h
  | assignValue i t x =>
    simp only [specStep] at h
    split at h
    · next hc =>
      simp only [step]
      have := replace_ok (T := T) hc.1 h
      rw [(tyOf_idxOf hc.2).1] at this
      rw [indexOf_eq hc.2]; exact this
    · cases h
  | assignCopy i j =>
    simp only [specStep] at h
    split at h
    · next q k v hi hj =>
      split at h
      · next hc =>
        simp only [Option.some.injEq] at h
        subst h
        simp only [step]
        rw [lf i _ hi, lf j _ hj]
        simp only
        by_cases hij : i = j
        · rw [if_pos hij]
          subst hij
          rw [← hj, upd_id]
        · rw [if_neg hij, assignCopy_ok hc]
          simp only
          rw [lift_upd]; rfl
      · cases h
    · cases h
  | assignMove i j =>
    simp only [specStep] at h
    split at h
    · next q k v hi hj =>
      simp only [step]
      rw [lf i _ hi, lf j _ hj]
      simp only
      by_cases hij : i = j
      · rw [if_pos hij] at h ⊢
        simp only [Option.some.injEq] at h
        rw [h]
      · rw [if_neg hij] at h ⊢
        split at h
        · next hc =>
          simp only [Option.some.injEq] at h
          subst h
          rw [assignMove_ok hc]
          simp only
          rw [lift_upd, lift_upd]; rfl
        · cases h
    · cases h
  | swap i j =>
    simp only [specStep] at h
    split at h
    · next k v l u hi hj =>
      split at h
      · next hc =>
        simp only [Option.some.injEq] at h
        subst h
        simp only [step]
        rw [lf i _ hi, lf j _ hj]
        simp only
        rw [moveCtor_ok hc.1]
        simp only
        by_cases hij : i = j
        · rw [if_pos hij]
          simp only
          rw [assignMove_ok hc.1]
          simp only
          rw [dtor_ok]
          simp only
          subst hij
          rw [upd_upd, upd_upd, lift_upd]; rfl
        · rw [if_neg hij]
          rw [assignMove_ok hc.2]
          simp only
          rw [assignMove_ok hc.1]
          simp only
          rw [dtor_ok]
          simp only
          rw [lift_upd, lift_upd]; rfl
      · cases h
    · cases h

theorem argSpec_keys {T : Tys V} {a a' : Abs V} {own t : Nat} {x : Arg V} {v : V} (h : argSpec T a own t x = some (v, a')) (ha : ∀ i k u, a i = some (k, u) → k < T.types.length) : ∀ i k u, a' i = some (k, u) → k < T.types.length := by
  cases x with
  | value w => simp only [argSpec, Option.some.injEq, Prod.mk.injEq] at h; rw [← h.2]; exact ha
  | content j mv =>
    simp only [argSpec] at h
    split at h
    · cases h
    · next k0 v0 hj =>
      split at h
      · simp only [Option.some.injEq, Prod.mk.injEq] at h
        rw [← h.2]
        cases mv
        · exact ha
        · intro i k u hi
          simp only [if_true] at hi
          unfold upd at hi
          split at hi
          · simp only [Option.some.injEq, Prod.mk.injEq] at hi; rw [← hi.1]; exact ha _ _ _ hj
          · exact ha _ _ _ hi
      · cases h
theorem step_keys {T : Tys V} {a a' : Abs V} {o : Op V} (h : specStep T a o = some a') (ha : ∀ i k u, a i = some (k, u) → k < T.types.length) : ∀ i k u, a' i = some (k, u) → k < T.types.length := by
  have up : ∀ (b : Abs V) i k v, (∀ i k u, b i = some (k, u) → k < T.types.length) → k < T.types.length → ∀ i' k' u, upd b i (some (k, v)) i' = some (k', u) → k' < T.types.length := by
    intro b i k v hb hk i' k' u h'
    unfold upd at h'
    split at h'
    · simp only [Option.some.injEq, Prod.mk.injEq] at h'; omega
    · exact hb _ _ _ h'
  have set : ∀ i k x, setSpec T a i k x = some a' → k < T.types.length → ∀ i k u, a' i = some (k, u) → k < T.types.length := by
    intro i k x h' hk
    unfold setSpec at h'
    split at h'
    · cases h'
    · next v a1 h1 => simp only [Option.some.injEq] at h'; rw [← h']; exact up _ _ _ _ (argSpec_keys h1 ha) hk
  cases o <;> simp only [specStep] at h
  all_goals first
    | (split at h
       · next hc => first
          | exact set _ _ _ h (tyOf_idxOf hc.2).2
          | exact set _ _ _ h hc.2
          | (simp only [Option.some.injEq] at h; rw [← h]; exact up _ _ _ _ ha hc.2)
          | (simp only [Option.some.injEq] at h; rw [← h]; intro i' k' u h'; unfold upd at h'; split at h'; · cases h'
             · exact ha _ _ _ h')
       · cases h)
    | (split at h
       · split at h
         · simp only [Option.some.injEq] at h; rw [← h]
           first
            | exact up _ _ _ _ ha (ha _ _ _ (by assumption))
            | exact up _ _ _ _ (up _ _ _ _ ha (ha _ _ _ (by assumption))) (ha _ _ _ (by assumption))
            | exact ha
         · first
            | cases h
            | (split at h
               · simp only [Option.some.injEq] at h; rw [← h]; exact up _ _ _ _ (up _ _ _ _ ha (ha _ _ _ (by assumption))) (ha _ _ _ (by assumption))
               · cases h)
       · cases h)

theorem run_ok {T : Tys V} (os : List (Op V)) : ∀ {a a' : Abs V}, specRun T a os = some a' → (∀ i k u, a i = some (k, u) → k < T.types.length) → run T (lift T a) os = .ok (lift T a') ∧ ∀ i k u, a' i = some (k, u) → k < T.types.length := by
  induction os with
  | nil => intro a a' h ha; simp only [specRun, Option.some.injEq] at h; subst h; exact ⟨rfl, ha⟩
  | cons o os ih =>
    intro a a' h ha
    simp only [specRun] at h
    split at h
    · cases h
    · next a1 h1 =>
      simp only [run]
      rw [step_ok h1]
      exact ih h (step_keys h1 ha)

theorem shows_conc {T : Tys V} {k : Nat} {v : V} (hk : k < T.types.length) : Shows T (conc T (k, v)) k v := by
  have g : ∀ l < T.types.length, get T (conc T (k, v)) l = .ok (if l = k then .value v else .error) := by
    intro l hl
    unfold get
    by_cases h : l = k
    · subst h
      rw [if_pos rfl, if_pos (show (conc T (l, v)).typeId = some l from rfl), typeFrom_eq hl]
      have := read_conc T (l, v)
      unfold tyOf at this
      rw [this]
    · rw [if_neg h, if_neg (show ¬ (conc T (k, v)).typeId = some l from by simp [conc]; omega)]
  refine ⟨hk, rfl, rfl, fun l hl => ⟨g l hl, ?_⟩, fun t ht => ⟨?_, ?_⟩⟩
  · unfold getIf
    by_cases h : l = k
    · subst h
      rw [if_pos (show (conc T (l, v)).typeId = some l from rfl), g l hl, if_pos rfl, if_pos rfl]
    · rw [if_neg h, if_neg (show ¬ (conc T (k, v)).typeId = some l from by simp [conc]; omega)]
  · unfold getT
    rw [indexOf_eq ht]
    exact g _ (tyOf_idxOf ht).2
  · unfold holds
    rw [indexOf_eq ht]
    simp only [conc, Option.some.injEq]
    exact decide_eq_decide.mpr eq_comm

/-- C47, variant: whatever a program does, nothing is constructed over a live object, destroyed twice, destroyed as another type or left alive (the run has no error, and the destructor leaves nothing behind); every variant that exists shows the alternative and the value last stored. -/
theorem C47_variant (T : Tys V) (os : List (Op V)) {a : Abs V} (h : specRun T (fun _ => none) os = some a) :
    ∃ w, run T (fun _ => none) os = .ok w ∧ ∀ i, match w i, a i with
      | none, none => True
      | some x, some (k, v) => Shows T x k v
      | _, _ => False := by
  obtain ⟨h1, h2⟩ := run_ok os h (by intro i k u h; cases h)
  refine ⟨lift T a, h1, fun i => ?_⟩
  cases ha : a i with
  | none => simp [lift, ha]
  | some p =>
    obtain ⟨k, v⟩ := p
    simp only [lift, ha, Option.map]
    exact shows_conc (h2 i k v ha)

/-! ## optional -/

/-- the optionals: not there, empty, or a value -/
abbrev OAbs (V : Type) := Nat → Option (Option V)
def oArgSpec (moved : V → V) (a : OAbs V) (own : Nat) : Arg V → Option (V × OAbs V)
  | .value v => some (v, a)
  | .content j mv => match a j with
    | some (some v) => if j ≠ own then some (v, if mv then upd a j (some (some (moved v))) else a) else none
    | _ => none
def oSetSpec (moved : V → V) (a : OAbs V) (i : Nat) (x : Arg V) : Option (OAbs V) := match oArgSpec moved a i x with
  | none => none
  | some (v, a) => some (upd a i (some (some v)))
def oSpecStep (moved : V → V) (a : OAbs V) : OOp V → Option (OAbs V)
  | .default i => if (a i).isNone then some (upd a i (some none)) else none
  | .ofValue i x => if (a i).isNone then oSetSpec moved a i x else none
  | .copy i j => match a j with
    | some y => if (a i).isNone then some (upd a i (some y)) else none
    | none => none
  | .move i j => match a j with
    | some y => if (a i).isNone then some (upd (upd a j (some (y.map moved))) i (some y)) else none
    | none => none
  | .destroy i => if (a i).isSome then some (upd a i none) else none
  | .assignNull i => if (a i).isSome then some (upd a i (some none)) else none
  | .assignCopy i j => match a i, a j with
    | some _, some y => some (upd a i (some y))
    | _, _ => none
  | .assignMove i j => match a i, a j with
    | some _, some y => if i = j then some a else some (upd (upd a j (some (y.map moved))) i (some y))
    | _, _ => none
  | .assignValue i x => if (a i).isSome then oSetSpec moved a i x else none
  | .emplace i x => if (a i).isSome then oSetSpec moved a i x else none
  | .reset i => if (a i).isSome then some (upd a i (some none)) else none
  | .swap i j => match a i, a j with
    | some x, some y => some (upd (upd a i (some y)) j (some x))
    | _, _ => none
def oSpecRun (moved : V → V) (a : OAbs V) : List (OOp V) → Option (OAbs V)
  | [] => some a
  | o :: os => match oSpecStep moved a o with
    | none => none
    | some a => oSpecRun moved a os

def oConc (p : Option V) : Opt V := ⟨p.map fun v => (0, v), p.isSome⟩
def oLift (a : OAbs V) : OWorld V := fun i => (a i).map oConc
theorem oLift_upd (a : OAbs V) (i : Nat) (p : Option (Option V)) : oLift (upd a i p) = upd (oLift a) i (p.map oConc) := by
  funext j; unfold oLift upd; split <;> rfl
theorem clear_ok (p : Option V) : (oConc p).clear = .ok ⟨none, p.isSome⟩ := by cases p <;> simp [Opt.clear, oConc, destroyAt]
theorem destroy_ok (p : Option V) : (oConc p).destroy = .ok (oConc none) := by cases p <;> simp [Opt.destroy, oConc, destroyAt]
theorem oArg_ok {moved : V → V} {a a' : OAbs V} {own : Nat} {x : Arg V} {v : V} (h : oArgSpec moved a own x = some (v, a')) (y : Option (Opt V)) :
    oRead moved (upd (oLift a) own y) x = .ok (v, upd (oLift a') own y) := by
  cases x with
  | value u => simp only [oArgSpec, Option.some.injEq, Prod.mk.injEq] at h; obtain ⟨rfl, rfl⟩ := h; rfl
  | content j mv =>
    simp only [oArgSpec] at h
    split at h
    · next u haj =>
      split at h
      · next hne =>
        simp only [Option.some.injEq, Prod.mk.injEq] at h
        obtain ⟨rfl, rfl⟩ := h
        simp only [oRead]
        have e : upd (oLift a) own y j = some (oConc (some u)) := by rw [upd_other _ _ hne]; unfold oLift; rw [haj]; rfl
        rw [e]
        simp only
        have e2 : read (oConc (some u)).data 0 = .ok u := by simp [read, oConc]
        rw [e2]
        simp only
        cases mv with
        | false => rfl
        | true =>
          simp only [if_true]
          rw [oLift_upd, upd_comm _ (Ne.symm hne)]
          simp [oConc]
      · cases h
    · cases h
theorem oConstruct_ok {moved : V → V} {a a' : OAbs V} {i : Nat} {x : Arg V} {p : Option V} (hi : a i = some p) (h : oSetSpec moved a i x = some a') : oConstruct moved (oLift a) i x = .ok (oLift a') := by
  unfold oSetSpec at h
  split at h
  · cases h
  · next v a1 h1 =>
    simp only [Option.some.injEq] at h
    subst h
    have e : oLift a i = some (oConc p) := by unfold oLift; rw [hi]; rfl
    unfold oConstruct
    rw [e]
    simp only
    rw [clear_ok]
    simp only
    rw [oArg_ok h1]
    simp only [Opt.fill, construct]
    rw [oLift_upd, upd_upd]; rfl
theorem oDestroy_ok {a : OAbs V} {i : Nat} {p : Option V} (hi : a i = some p) : oDestroy (oLift a) i = .ok (oLift (upd a i (some none))) := by
  have e : oLift a i = some (oConc p) := by unfold oLift; rw [hi]; rfl
  unfold oDestroy
  rw [e]
  simp only
  rw [destroy_ok]
  simp only
  rw [oLift_upd]; rfl
theorem oFrom_ok {moved : V → V} {a : OAbs V} {i j : Nat} (hij : i ≠ j) {p y : Option V} (hi : a i = some p) (hj : a j = some y) (mv : Bool) :
    oFrom moved (oLift a) i j mv = .ok (oLift (upd (if mv then upd a j (some (y.map moved)) else a) i (some y))) := by
  have e : oLift a j = some (oConc y) := by unfold oLift; rw [hj]; rfl
  unfold oFrom
  rw [e]
  simp only
  cases y with
  | none =>
    rw [if_neg (by simp [oConc]), oDestroy_ok hi]
    cases mv
    · rfl
    · simp only [if_true, Option.map]
      rw [← hj, upd_id]
  | some v =>
    rw [if_pos (by rfl)]
    refine oConstruct_ok hi ?_
    unfold oSetSpec oArgSpec
    simp only [hj]
    rw [if_pos (Ne.symm hij)]
    simp
theorem oEnd_ok {a : OAbs V} {i : Nat} {p : Option V} (hi : a i = some p) : oEnd (oLift a) i = .ok (oLift (upd a i none)) := by
  unfold oEnd
  rw [oDestroy_ok hi]
  simp only
  have e : oLift (upd a i (some none)) i = some ⟨none, false⟩ := by rw [oLift_upd, upd_same]; rfl
  rw [e]
  simp only
  rw [← show upd (oLift (upd a i (some none))) i none = oLift (upd a i none) by rw [oLift_upd, oLift_upd, upd_upd]; rfl]
theorem oNew_eq (a : OAbs V) (i : Nat) : oNew (oLift a) i = oLift (upd a i (some none)) := by unfold oNew; rw [oLift_upd]; rfl

theorem oArg_new {moved : V → V} {a : OAbs V} {i : Nat} {x : Arg V} {a' : OAbs V} (h : oSetSpec moved a i x = some a') : oSetSpec moved (upd a i (some none)) i x = some a' := by
  unfold oSetSpec oArgSpec at h ⊢
  cases x with
  | value v => simp only [Option.some.injEq] at h ⊢; rw [upd_upd]; exact h
  | content j mv =>
    simp only at h ⊢
    by_cases hj : j = i
    · subst hj
      cases haj : a j with
      | none => rw [haj] at h; cases h
      | some y => cases y <;> rw [haj] at h <;> simp at h
    · rw [upd_other _ _ hj]
      split at h
      · cases h
      · next v a1 h1 =>
        split at h1
        · next u hu =>
          rw [if_pos hj] at h1
          simp only [Option.some.injEq, Prod.mk.injEq] at h1 h
          obtain ⟨rfl, rfl⟩ := h1
          rw [if_pos hj]
          simp only [Option.some.injEq]
          rw [← h]
          cases mv
          · simp only [Bool.false_eq_true, if_false]; rw [upd_upd]
          · simp only [if_true]; rw [upd_comm _ (Ne.symm hj), upd_upd]
        · cases h1

theorem oStep_ok {moved : V → V} {tmp : Nat} {a a' : OAbs V} {o : OOp V} (ht : a tmp = none) (h : oSpecStep moved a o = some a') : oStep moved tmp (oLift a) o = .ok (oLift a') := by
  cases o with
  | default i =>
    simp only [oSpecStep] at h
    split at h
    · simp only [Option.some.injEq] at h; subst h; simp only [oStep]; rw [oNew_eq]
    · cases h
  | ofValue i x =>
    simp only [oSpecStep] at h
    split at h
    · simp only [oStep]; rw [oNew_eq]; exact oConstruct_ok (upd_same _ _ _) (oArg_new h)
    · cases h
  | copy i j =>
    simp only [oSpecStep] at h
    split at h
    · next y hj =>
      split at h
      · next hi =>
        have hij : i ≠ j := by rintro rfl; rw [hj] at hi; cases hi
        simp only [Option.some.injEq] at h; subst h
        simp only [oStep]
        rw [oNew_eq, oFrom_ok hij (upd_same _ _ _) (by rw [upd_other _ _ (Ne.symm hij)]; exact hj)]
        simp only [Bool.false_eq_true, if_false]
        rw [upd_upd]
      · cases h
    · cases h
  | move i j =>
    simp only [oSpecStep] at h
    split at h
    · next y hj =>
      split at h
      · next hi =>
        have hij : i ≠ j := by rintro rfl; rw [hj] at hi; cases hi
        simp only [Option.some.injEq] at h; subst h
        simp only [oStep]
        rw [oNew_eq, oFrom_ok hij (upd_same _ _ _) (by rw [upd_other _ _ (Ne.symm hij)]; exact hj)]
        simp only [if_true]
        rw [upd_comm _ hij, upd_upd]
      · cases h
    · cases h
  | destroy i =>
    simp only [oSpecStep] at h
    split at h
    · next hi =>
      obtain ⟨p, hp⟩ := Option.isSome_iff_exists.mp hi
      simp only [Option.some.injEq] at h; subst h
      simp only [oStep]
      exact oEnd_ok hp
    · cases h
  | assignNull i =>
    simp only [oSpecStep] at h
    split at h
    · next hi =>
      obtain ⟨p, hp⟩ := Option.isSome_iff_exists.mp hi
      simp only [Option.some.injEq] at h; subst h
      have e : oLift a i = some (oConc p) := by unfold oLift; rw [hp]; rfl
      simp only [oStep]
      rw [e]
      simp only
      cases p with
      | none => rw [if_neg (by simp [oConc]), ← hp, upd_id]
      | some v => rw [if_pos (by rfl)]; exact oDestroy_ok hp
    · cases h
  | assignCopy i j =>
    simp only [oSpecStep] at h
    split at h
    · next x y hi hj =>
      simp only [Option.some.injEq] at h; subst h
      simp only [oStep]
      by_cases hij : i = j
      · rw [if_pos hij]; subst hij; rw [← hj, upd_id]
      · rw [if_neg hij, oFrom_ok hij hi hj]; rfl
    · cases h
  | assignMove i j =>
    simp only [oSpecStep] at h
    split at h
    · next x y hi hj =>
      simp only [oStep]
      by_cases hij : i = j
      · rw [if_pos hij] at h ⊢; simp only [Option.some.injEq] at h; rw [h]
      · rw [if_neg hij] at h ⊢
        simp only [Option.some.injEq] at h; subst h
        rw [oFrom_ok hij hi hj]; rfl
    · cases h
  | assignValue i x =>
    simp only [oSpecStep] at h
    split at h
    · next hi =>
      obtain ⟨p, hp⟩ := Option.isSome_iff_exists.mp hi
      exact oConstruct_ok hp h
    · cases h
  | emplace i x =>
    simp only [oSpecStep] at h
    split at h
    · next hi =>
      obtain ⟨p, hp⟩ := Option.isSome_iff_exists.mp hi
      exact oConstruct_ok hp h
    · cases h
  | reset i =>
    simp only [oSpecStep] at h
    split at h
    · next hi =>
      obtain ⟨p, hp⟩ := Option.isSome_iff_exists.mp hi
      simp only [Option.some.injEq] at h; subst h
      simp only [oStep]
      exact oDestroy_ok hp
    · cases h
  | swap i j =>
    simp only [oSpecStep] at h
    split at h
    · next x y hi hj =>
      simp only [Option.some.injEq] at h; subst h
      have hti : tmp ≠ i := by rintro rfl; rw [ht] at hi; cases hi
      have htj : tmp ≠ j := by rintro rfl; rw [ht] at hj; cases hj
      simp only [oStep]
      rw [oNew_eq, oFrom_ok hti (upd_same _ _ _) (by rw [upd_other _ _ (Ne.symm hti)]; exact hi)]
      simp only [Bool.false_eq_true, if_false]
      rw [upd_upd]
      have fin : ∀ b : OAbs V, b tmp = none → upd (upd b tmp (some x)) tmp none = b := by
        intro b hb; rw [upd_upd, ← hb, upd_id]
      by_cases hij : i = j
      · subst hij
        rw [if_pos rfl]
        simp only
        rw [oFrom_ok (Ne.symm hti) (by rw [upd_other _ _ (Ne.symm hti)]; exact hi) (upd_same _ _ _)]
        simp only [Bool.false_eq_true, if_false]
        rw [oEnd_ok (p := x) (by rw [upd_other _ _ hti, upd_same]), upd_comm _ hti, fin _ (by rw [upd_other _ _ hti]; exact ht), upd_upd]
      · rw [if_neg hij, oFrom_ok hij (by rw [upd_other _ _ (Ne.symm hti)]; exact hi) (by rw [upd_other _ _ (Ne.symm htj)]; exact hj)]
        simp only [Bool.false_eq_true, if_false]
        rw [oFrom_ok (Ne.symm htj) (p := y) (y := x) (by rw [upd_other _ _ (Ne.symm hij), upd_other _ _ (Ne.symm htj)]; exact hj) (by rw [upd_other _ _ hti, upd_same])]
        simp only [Bool.false_eq_true, if_false]
        rw [oEnd_ok (p := x) (by rw [upd_other _ _ htj, upd_other _ _ hti, upd_same]), upd_comm _ hti, upd_comm _ htj, fin _ (by rw [upd_other _ _ htj, upd_other _ _ hti]; exact ht)]
    · cases h

/-- the objects an operation creates -/
def OOp.fresh (tmp : Nat) : OOp V → Prop
  | .default i => i ≠ tmp
  | .ofValue i _ => i ≠ tmp
  | .copy i _ => i ≠ tmp
  | .move i _ => i ≠ tmp
  | _ => True

theorem oArg_tmp {moved : V → V} {tmp : Nat} {a a' : OAbs V} {i : Nat} {x : Arg V} (hi : i ≠ tmp) (ht : a tmp = none) (h : oSetSpec moved a i x = some a') : a' tmp = none := by
  unfold oSetSpec at h
  split at h
  · cases h
  · next v a1 h1 =>
    simp only [Option.some.injEq] at h
    subst h
    rw [upd_other _ _ (Ne.symm hi)]
    cases x with
    | value u => simp only [oArgSpec, Option.some.injEq, Prod.mk.injEq] at h1; rw [← h1.2]; exact ht
    | content j mv =>
      simp only [oArgSpec] at h1
      split at h1
      · next u hu =>
        split at h1
        · simp only [Option.some.injEq, Prod.mk.injEq] at h1
          rw [← h1.2]
          cases mv
          · exact ht
          · simp only [if_true]
            rw [upd_other _ _ (by rintro rfl; rw [ht] at hu; cases hu)]; exact ht
        · cases h1
      · cases h1
theorem oSpec_tmp {moved : V → V} {tmp : Nat} {a a' : OAbs V} {o : OOp V} (hf : o.fresh tmp) (ht : a tmp = none) (h : oSpecStep moved a o = some a') : a' tmp = none := by
  have ex : ∀ {i p}, a i = some p → tmp ≠ i := by rintro i p hp rfl; rw [ht] at hp; cases hp
  have exs : ∀ {i}, (a i).isSome = true → tmp ≠ i := by rintro i hp rfl; rw [ht] at hp; cases hp
  cases o <;> simp only [oSpecStep] at h
  case default i => split at h; · simp only [Option.some.injEq] at h; rw [← h, upd_other _ _ (Ne.symm hf)]; exact ht
                    · cases h
  case ofValue i x => split at h; · exact oArg_tmp hf ht h
                      · cases h
  case copy i j =>
    split at h
    · split at h
      · simp only [Option.some.injEq] at h; rw [← h, upd_other _ _ (Ne.symm hf)]; exact ht
      · cases h
    · cases h
  case move i j =>
    split at h
    · next hj => split at h
                 · simp only [Option.some.injEq] at h; rw [← h, upd_other _ _ (Ne.symm hf), upd_other _ _ (ex hj)]; exact ht
                 · cases h
    · cases h
  case assignCopy i j =>
    split at h
    · next hi hj => simp only [Option.some.injEq] at h; rw [← h, upd_other _ _ (ex hi)]; exact ht
    · cases h
  case assignMove i j =>
    split at h
    · next hi hj =>
      split at h
      · simp only [Option.some.injEq] at h; rw [← h]; exact ht
      · simp only [Option.some.injEq] at h; rw [← h, upd_other _ _ (ex hi), upd_other _ _ (ex hj)]; exact ht
    · cases h
  case swap i j =>
    split at h
    · next hi hj => simp only [Option.some.injEq] at h; rw [← h, upd_other _ _ (ex hj), upd_other _ _ (ex hi)]; exact ht
    · cases h
  case assignValue i x => split at h; · next hi => exact oArg_tmp (Ne.symm (exs hi)) ht h
                          · cases h
  case emplace i x => split at h; · next hi => exact oArg_tmp (Ne.symm (exs hi)) ht h
                      · cases h
  all_goals
    split at h
    · next hi => simp only [Option.some.injEq] at h; rw [← h, upd_other _ _ (exs hi)]; exact ht
    · cases h

/-- The optional `x` shows `p`: exactly that value is alive in it, or nothing. -/
def OShows (x : Opt V) (p : Option V) : Prop :=
  x.data = p.map (fun v => (0, v)) ∧ x.valid = p.isSome ∧
  (∀ v, p = some v → ∀ debug, oValue debug x = .ok (.value v)) ∧ (p = none → oValue true x = .ok .error) ∧ ∀ debug d, oValueOr debug x d = .ok (.value (p.getD d))

/-- C47, optional: whatever a program does, no object is constructed over a live one, destroyed twice or left alive, and every optional shows the value last stored, or nothing.  (`tmp` names the local variable of `swap`.) -/
theorem C47_optional (moved : V → V) (tmp : Nat) (os : List (OOp V)) (hf : ∀ o ∈ os, o.fresh tmp) {a : OAbs V} (h : oSpecRun moved (fun _ => none) os = some a) :
    ∃ w, oRun moved tmp (fun _ => none) os = .ok w ∧ ∀ i, match w i, a i with
      | none, none => True
      | some x, some p => OShows x p
      | _, _ => False := by
  have key : ∀ (os : List (OOp V)) (b : OAbs V), (∀ o ∈ os, o.fresh tmp) → b tmp = none → oSpecRun moved b os = some a → oRun moved tmp (oLift b) os = .ok (oLift a) := by
    intro os
    induction os with
    | nil => intro b _ _ h; simp only [oSpecRun, Option.some.injEq] at h; subst h; rfl
    | cons o os ih =>
      intro b hf hb h
      simp only [oSpecRun] at h
      split at h
      · cases h
      · next b1 h1 =>
        simp only [oRun]
        rw [oStep_ok hb h1]
        exact ih b1 (fun o ho => hf o (List.mem_cons_of_mem _ ho)) (oSpec_tmp (hf o List.mem_cons_self) hb h1) h
  refine ⟨oLift a, key os _ hf rfl h, fun i => ?_⟩
  cases ha : a i with
  | none => simp [oLift, ha]
  | some p =>
    simp only [oLift, ha, Option.map]
    refine ⟨rfl, rfl, ?_, ?_, ?_⟩
    · rintro v rfl debug; simp [oValue, oConc, read]
    · rintro rfl; simp [oValue, oConc]
    · intro debug d; cases p <;> simp [oValueOr, oValue, oConc, read]

/-! ## expected -/

/-- the expecteds: a value (`inl`) or an error (`inr`) -/
abbrev EAbs (V : Type) := Nat → Option (V ⊕ V)
def sumIdx : V ⊕ V → Nat × V
  | .inl v => (1, v)
  | .inr e => (2, e)
/-- what moves leave behind, for the value and the error type -/
def movedSum (mv me : V → V) : V ⊕ V → V ⊕ V
  | .inl v => .inl (mv v)
  | .inr e => .inr (me e)
/-- the argument: a value from elsewhere, the value (`side = true`) or the error inside another expected -/
def eArgSpec (mv me : V → V) (a : EAbs V) (own : Nat) (side : Bool) : Arg V → Option (V × EAbs V)
  | .value v => some (v, a)
  | .content j m => match a j with
    | some (.inl v) => if j ≠ own ∧ side = true then some (v, if m then upd a j (some (.inl (mv v))) else a) else none
    | some (.inr e) => if j ≠ own ∧ side = false then some (e, if m then upd a j (some (.inr (me e))) else a) else none
    | none => none
def eSetSpec (mv me : V → V) (a : EAbs V) (i : Nat) (side : Bool) (x : Arg V) : Option (EAbs V) := match eArgSpec mv me a i side x with
  | none => none
  | some (v, a) => some (upd a i (some (if side then .inl v else .inr v)))
def eSpecStep (dflt : V) (mv me : V → V) (a : EAbs V) : EOp V → Option (EAbs V)
  | .default i => if (a i).isNone then some (upd a i (some (.inl dflt))) else none
  | .ofValue i x => if (a i).isNone then eSetSpec mv me a i true x else none
  | .ofUnexpected i x => if (a i).isNone then eSetSpec mv me a i false x else none
  | .unexpect i x => if (a i).isNone then eSetSpec mv me a i false x else none
  | .copy i j => match a j with
    | some y => if (a i).isNone then some (upd a i (some y)) else none
    | none => none
  | .move i j => match a j with
    | some y => if (a i).isNone then some (upd (upd a j (some (movedSum mv me y))) i (some y)) else none
    | none => none
  | .destroy i => if (a i).isSome then some (upd a i none) else none
  | .assignCopy i j => match a i, a j with
    | some _, some y => some (upd a i (some y))
    | _, _ => none
  | .assignMove i j => match a i, a j with
    | some _, some y => if i = j then some a else some (upd (upd a j (some (movedSum mv me y))) i (some y))
    | _, _ => none
  | .assignValue i x => if (a i).isSome then eSetSpec mv me a i true x else none
  | .assignUnexpected i x => if (a i).isSome then eSetSpec mv me a i false x else none
  | .emplace i x => if (a i).isSome then eSetSpec mv me a i true x else none
  | .swap i j => match a i, a j with
    | some x, some y => some (upd (upd a i (some y)) j (some x))
    | _, _ => none
def eSpecRun (dflt : V) (mv me : V → V) (a : EAbs V) : List (EOp V) → Option (EAbs V)
  | [] => some a
  | o :: os => match eSpecStep dflt mv me a o with
    | none => none
    | some a => eSpecRun dflt mv me a os

/-- The expected `x` shows `p`: exactly the value or the error is alive in it; the accesses say so. -/
def EShows (T : Tys V) (x : Var V) (p : V ⊕ V) : Prop :=
  x.data = some (tyOf T (sumIdx p).1, (sumIdx p).2) ∧ eHasValue x = p.isLeft ∧
  eValue T x = .ok (match p with | .inl v => .value v | .inr _ => .error) ∧ eError T x = .ok (match p with | .inl _ => .error | .inr e => .value e) ∧
  eDeref T x = .ok (match p with | .inl v => .value v | .inr _ => .error) ∧ ∀ d, eValueOr T x d = .ok (.value (match p with | .inl v => v | .inr _ => d))

def eLift (a : EAbs V) : Abs V := fun i => (a i).map sumIdx
theorem eLift_upd (a : EAbs V) (i : Nat) (p : Option (V ⊕ V)) : eLift (upd a i p) = upd (eLift a) i (p.map sumIdx) := by
  funext j; unfold eLift upd; split <;> rfl

section
variable {T : Tys V} {tm tv te : Nat} (hT : T.types = [tm, tv, te])
include hT
theorem ty1 : tyOf T 1 = tv := by unfold tyOf; rw [hT]; rfl
theorem ty2 : tyOf T 2 = te := by unfold tyOf; rw [hT]; rfl

theorem eSet_ok (hd : tv ≠ te) {a a' : EAbs V} {i : Nat} {side : Bool} {x : Arg V} (h : eSetSpec (T.moved tv) (T.moved te) a i side x = some a') : setSpec T (eLift a) i (if side then 1 else 2) x = some (eLift a') := by
  unfold eSetSpec at h
  unfold setSpec
  cases x with
  | value v =>
    simp only [eArgSpec, Option.some.injEq] at h
    subst h
    simp only [argSpec, Option.some.injEq]
    rw [eLift_upd]
    cases side <;> rfl
  | content j m =>
    simp only [eArgSpec] at h
    simp only [argSpec]
    have t1 := ty1 hT
    have t2 := ty2 hT
    cases haj : a j with
    | none => rw [haj] at h; cases h
    | some p =>
      have e : eLift a j = some (sumIdx p) := by unfold eLift; rw [haj]; rfl
      rw [e]
      rw [haj] at h
      cases p with
      | inl v =>
        simp only at h
        by_cases hc : j ≠ i ∧ side = true
        · rw [if_pos hc] at h
          simp only [Option.some.injEq] at h
          obtain ⟨hj, rfl⟩ := hc
          simp only [sumIdx, if_true]
          rw [if_pos (show j ≠ i ∧ True from ⟨hj, trivial⟩)]
          simp only [Option.some.injEq]
          rw [← h, eLift_upd, t1]
          cases m
          · rfl
          · simp only [if_true]; rw [eLift_upd]; rfl
        · rw [if_neg hc] at h; cases h
      | inr v =>
        simp only at h
        by_cases hc : j ≠ i ∧ side = false
        · rw [if_pos hc] at h
          simp only [Option.some.injEq] at h
          obtain ⟨hj, rfl⟩ := hc
          simp only [sumIdx, Bool.false_eq_true, if_false]
          rw [if_pos (show j ≠ i ∧ True from ⟨hj, trivial⟩)]
          simp only [Option.some.injEq]
          rw [← h, eLift_upd, t2]
          cases m
          · rfl
          · simp only [if_true]; rw [eLift_upd]; rfl
        · rw [if_neg hc] at h; cases h

theorem eStep_ok (hd : tm ≠ tv ∧ tm ≠ te ∧ tv ≠ te) (hc : ∀ t ∈ [tv, te], T.copyable t = true ∧ T.moveable t = true) {a a' : EAbs V} {o : EOp V} (h : eSpecStep (T.dflt tv) (T.moved tv) (T.moved te) a o = some a') :
    specStep T (eLift a) (o.toVariant T) = some (eLift a') := by
  have t1 := ty1 hT
  have t2 := ty2 hT
  have f1 : typeFrom T.types 1 = tv := by rw [hT]; rfl
  have f2 : typeFrom T.types 2 = te := by rw [hT]; rfl
  have len : T.types.length = 3 := by rw [hT]; rfl
  have m1 : tv ∈ T.types := by rw [hT]; simp
  have m2 : te ∈ T.types := by rw [hT]; simp
  have i1 : T.types.idxOf tv = 1 := by rw [hT, List.idxOf_cons_ne _ hd.1, List.idxOf_cons_self]
  have i2 : T.types.idxOf te = 2 := by rw [hT, List.idxOf_cons_ne _ hd.2.1, List.idxOf_cons_ne _ hd.2.2, List.idxOf_cons_self]
  have isn : ∀ {i}, (a i).isNone = true → (eLift a i).isNone = true := by intro i hi; unfold eLift; simpa using hi
  have iss : ∀ {i}, (a i).isSome = true → (eLift a i).isSome = true := by intro i hi; unfold eLift; simpa using hi
  have lf : ∀ {i p}, a i = some p → eLift a i = some (sumIdx p) := by intro i p hp; unfold eLift; rw [hp]; rfl
  have cp : ∀ p : V ⊕ V, T.copyable (tyOf T (sumIdx p).1) = true ∧ T.moveable (tyOf T (sumIdx p).1) = true := by
    intro p; cases p <;> simp only [sumIdx]
    · rw [t1]; exact hc _ (by simp)
    · rw [t2]; exact hc _ (by simp)
  have mvd : ∀ p : V ⊕ V, sumIdx (movedSum (T.moved tv) (T.moved te) p) = ((sumIdx p).1, T.moved (tyOf T (sumIdx p).1) (sumIdx p).2) := by
    intro p; cases p <;> simp only [sumIdx, movedSum]
    · rw [t1]
    · rw [t2]
  cases o with
  | default i =>
    simp only [eSpecStep] at h
    split at h
    · next hi =>
      simp only [Option.some.injEq] at h; subst h
      simp only [EOp.toVariant, specStep]
      rw [if_pos ⟨isn hi, by omega⟩]
      simp only [setSpec, argSpec]
      rw [eLift_upd, f1]; rfl
    · cases h
  | ofValue i x =>
    simp only [eSpecStep] at h
    split at h
    · next hi => simp only [EOp.toVariant, specStep]; rw [if_pos ⟨isn hi, by omega⟩]; exact eSet_ok hT hd.2.2 h
    · cases h
  | ofUnexpected i x =>
    simp only [eSpecStep] at h
    split at h
    · next hi => simp only [EOp.toVariant, specStep]; rw [if_pos ⟨isn hi, by omega⟩]; exact eSet_ok hT hd.2.2 h
    · cases h
  | unexpect i x =>
    simp only [eSpecStep] at h
    split at h
    · next hi => simp only [EOp.toVariant, specStep]; rw [f2, if_pos ⟨isn hi, m2⟩, i2]; exact eSet_ok hT hd.2.2 h
    · cases h
  | copy i j =>
    simp only [eSpecStep] at h
    split at h
    · next y hj =>
      split at h
      · next hi =>
        simp only [Option.some.injEq] at h; subst h
        simp only [EOp.toVariant, specStep]
        rw [lf hj]
        simp only
        rw [if_pos ⟨isn hi, (cp y).1⟩, eLift_upd]; rfl
      · cases h
    · cases h
  | move i j =>
    simp only [eSpecStep] at h
    split at h
    · next y hj =>
      split at h
      · next hi =>
        simp only [Option.some.injEq] at h; subst h
        simp only [EOp.toVariant, specStep]
        rw [lf hj]
        simp only
        rw [if_pos ⟨isn hi, (cp y).2⟩, eLift_upd, eLift_upd]
        simp only [Option.map]
        rw [mvd]
      · cases h
    · cases h
  | destroy i =>
    simp only [eSpecStep] at h
    split at h
    · next hi =>
      simp only [Option.some.injEq] at h; subst h
      simp only [EOp.toVariant, specStep]
      rw [if_pos (iss hi), eLift_upd]; rfl
    · cases h
  | assignCopy i j =>
    simp only [eSpecStep] at h
    split at h
    · next x y hi hj =>
      simp only [Option.some.injEq] at h; subst h
      simp only [EOp.toVariant, specStep]
      rw [lf hi, lf hj]
      simp only
      rw [if_pos (cp y).1, eLift_upd]; rfl
    · cases h
  | assignMove i j =>
    simp only [eSpecStep] at h
    split at h
    · next x y hi hj =>
      simp only [EOp.toVariant, specStep]
      rw [lf hi, lf hj]
      simp only
      by_cases hij : i = j
      · rw [if_pos hij] at h ⊢; simp only [Option.some.injEq] at h; rw [h]
      · rw [if_neg hij] at h ⊢
        simp only [Option.some.injEq] at h; subst h
        rw [if_pos (cp y).2, eLift_upd, eLift_upd]
        simp only [Option.map]
        rw [mvd]
    · cases h
  | assignValue i x =>
    simp only [eSpecStep] at h
    split at h
    · next hi => simp only [EOp.toVariant, specStep]; rw [if_pos ⟨iss hi, by omega⟩]; exact eSet_ok hT hd.2.2 h
    · cases h
  | assignUnexpected i x =>
    simp only [eSpecStep] at h
    split at h
    · next hi => simp only [EOp.toVariant, specStep]; rw [if_pos ⟨iss hi, by omega⟩]; exact eSet_ok hT hd.2.2 h
    · cases h
  | emplace i x =>
    simp only [eSpecStep] at h
    split at h
    · next hi => simp only [EOp.toVariant, specStep]; rw [f1, if_pos ⟨iss hi, m1⟩, i1]; exact eSet_ok hT hd.2.2 h
    · cases h
  | swap i j =>
    simp only [eSpecStep] at h
    split at h
    · next x y hi hj =>
      simp only [Option.some.injEq] at h; subst h
      simp only [EOp.toVariant, specStep]
      rw [lf hi, lf hj]
      simp only
      rw [if_pos ⟨(cp x).2, (cp y).2⟩, eLift_upd, eLift_upd]; rfl
    · cases h
end

/-- C47, expected: the value and the error type are two types, and none is `monostate`; both can be copied and moved.  Whatever a program does, no object is constructed over a live one, destroyed twice or left alive, and every expected shows the value or the error last stored. -/
theorem C47_expected (T : Tys V) {tm tv te : Nat} (hT : T.types = [tm, tv, te]) (hd : tm ≠ tv ∧ tm ≠ te ∧ tv ≠ te) (hc : ∀ t ∈ [tv, te], T.copyable t = true ∧ T.moveable t = true)
    (os : List (EOp V)) {a : EAbs V} (h : eSpecRun (T.dflt tv) (T.moved tv) (T.moved te) (fun _ => none) os = some a) :
    ∃ w, run T (fun _ => none) (os.map (EOp.toVariant T)) = .ok w ∧ ∀ i, match w i, a i with
      | none, none => True
      | some x, some p => EShows T x p
      | _, _ => False := by
  have key : ∀ (os : List (EOp V)) (b : EAbs V), eSpecRun (T.dflt tv) (T.moved tv) (T.moved te) b os = some a → specRun T (eLift b) (os.map (EOp.toVariant T)) = some (eLift a) := by
    intro os
    induction os with
    | nil => intro b h; simp only [eSpecRun, Option.some.injEq] at h; subst h; rfl
    | cons o os ih =>
      intro b h
      simp only [eSpecRun] at h
      split at h
      · cases h
      · next b1 h1 =>
        simp only [List.map_cons, specRun]
        rw [eStep_ok hT hd hc h1]
        exact ih b1 h
  obtain ⟨w, hw, hs⟩ := C47_variant T _ (key os _ h)
  refine ⟨w, hw, fun i => ?_⟩
  have := hs i
  cases ha : a i with
  | none =>
    rw [show eLift a i = none by unfold eLift; rw [ha]; rfl] at this
    cases hwi : w i with
    | none => trivial
    | some x => rw [hwi] at this; exact this
  | some p =>
    rw [show eLift a i = some (sumIdx p) by unfold eLift; rw [ha]; rfl] at this
    cases hwi : w i with
    | none => rw [hwi] at this; exact this
    | some x =>
      rw [hwi] at this
      obtain ⟨s1, s2, s3, s4, s5⟩ := this
      have len : T.types.length = 3 := by rw [hT]; rfl
      have m1 : tv ∈ T.types := by rw [hT]; simp
      have i1 : T.types.idxOf tv = 1 := by rw [hT, List.idxOf_cons_ne _ hd.1, List.idxOf_cons_self]
      have f1 : typeFrom T.types 1 = tv := by rw [hT]; rfl
      have g1 := (s4 1 (by omega)).1
      have g2 := (s4 2 (by omega)).1
      have g3 := (s5 tv m1).1
      rw [i1] at g3
      have hv : eHasValue x = p.isLeft := by unfold eHasValue; rw [s3]; cases p <;> rfl
      refine ⟨s2, hv, ?_, ?_, ?_, ?_⟩
      · unfold eValue; rw [g1]; cases p <;> rfl
      · unfold eError; rw [g2]; cases p <;> rfl
      · unfold eDeref; rw [f1, g3]; cases p <;> rfl
      · intro d; unfold eValueOr; rw [hv]; unfold eValue; rw [g1]; cases p <;> rfl

/-! ## Examples -/

/-- types 0, 1, 2; a move leaves 0 behind; type 2 cannot be copied -/
def exT : Tys Nat := ⟨[0, 1, 2], fun t => t != 2, fun _ => true, fun _ _ => 0, fun _ => 7⟩
/-- a program on variants: construct, assign another alternative, emplace the content of another variant, swap, copy, move, destroy -/
def exOps : List (Op Nat) := [.default 1, .ofValue 2 1 (.value 5), .assignValue 1 2 (.value 9), .inPlace 3 0 (.value 4), .emplaceI 3 1 (.content 2 false), .swap 1 2, .assignMove 3 2, .copy 4 1, .destroy 2, .emplaceT 4 0 (.value 8), .assignCopy 4 1]
example : (match specRun exT (fun _ => none) exOps with
    | some a => decide (a 1 = some (1, 5) ∧ a 2 = none ∧ a 3 = some (2, 9) ∧ a 4 = some (1, 5))
    | none => false) = true := by decide +kernel
def exOOps : List (OOp Nat) := [.default 1, .ofValue 2 (.value 5), .swap 1 2, .assignMove 2 1, .reset 1, .emplace 1 (.content 2 false), .copy 3 1, .assignNull 2, .destroy 3]
example : (match oSpecRun (fun _ => 0) (fun _ => none) exOOps with
    | some a => decide (a 1 = some (some 5) ∧ a 2 = some none ∧ a 3 = none)
    | none => false) = true := by decide +kernel
example : ∀ o ∈ exOOps, o.fresh 9 := by simp [exOOps, OOp.fresh]
def exEOps : List (EOp Nat) := [.default 1, .unexpect 2 (.value 3), .swap 1 2, .assignValue 1 (.value 6), .assignUnexpected 2 (.value 4), .emplace 2 (.content 1 false), .copy 3 2, .assignCopy 1 2]
example : (match eSpecRun 7 (fun _ => 0) (fun _ => 0) (fun _ => none) exEOps with
    | some a => decide (a 1 = some (.inl 6) ∧ a 2 = some (.inl 6) ∧ a 3 = some (.inl 6))
    | none => false) = true := by decide +kernel
/-- the hypotheses of `C47_expected` -/
example : let T : Tys Nat := ⟨[0, 1, 2], fun _ => true, fun _ => true, fun _ _ => 0, fun _ => 7⟩
    T.types = [0, 1, 2] ∧ ((0 : Nat) ≠ 1 ∧ (0 : Nat) ≠ 2 ∧ (1 : Nat) ≠ 2) ∧ ∀ t ∈ [1, 2], T.copyable t = true ∧ T.moveable t = true := by decide

/-! ## Findings -/

def isError {α : Type} (u : UB) : Res α → Bool
  | .error e => decide (e = u)
  | .ok _ => false
/-- An optional must not be given a reference to its own value: `o = *o` and `o.emplace(*o)` read the value after its destruction.  (Not for fundamental types.) -/
theorem optional_own_value_undefined : isError .deadAccess (oRun (fun (v : Nat) => v) 9 (fun _ => none) [.ofValue 1 (.value 5), .assignValue 1 (.content 1 false)]) = true := by decide +kernel
/-- The same for a variant, also for the same alternative: `v = etl::get<1>(v)`. -/
theorem variant_own_value_undefined : isError .deadAccess (run exT (fun _ => none) [.ofValue 1 1 (.value 5), .assignValue 1 1 (.content 1 false)]) = true := by decide +kernel
/-- A variant with a type that cannot be copied can be copied: nothing is constructed in the copy, and its destructor then destroys an object that was never there. -/
theorem copy_of_noncopyable_undefined : isError .deadAccess (run exT (fun _ => none) [.ofValue 1 2 (.value 5), .copy 3 1, .destroy 3]) = true := by decide +kernel
/-- If the constructor of the new value throws, the variant still has the old index, and its destructor destroys the old value a second time. -/
theorem throw_destroys_twice : (match emplaceThrows (conc exT (1, 5)) with
    | .ok x => isError .deadAccess (dtor x) && decide (x.typeId = some 1)
    | .error _ => false) = true := by decide +kernel
/-- `get` of an rvalue is not checked: it reads an object of another type. -/
theorem get_rvalue_unchecked : isError .deadAccess (getRvalue exT (conc exT (1, 5)) 0) = true := by decide +kernel
/-- With the same type for value and error, the constructor with `unexpect` makes a value. -/
theorem unexpect_of_same_type_is_value : (match run ⟨[0, 1, 1], fun _ => true, fun _ => true, fun _ (v : Nat) => v, fun _ => 0⟩ (fun _ => none) [EOp.toVariant ⟨[0, 1, 1], fun _ => true, fun _ => true, fun _ (v : Nat) => v, fun _ => 0⟩ (.unexpect 1 (.value 5))] with
    | .ok w => (match w 1 with
      | some x => eHasValue x
      | none => false)
    | .error _ => false) = true := by decide +kernel

end Etl.SumT
