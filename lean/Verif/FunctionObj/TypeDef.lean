import Verif.FunctionObj.Props

/-!
# C120: `type_def` and the user types of `ETL_DECLARE_USER_TYPE` behave like their value type

Source: `/repo/include/etl/type_def.h` l.58-283 and `/repo/include/etl/user_type.h` l.78-105.  The value type is an integral type of `w` bits; variables are numbered.  The operand of a compound assignment is a value or
another variable of the type (`user_type` has the first form only, reached for a variable through the conversion to the value type).
-/
namespace Etl.FunctionObj.TypeDef

open Etl.FunctionObj

/-- The compound assignments. -/
inductive Kind
  | add | sub | mul | div | mod | and | or | xor | shl | shr
  deriving DecidableEq

/-- A value or a variable. -/
inductive Arg
  | val (v : Int)
  | var (y : Nat)

inductive Op
  | preInc (x : Nat) | postInc (x : Nat) | preDec (x : Nat) | postDec (x : Nat)
  | compound (k : Kind) (x : Nat) (a : Arg)
  | assign (x : Nat) (a : Arg)

abbrev Env := Nat → Int

/-! ## The model -/

section Model
variable (w : Nat) (sg : Bool)

/-- `value <<= rhs`: undefined if the distance is not below the width computed in, or (C++14) the value is negative. -/
def shiftLeft (x n : Int) : Res Int := if 0 ≤ n ∧ n < pw w ∧ 0 ≤ x then .ok (conv w sg (conv (pw w) (psg w sg) (x * 2 ^ n.toNat))) else .error .overflow
/-- `value >>= rhs`: the arithmetic shift. -/
def shiftRight (x n : Int) : Res Int := if 0 ≤ n ∧ n < pw w then .ok (conv w sg (conv (pw w) (psg w sg) (x / 2 ^ n.toNat))) else .error .overflow

/-- `value op= rhs`, l.111-237; user_type.h l.91-100. -/
def assignOp (k : Kind) (x y : Int) : Res Int := match k with
  | .add => plus w sg x y
  | .sub => minus w sg x y
  | .mul => multiplies w sg x y
  | .div => divides w sg x y
  | .mod => modulus w sg x y
  | .and => .ok (bitAnd w sg x y)
  | .or => .ok (bitOr w sg x y)
  | .xor => .ok (bitXor w sg x y)
  | .shl => shiftLeft w sg x y
  | .shr => shiftRight w sg x y

def arg (e : Env) : Arg → Int
  | .val v => v
  | .var y => e y
def set (e : Env) (x : Nat) (v : Int) : Env := fun y => if y = x then v else e y

/-- One expression: its value, and the variables afterwards.  `++`, `--`, l.81-109; `=`, l.239-248. -/
def step (e : Env) : Op → Res (Int × Env)
  | .preInc x => match plus w sg (e x) 1 with
    | .error u => .error u
    | .ok v => .ok (v, set e x v)
  | .postInc x => match plus w sg (e x) 1 with
    | .error u => .error u
    | .ok v => .ok (e x, set e x v)
  | .preDec x => match minus w sg (e x) 1 with
    | .error u => .error u
    | .ok v => .ok (v, set e x v)
  | .postDec x => match minus w sg (e x) 1 with
    | .error u => .error u
    | .ok v => .ok (e x, set e x v)
  | .compound k x a => match assignOp w sg k (e x) (arg e a) with
    | .error u => .error u
    | .ok v => .ok (v, set e x v)
  | .assign x a => .ok (arg e a, set e x (arg e a))

def run : Env → List Op → Res (List Int × Env)
  | e, [] => .ok ([], e)
  | e, o :: os => match step w sg e o with
    | .error u => .error u
    | .ok (r, e') => match run e' os with
      | .error u => .error u
      | .ok (rs, e'') => .ok (r :: rs, e'')
end Model

/-- The comparisons `>`, `>=`, `==`, `!=`, l.263-284; `<` and `<=` are those of the value, to which a variable converts. -/
def gt (a b : Int) : Bool := decide (a > b)
def ge (a b : Int) : Bool := decide (a ≥ b)
def eq (a b : Int) : Bool := decide (a = b)
def ne (a b : Int) : Bool := decide (a ≠ b)

/-! ## The specification -/

/-- The exact value of `x op y`, where it has one that does not speak of bits. -/
def exact : Kind → Int → Int → Option Int
  | .add, x, y => some (x + y)
  | .sub, x, y => some (x - y)
  | .mul, x, y => some (x * y)
  | .div, x, y => if y = 0 then none else some (x.tdiv y)
  | .mod, x, y => if y = 0 then none else some (x.tmod y)
  | .shl, x, n => some (x * 2 ^ n.toNat)
  | .shr, x, n => some (x / 2 ^ n.toNat)
  | .and, x, y => some (Int.land x y)
  | .or, x, y => some (Int.lor x y)
  | .xor, x, y => some (Int.xor x y)

/-- The value is one of the value type. -/
def InType (w : Nat) (sg : Bool) (v : Int) : Prop := (if sg then -2 ^ (w - 1) else 0) ≤ v ∧ v < (if sg then 2 ^ (w - 1) else 2 ^ w)

/-- What an expression does to the variables, if it is defined: the variable named gets the value of the value type congruent to the exact result, nothing else changes, and the expression has the new value, or the old one if
the operator is postfixed. -/
def Does (w : Nat) (sg : Bool) (e : Env) (o : Op) (r : Int) (e' : Env) : Prop := match o with
  | .preInc x => IsOf w sg (e x + 1) (e' x) ∧ r = e' x ∧ ∀ y, y ≠ x → e' y = e y
  | .postInc x => IsOf w sg (e x + 1) (e' x) ∧ r = e x ∧ ∀ y, y ≠ x → e' y = e y
  | .preDec x => IsOf w sg (e x - 1) (e' x) ∧ r = e' x ∧ ∀ y, y ≠ x → e' y = e y
  | .postDec x => IsOf w sg (e x - 1) (e' x) ∧ r = e x ∧ ∀ y, y ≠ x → e' y = e y
  | .compound k x a => (∃ z, exact k (e x) (match a with | .val v => v | .var y => e y) = some z ∧ IsOf w sg z (e' x)) ∧ r = e' x ∧ ∀ y, y ≠ x → e' y = e y
  | .assign x a => e' x = (match a with | .val v => v | .var y => e y) ∧ r = e' x ∧ ∀ y, y ≠ x → e' y = e y
/-- A history. -/
def DoesAll (w : Nat) (sg : Bool) : Env → List Op → List Int → Env → Prop
  | e, [], rs, e' => rs = [] ∧ e' = e
  | e, o :: os, rs, e'' => ∃ r rs' e', rs = r :: rs' ∧ Does w sg e o r e' ∧ DoesAll w sg e' os rs' e''
/-- Values in the text of the program are of the value type. -/
def Fits (w : Nat) (sg : Bool) : Op → Prop
  | .compound _ _ (.val v) => InType w sg v
  | .assign _ (.val v) => InType w sg v
  | _ => True

/-! ## Proofs -/

theorem set_same (e : Env) (x : Nat) (v : Int) : set e x v x = v := by unfold set; rw [if_pos rfl]
theorem set_other (e : Env) (x : Nat) (v : Int) {y : Nat} (h : y ≠ x) : set e x v y = e y := by unfold set; rw [if_neg h]

theorem fit_isOf {w : Nat} (hw : 1 ≤ w) {sg : Bool} {z v : Int} (h : fit w sg z = .ok v) : IsOf w sg z v := by
  have := fit_means hw sg z
  unfold Means at this
  split at this
  · rw [h] at this; cases this
  · obtain ⟨u, e, g⟩ := this; rw [h] at e; cases e; exact g

theorem twice_isOf {w : Nat} (hw : 1 ≤ w) (sg : Bool) (z : Int) : IsOf w sg z (conv w sg (conv (pw w) (psg w sg) z)) :=
  isOf_pw (conv_isOf hw sg _) (conv_isOf (by unfold pw; omega) _ z).same

theorem assignOp_isOf {w : Nat} (hw : 1 ≤ w) {sg : Bool} {k : Kind} {x y v : Int} (h : assignOp w sg k x y = .ok v) : ∃ z, exact k x y = some z ∧ IsOf w sg z v := by
  cases k with
  | add => exact ⟨_, rfl, fit_isOf hw h⟩
  | sub => exact ⟨_, rfl, fit_isOf hw h⟩
  | mul => exact ⟨_, rfl, fit_isOf hw h⟩
  | div =>
    simp only [assignOp, divides] at h
    split at h
    · cases h
    · rename_i h0; exact ⟨_, by simp only [exact]; rw [if_neg h0], fit_isOf hw h⟩
  | mod =>
    simp only [assignOp, modulus] at h
    split at h
    · cases h
    · rename_i h0
      split at h
      · cases h
      · exact ⟨_, by simp only [exact]; rw [if_neg h0], fit_isOf hw h⟩
  | and => simp only [assignOp] at h; cases h; exact ⟨_, rfl, twice_isOf hw sg _⟩
  | or => simp only [assignOp] at h; cases h; exact ⟨_, rfl, twice_isOf hw sg _⟩
  | xor => simp only [assignOp] at h; cases h; exact ⟨_, rfl, twice_isOf hw sg _⟩
  | shl =>
    simp only [assignOp, shiftLeft] at h
    split at h
    · cases h; exact ⟨_, rfl, twice_isOf hw sg _⟩
    · cases h
  | shr =>
    simp only [assignOp, shiftRight] at h
    split at h
    · cases h; exact ⟨_, rfl, twice_isOf hw sg _⟩
    · cases h

theorem step_does {w : Nat} (hw : 1 ≤ w) {sg : Bool} {e e' : Env} {o : Op} {r : Int} (h : step w sg e o = .ok (r, e')) : Does w sg e o r e' := by
  cases o with
  | preInc x =>
    simp only [step] at h; split at h
    · cases h
    · rename_i v hv; cases h; exact ⟨by rw [set_same]; exact fit_isOf hw hv, (set_same _ _ _).symm, fun y hy => set_other _ _ _ hy⟩
  | postInc x =>
    simp only [step] at h; split at h
    · cases h
    · rename_i v hv; cases h; exact ⟨by rw [set_same]; exact fit_isOf hw hv, rfl, fun y hy => set_other _ _ _ hy⟩
  | preDec x =>
    simp only [step] at h; split at h
    · cases h
    · rename_i v hv; cases h; exact ⟨by rw [set_same]; exact fit_isOf hw hv, (set_same _ _ _).symm, fun y hy => set_other _ _ _ hy⟩
  | postDec x =>
    simp only [step] at h; split at h
    · cases h
    · rename_i v hv; cases h; exact ⟨by rw [set_same]; exact fit_isOf hw hv, rfl, fun y hy => set_other _ _ _ hy⟩
  | compound k x a =>
    simp only [step] at h; split at h
    · cases h
    · rename_i v hv; cases h
      obtain ⟨z, g1, g2⟩ := assignOp_isOf hw hv
      refine ⟨⟨z, ?_, by rw [set_same]; exact g2⟩, (set_same _ _ _).symm, fun y hy => set_other _ _ _ hy⟩
      cases a <;> exact g1
  | assign x a =>
    simp only [step] at h; cases h
    refine ⟨?_, (set_same _ _ _).symm, fun y hy => set_other _ _ _ hy⟩
    rw [set_same]; cases a <;> rfl

theorem isOf_in {w : Nat} {sg : Bool} {z v : Int} (h : IsOf w sg z v) : InType w sg v := ⟨h.lo, h.hi⟩

theorem does_in {w : Nat} {sg : Bool} {e e' : Env} {o : Op} {r : Int} (h : Does w sg e o r e') (hf : Fits w sg o) (hi : ∀ x, InType w sg (e x)) : ∀ x, InType w sg (e' x) := by
  have key : ∀ (x : Nat), InType w sg (e' x) → (∀ y, y ≠ x → e' y = e y) → ∀ y, InType w sg (e' y) := by
    intro x h1 h2 y
    by_cases hy : y = x
    · rw [hy]; exact h1
    · rw [h2 y hy]; exact hi y
  cases o with
  | preInc x => exact key x (isOf_in h.1) h.2.2
  | postInc x => exact key x (isOf_in h.1) h.2.2
  | preDec x => exact key x (isOf_in h.1) h.2.2
  | postDec x => exact key x (isOf_in h.1) h.2.2
  | compound k x a => obtain ⟨⟨z, _, g⟩, _, h3⟩ := h; exact key x (isOf_in g) h3
  | assign x a =>
    refine key x ?_ h.2.2
    rw [h.1]
    cases a with
    | val v => exact hf
    | var y => exact hi y

/-- C120: every history of a program with any number of variables that is defined for the value type: each expression does what it does for variables of the value type, and the variables always hold values of that type. -/
theorem C120_histories {w : Nat} (hw : 1 ≤ w) (sg : Bool) (os : List Op) : ∀ {e e' : Env} {rs : List Int}, run w sg e os = .ok (rs, e') →
    DoesAll w sg e os rs e' ∧ ((∀ o ∈ os, Fits w sg o) → (∀ x, InType w sg (e x)) → ∀ x, InType w sg (e' x)) := by
  induction os with
  | nil => intro e e' rs h; simp only [run] at h; cases h; exact ⟨⟨rfl, rfl⟩, fun _ h => h⟩
  | cons o os ih =>
    intro e e' rs h
    simp only [run] at h
    split at h
    · cases h
    · rename_i r e1 h1
      split at h
      · cases h
      · rename_i rs' e2 h2
        cases h
        obtain ⟨g1, g2⟩ := ih h2
        have d := step_does hw h1
        exact ⟨⟨r, rs', e1, rfl, d, g1⟩, fun hf hi => g2 (fun o' ho => hf o' (List.mem_cons_of_mem _ ho)) (does_in d (hf o List.mem_cons_self) hi)⟩

/-- The result of an expression that stores the value of an operation. -/
def store (g : Int → Int × Env) : Res Int → Res (Int × Env)
  | .error u => .error u
  | .ok v => .ok (g v)

theorem wrap (r : Res Int) (g : Int → Int × Env) (s : Res (Int × Env)) (h : s = store g r) : (∃ q, s = .ok q) ↔ ∃ v, r = .ok v := by
  subst h
  cases r with
  | error u => exact ⟨fun ⟨q, h⟩ => (by cases h), fun ⟨v, h⟩ => (by cases h)⟩
  | ok v => exact ⟨fun _ => ⟨v, rfl⟩, fun _ => ⟨_, rfl⟩⟩

theorem compound_store (w : Nat) (sg : Bool) (e : Env) (k : Kind) (x : Nat) (a : Arg) : step w sg e (.compound k x a) = store (fun v => (v, set e x v)) (assignOp w sg k (e x) (arg e a)) := by
  simp only [step]; cases assignOp w sg k (e x) (arg e a) <;> rfl

/-- C120, when an expression is undefined: exactly when it is for the value type.  Bit operations, shifts by a distance below the width computed in of a value that is not negative, and assignments always are defined; for `%` see `C119_modulus`. -/
theorem C120_defined {w : Nat} (hw : 1 ≤ w) (sg : Bool) (e : Env) (x : Nat) (a : Arg) :
    let y := match a with | .val v => v | .var y => e y
    let bad (z : Int) : Prop := (sg = true ∨ w < 32) ∧ ¬ (-2 ^ (max w 32 - 1) ≤ z ∧ z < 2 ^ (max w 32 - 1))
    ((∃ r, step w sg e (.preInc x) = .ok r) ↔ ¬ bad (e x + 1)) ∧ ((∃ r, step w sg e (.postInc x) = .ok r) ↔ ¬ bad (e x + 1)) ∧
    ((∃ r, step w sg e (.preDec x) = .ok r) ↔ ¬ bad (e x - 1)) ∧ ((∃ r, step w sg e (.postDec x) = .ok r) ↔ ¬ bad (e x - 1)) ∧
    ((∃ r, step w sg e (.compound .add x a) = .ok r) ↔ ¬ bad (e x + y)) ∧ ((∃ r, step w sg e (.compound .sub x a) = .ok r) ↔ ¬ bad (e x - y)) ∧
    ((∃ r, step w sg e (.compound .mul x a) = .ok r) ↔ ¬ bad (e x * y)) ∧ ((∃ r, step w sg e (.compound .div x a) = .ok r) ↔ y ≠ 0 ∧ ¬ bad ((e x).tdiv y)) ∧
    ((∃ r, step w sg e (.compound .shl x a) = .ok r) ↔ 0 ≤ y ∧ y < max w 32 ∧ 0 ≤ e x) ∧ ((∃ r, step w sg e (.compound .shr x a) = .ok r) ↔ 0 ≤ y ∧ y < max w 32) ∧
    (∀ k, k = .and ∨ k = .or ∨ k = .xor → ∃ r, step w sg e (.compound k x a) = .ok r) ∧ ∃ r, step w sg e (.assign x a) = .ok r := by
  intro y bad
  have hy : arg e a = y := by cases a <;> rfl
  have fk : ∀ z, (∃ v, fit w sg z = .ok v) ↔ ¬ bad z := by
    intro z
    have := fit_means hw sg z
    unfold Means at this
    by_cases hb : bad z
    · rw [if_pos hb] at this
      exact ⟨fun ⟨v, hv⟩ => (by rw [this] at hv; cases hv), fun q => absurd hb q⟩
    · rw [if_neg hb] at this
      obtain ⟨v, hv, _⟩ := this
      exact ⟨fun _ => hb, fun _ => ⟨v, hv⟩⟩
  refine ⟨(wrap (plus w sg (e x) 1) (fun v => (v, set e x v)) _ ?_).trans (fk _), (wrap (plus w sg (e x) 1) (fun v => (e x, set e x v)) _ ?_).trans (fk _),
    (wrap (minus w sg (e x) 1) (fun v => (v, set e x v)) _ ?_).trans (fk _), (wrap (minus w sg (e x) 1) (fun v => (e x, set e x v)) _ ?_).trans (fk _), ?_, ?_, ?_, ?_, ?_, ?_, ?_, ⟨_, rfl⟩⟩
  · simp only [step]; cases plus w sg (e x) 1 <;> rfl
  · simp only [step]; cases plus w sg (e x) 1 <;> rfl
  · simp only [step]; cases minus w sg (e x) 1 <;> rfl
  · simp only [step]; cases minus w sg (e x) 1 <;> rfl
  · rw [← hy]; exact (wrap _ _ _ (compound_store w sg e _ x a)).trans (fk _)
  · rw [← hy]; exact (wrap _ _ _ (compound_store w sg e _ x a)).trans (fk _)
  · rw [← hy]; exact (wrap _ _ _ (compound_store w sg e _ x a)).trans (fk _)
  · refine (wrap _ _ _ (compound_store w sg e _ x a)).trans ?_
    show (∃ v, divides w sg (e x) (arg e a) = .ok v) ↔ _
    rw [hy, ← fk]; unfold divides
    by_cases h0 : y = 0
    · rw [if_pos h0]; exact ⟨fun ⟨v, h⟩ => (by cases h), fun q => absurd h0 q.1⟩
    · rw [if_neg h0]; exact ⟨fun q => ⟨h0, q⟩, fun q => q.2⟩
  · refine (wrap _ _ _ (compound_store w sg e _ x a)).trans ?_
    show (∃ v, shiftLeft w sg (e x) (arg e a) = .ok v) ↔ _
    rw [hy]; unfold shiftLeft pw
    split
    · rename_i h; exact ⟨fun _ => h, fun _ => ⟨_, rfl⟩⟩
    · rename_i h; exact ⟨fun ⟨v, h⟩ => (by cases h), fun q => absurd q h⟩
  · refine (wrap _ _ _ (compound_store w sg e _ x a)).trans ?_
    show (∃ v, shiftRight w sg (e x) (arg e a) = .ok v) ↔ _
    rw [hy]; unfold shiftRight pw
    split
    · rename_i h; exact ⟨fun _ => h, fun _ => ⟨_, rfl⟩⟩
    · rename_i h; exact ⟨fun ⟨v, h⟩ => (by cases h), fun q => absurd q h⟩
  · rintro k (rfl | rfl | rfl) <;> exact ⟨_, rfl⟩

/-- C120, the comparisons. -/
theorem C120_compare (a b : Int) : (gt a b = true ↔ b < a) ∧ (ge a b = true ↔ b ≤ a) ∧ (eq a b = true ↔ a = b) ∧ (ne a b = true ↔ a ≠ b) := by
  unfold gt ge eq ne; simp

/-! ## Examples -/

/-- A byte: 250, `x += 10`, `y = x++`, `x *= x`, `x <<= 3`, `y -= x`. -/
example : (match run 8 false (fun _ => 250) [.compound .add 0 (.val 10), .postInc 0, .compound .mul 0 (.var 0), .compound .shl 0 (.val 3), .assign 1 (.var 0), .compound .sub 1 (.val 201)] with
    | .ok (rs, e) => decide (rs = [4, 4, 25, 200, 200, 255] ∧ e 0 = 200 ∧ e 1 = 255) | .error _ => false) = true := by decide +kernel
example : (match step 32 true (fun _ => 2147483647) (.preInc 0) with | .error u => decide (u = .overflow) | .ok _ => false) = true := by decide +kernel
example : (match run 16 true (fun _ => -8) [.compound .shr 0 (.val 1), .compound .mod 0 (.val 3), .compound .xor 0 (.val 5)] with | .ok (rs, _) => decide (rs = [-4, -1, -6]) | .error _ => false) = true := by decide +kernel
example : (∀ o ∈ [Op.compound .add 0 (.val 10), .postInc 0], Fits 8 false o) ∧ ∀ x : Nat, InType 8 false ((fun _ => 250 : Env) x) := by
  refine ⟨fun o ho => ?_, fun _ => by show InType 8 false 250; unfold InType; decide⟩
  simp only [List.mem_cons, List.not_mem_nil, or_false] at ho
  rcases ho with rfl | rfl
  · show InType _ _ _; unfold InType; decide
  · exact trivial

end Etl.FunctionObj.TypeDef
