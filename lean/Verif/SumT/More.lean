import Verif.SumT.Model

/-!
# Model of the comparisons, the visits and `result`

Source: `/repo/include/etl/optional.h`, `/repo/include/etl/private/variant_variadic.h`, `/repo/include/etl/expected.h`, `/repo/include/etl/result.h`.

The comparisons of the values are given: `eq t`, `lt t` and so on for values of type `t`.
Not modelled: the deduction of the type that `visit` returns; `<=>`; comparisons between optionals of different types.
-/
namespace Etl.SumT

variable {V R : Type}

/-! ## visits of a variant -/

/-- `etl::visit` of any number of variants, variant_variadic.h l.1789-1886: `do_visit` refuses a variant without value, takes the function for the index from the table, and that function binds the value, `constexpr_visit_closure`, and goes on with the next variant.  A visitor gets the type and the value of each. -/
def visit : List (Tys V × Var V) → (List (Nat × V) → Res (Got R)) → Res (Got R)
  | [], f => f []
  | (T, x) :: rest, f => match x.typeId with
    | none => .ok .error
    | some index =>
      let table := (List.range T.types.length).map fun k => fun (f : List (Nat × V) → Res (Got R)) =>
        visit rest fun args => match get T x k with
          | .error e => .error e
          | .ok .error => .ok .error
          | .ok (.value v) => f ((typeFrom T.types k, v) :: args)
      match table[index]? with
      | none => .error .outOfBounds
      | some g => g f

/-- a visitor for `accept`: it gets the type and the value and may change anything, also the variant itself -/
abbrev Visitor (V S : Type) := Nat → V → S → Var V → S × Var V
/-- `do_visitor`, `do_operator` and `attempt_…`, l.1103-1119, l.1225-1281, l.1415-1448: `(attempt<I>(v) || ...)` -/
def attempts {S : Type} (T : Tys V) (f : Visitor V S) (s : S) (x : Var V) : List Nat → Res (S × Var V)
  | [] => .ok (s, x)
  | k :: ks => if x.typeId = some k then (match get T x k with
      | .error e => .error e
      | .ok .error => .ok (s, x)
      | .ok (.value v) => .ok (f (typeFrom T.types k) v s x)) else attempts T f s x ks
/-- `accept`, l.931-985 -/
def accept {S : Type} (T : Tys V) (f : Visitor V S) (s : S) (x : Var V) : Res (S × Var V) := attempts T f s x (List.range T.types.length)

/-! ## comparisons of variants -/

/-- `equality_visitor` and `less_than_visitor`, l.1888-1925 -/
def withOther (T : Tys V) (cmp : Nat → V → V → Bool) (rhs : Var V) : List (Nat × V) → Res (Got Bool)
  | [(t, v)] => match getT T rhs t with
    | .error e => .error e
    | .ok .error => .ok .error
    | .ok (.value u) => .ok (.value (cmp t v u))
  | _ => .error .outOfBounds
/-- `operator ==`, l.1932-1961 -/
def varEq (T : Tys V) (eq : Nat → V → V → Bool) (lhs rhs : Var V) : Res (Got Bool) :=
  if lhs.typeId = none ∧ rhs.typeId = none then .ok (.value true)
  else if lhs.typeId = none ∨ rhs.typeId = none then .ok (.value false)
  else if lhs.typeId ≠ rhs.typeId then .ok (.value false)
  else visit [(T, lhs)] (withOther T eq rhs)
/-- the negation of an answer -/
def notGot : Res (Got Bool) → Res (Got Bool)
  | .ok (.value b) => .ok (.value (!b))
  | r => r
/-- `operator !=`, l.1967-1971 -/
def varNe (T : Tys V) (eq : Nat → V → V → Bool) (lhs rhs : Var V) : Res (Got Bool) := notGot (varEq T eq lhs rhs)
/-- `operator <`, l.1977-2008 -/
def varLt (T : Tys V) (lt : Nat → V → V → Bool) (lhs rhs : Var V) : Res (Got Bool) :=
  if lhs.typeId = none ∧ rhs.typeId = none then .ok (.value false)
  else if lhs.typeId = none then .ok (.value true)
  else if rhs.typeId = none then .ok (.value false)
  else match lhs.typeId, rhs.typeId with
    | some k, some l => if k ≠ l then .ok (.value (decide (k < l))) else visit [(T, lhs)] (withOther T lt rhs)
    | _, _ => .error .outOfBounds
/-- `operator >`, l.2014-2018 -/
def varGt (T : Tys V) (lt : Nat → V → V → Bool) (lhs rhs : Var V) : Res (Got Bool) := varLt T lt rhs lhs
/-- `operator <=`, l.2024-2028 -/
def varLe (T : Tys V) (lt : Nat → V → V → Bool) (lhs rhs : Var V) : Res (Got Bool) := notGot (varGt T lt lhs rhs)
/-- `operator >=`, l.2034-2038 -/
def varGe (T : Tys V) (lt : Nat → V → V → Bool) (lhs rhs : Var V) : Res (Got Bool) := notGot (varLt T lt lhs rhs)

/-! ## comparisons of optionals -/

/-- `lhs.value() op rhs` -/
def oWith (debug : Bool) (x : Opt V) (f : V → Bool) : Res (Got Bool) := match oValue debug x with
  | .error e => .error e
  | .ok .error => .ok .error
  | .ok (.value v) => .ok (.value (f v))
/-- `lhs.value() op rhs.value()` -/
def oWith2 (debug : Bool) (x y : Opt V) (f : V → V → Bool) : Res (Got Bool) := match oValue debug x with
  | .error e => .error e
  | .ok .error => .ok .error
  | .ok (.value v) => oWith debug y (f v)
/-- the comparisons of the value type -/
structure Cmp (V : Type) where
  eq : V → V → Bool
  lt : V → V → Bool
  le : V → V → Bool
  gt : V → V → Bool
  ge : V → V → Bool
/-- the operators -/
inductive Rel where
  | eq | ne | lt | le | gt | ge
deriving DecidableEq
def boolOk (b : Bool) : Res (Got Bool) := .ok (.value b)
/-- `operator ==` of two optionals, optional.h l.1567-1581 -/
def oEq (debug : Bool) (C : Cmp V) (l r : Opt V) : Res (Got Bool) :=
  if l.valid ≠ r.valid then boolOk false else if !l.valid && !r.valid then boolOk true else oWith2 debug l r C.eq
/-- `operator <` of two optionals, l.1625-1639 -/
def oLt (debug : Bool) (C : Cmp V) (l r : Opt V) : Res (Got Bool) :=
  if !r.valid then boolOk false else if !l.valid then boolOk true else oWith2 debug l r C.lt
/-- two optionals, l.1567-1714 -/
def oCmp (debug : Bool) (C : Cmp V) : Rel → Opt V → Opt V → Res (Got Bool)
  | .eq, l, r => oEq debug C l r
  | .ne, l, r => notGot (oEq debug C l r)
  | .lt, l, r => oLt debug C l r
  | .le, l, r => notGot (oLt debug C r l)
  | .gt, l, r => oLt debug C r l
  | .ge, l, r => notGot (oLt debug C l r)
/-- an optional and `nullopt`, l.1719-1912 -/
def oCmpNull : Rel → Opt V → Bool
  | .eq, l => !l.valid
  | .ne, l => !(!l.valid)
  | .lt, _ => false
  | .le, l => !l.valid
  | .gt, l => l.valid
  | .ge, _ => true
/-- `nullopt` and an optional, l.1737-1930 -/
def oNullCmp : Rel → Opt V → Bool
  | .eq, r => !r.valid
  | .ne, r => !(!r.valid)
  | .lt, r => r.valid
  | .le, _ => true
  | .gt, _ => false
  | .ge, r => !r.valid
/-- an optional and a value, l.1935-2128 -/
def oCmpVal (debug : Bool) (C : Cmp V) : Rel → Opt V → V → Res (Got Bool)
  | .eq, l, u => if l.valid then oWith debug l (fun v => C.eq v u) else boolOk false
  | .ne, l, u => notGot (if l.valid then oWith debug l (fun v => C.eq v u) else boolOk false)
  | .lt, l, u => if l.valid then oWith debug l (fun v => C.lt v u) else boolOk true
  | .le, l, u => if l.valid then oWith debug l (fun v => C.le v u) else boolOk true
  | .gt, l, u => if l.valid then oWith debug l (fun v => C.gt v u) else boolOk false
  | .ge, l, u => if l.valid then oWith debug l (fun v => C.ge v u) else boolOk false
/-- a value and an optional, l.1971-2146; `==` compares the value of the optional with the other, l.1973 -/
def oValCmp (debug : Bool) (C : Cmp V) : Rel → V → Opt V → Res (Got Bool)
  | .eq, u, r => if r.valid then oWith debug r (fun v => C.eq v u) else boolOk false
  | .ne, u, r => notGot (if r.valid then oWith debug r (fun v => C.eq v u) else boolOk false)
  | .lt, u, r => if r.valid then oWith debug r (fun v => C.lt u v) else boolOk false
  | .le, u, r => if r.valid then oWith debug r (fun v => C.le u v) else boolOk false
  | .gt, u, r => if r.valid then oWith debug r (fun v => C.gt u v) else boolOk true
  | .ge, u, r => if r.valid then oWith debug r (fun v => C.ge u v) else boolOk true

/-! ## comparisons of expecteds -/

def gWith (a : Res (Got V)) (f : V → Bool) : Res (Got Bool) := match a with
  | .error e => .error e
  | .ok .error => .ok .error
  | .ok (.value v) => .ok (.value (f v))
def gWith2 (a b : Res (Got V)) (f : V → V → Bool) : Res (Got Bool) := match a with
  | .error e => .error e
  | .ok .error => .ok .error
  | .ok (.value v) => gWith b (f v)
/-- `operator ==` of two expecteds, expected.h l.966-979 -/
def eEq (T : Tys V) (eqv eqe : V → V → Bool) (l r : Var V) : Res (Got Bool) :=
  if eHasValue l ≠ eHasValue r then boolOk false
  else if eHasValue l then gWith2 (eValue T l) (eValue T r) eqv
  else gWith2 (eError T l) (eError T r) eqe
/-- an expected and a value, l.982-991 -/
def eEqVal (T : Tys V) (eqv : V → V → Bool) (l : Var V) (u : V) : Res (Got Bool) :=
  if !eHasValue l then boolOk false else gWith (eValue T l) (fun v => eqv v u)
/-- an expected and an `unexpected`, l.994-1003 -/
def eEqUnexp (T : Tys V) (eqe : V → V → Bool) (l : Var V) (u : V) : Res (Got Bool) :=
  if eHasValue l then boolOk false else gWith (eError T l) (fun v => eqe v u)
/-- the three `operator !=`, l.1042-1063 -/
def eNe (T : Tys V) (eqv eqe : V → V → Bool) (l r : Var V) : Res (Got Bool) := notGot (eEq T eqv eqe l r)
def eNeVal (T : Tys V) (eqv : V → V → Bool) (l : Var V) (u : V) : Res (Got Bool) := notGot (eEqVal T eqv l u)
def eNeUnexp (T : Tys V) (eqe : V → V → Bool) (l : Var V) (u : V) : Res (Got Bool) := notGot (eEqUnexp T eqe l u)

/-! ## expected<void, E> -/

/-- What a program does with `expected<void, E>`, a `variant<monostate, E>`, expected.h l.760-960 -/
inductive VOp (V : Type) where
  | default (i : Nat)
  | ofUnexpected (i : Nat) (a : Arg V)
  | copy (i j : Nat)
  | move (i j : Nat)
  | destroy (i : Nat)
  | assignCopy (i j : Nat)
  | assignMove (i j : Nat)
  | assignUnexpected (i : Nat) (a : Arg V)
  | swap (i j : Nat)
/-- the constructors, l.772-815, the assignments, l.820-863, `swap`, l.944-949 -/
def VOp.toVariant (T : Tys V) : VOp V → Op V
  | .default i => .default i
  | .ofUnexpected i a => .ofValue i (typeFrom T.types 1) a
  | .copy i j => .copy i j
  | .move i j => .move i j
  | .destroy i => .destroy i
  | .assignCopy i j => .assignCopy i j
  | .assignMove i j => .assignMove i j
  | .assignUnexpected i a => .emplaceI i 1 a
  | .swap i j => .swap i j
/-- `has_value`, l.870-873 -/
def vHasValue (x : Var V) : Bool := !decide (x.typeId = some 1)
/-- `error`, l.893-929 -/
def vError (T : Tys V) (x : Var V) : Res (Got V) := get T x 1
/-- `operator ==` of two, l.1006-1019 -/
def vEq (T : Tys V) (eqe : V → V → Bool) (l r : Var V) : Res (Got Bool) :=
  if vHasValue l ≠ vHasValue r then boolOk false
  else if vHasValue l then boolOk true
  else gWith2 (vError T l) (vError T r) eqe
/-- and with an `unexpected`, l.1022-1031 -/
def vEqUnexp (T : Tys V) (eqe : V → V → Bool) (l : Var V) (u : V) : Res (Got Bool) :=
  if vHasValue l then boolOk false else gWith (vError T l) (fun v => eqe v u)

/-! ## result -/

/-- What a program does with `result<TValue, TError>`, a `variant<TValue, TError>`, result.h l.52-239.  `take i side`: `auto x = r.value()` (or `r.error()`) of a `result` that is not `const`. -/
inductive ROp (V : Type) where
  | ofValue (i : Nat) (a : Arg V)
  | ofError (i : Nat) (a : Arg V)
  | copy (i j : Nat)
  | move (i j : Nat)
  | destroy (i : Nat)
  | assignCopy (i j : Nat)
  | assignMove (i j : Nat)
  | assignValue (i : Nat) (a : Arg V)
  | assignError (i : Nat) (a : Arg V)
  | take (i : Nat) (side : Bool)
/-- the type of the value (`true`) or of the error -/
def sideType (T : Tys V) (side : Bool) : Nat := typeFrom T.types (if side then 0 else 1)
/-- `auto x = r.value()`, l.212-215 and l.231-234: the reference is `TValue&&`, so `x` is constructed by a move -/
def rTake (T : Tys V) (w : World V) (i : Nat) (side : Bool) : Res (World V × Option (Got V)) := match w i with
  | none => .error .deadAccess
  | some x => match getT T x (sideType T side) with
    | .error e => .error e
    | .ok .error => .ok (w, some .error)
    | .ok (.value _) => match evalArg T w (sideType T side) (.content i true) with
      | .error e => .error e
      | .ok (v, w) => .ok (w, some (.value v))
def noOut : Res (World V) → Res (World V × Option (Got V))
  | .error e => .error e
  | .ok w => .ok (w, none)
/-- one operation: the constructors, l.68-115, the assignments, l.120-172, and the accesses.  The second result is what an access gives. -/
def rStep (T : Tys V) (w : World V) : ROp V → Res (World V × Option (Got V))
  | .ofValue i a => noOut (step T w (.ofValue i (typeFrom T.types 0) a))
  | .ofError i a => noOut (step T w (.ofValue i (typeFrom T.types 1) a))
  | .copy i j => noOut (step T w (.copy i j))
  | .move i j => noOut (step T w (.move i j))
  | .destroy i => noOut (step T w (.destroy i))
  | .assignCopy i j => noOut (step T w (.assignCopy i j))
  | .assignMove i j => noOut (step T w (.assignMove i j))
  | .assignValue i a => noOut (step T w (.assignValue i (typeFrom T.types 0) a))
  | .assignError i a => noOut (step T w (.assignValue i (typeFrom T.types 1) a))
  | .take i side => rTake T w i side
/-- a program: the objects at the end, and what the accesses gave, in order -/
def rRun (T : Tys V) (w : World V) : List (ROp V) → Res (World V × List (Got V))
  | [] => .ok (w, [])
  | o :: os => match rStep T w o with
    | .error e => .error e
    | .ok (w, out) => match rRun T w os with
      | .error e => .error e
      | .ok (w, outs) => .ok (w, out.toList ++ outs)
/-- `has_value`, l.178-181 -/
def rHasValue (x : Var V) : Bool := decide (x.typeId = some 0)
/-- `value() const` and `error() const`, l.203-206, l.221-224 -/
def rPeek (T : Tys V) (x : Var V) (side : Bool) : Res (Got V) := getT T x (sideType T side)

/-- What a program does with `result<void, TError>` or `result<TValue, void>`, an `optional` of the one type, result.h l.245-476 -/
inductive SOp (V : Type) where
  | default (i : Nat)
  | ofValue (i : Nat) (a : Arg V)
  | copy (i j : Nat)
  | move (i j : Nat)
  | destroy (i : Nat)
  | assignValue (i : Nat) (a : Arg V)
/-- the constructors, l.257-293 and l.376-410, the assignments, l.298-312 and l.415-428 -/
def SOp.toOptional : SOp V → OOp V
  | .default i => .default i
  | .ofValue i a => .ofValue i a
  | .copy i j => .copy i j
  | .move i j => .move i j
  | .destroy i => .destroy i
  | .assignValue i a => .assignValue i a
/-- `has_value` of `result<void, TError>`, l.318-321 -/
def rvHasValue (x : Opt V) : Bool := !x.valid
/-- `error() const` of `result<void, TError>`, l.343-346 -/
def rvError (debug : Bool) (x : Opt V) : Res (Got V) := oValue debug x

end Etl.SumT
