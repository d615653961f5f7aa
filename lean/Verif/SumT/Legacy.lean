import Verif.SumT.Model

/-!
# Model of etl::legacy::variant

Source: `/repo/include/etl/private/variant_legacy.h` (`etl::variant` in C++03, `etl::legacy::variant` otherwise).

The storage is a `Cell` as in `SumT.Model`.  The identifier is an index or none (`UNSUPPORTED_TYPE_ID`).  The `switch` statements over the eight types are lookups in the list of the types; the `null_type`s of unused places are left out, no
object of them can be made.  Objects are named by numbers; a program is a list of operations on them, and may also make one throw.
-/
namespace Etl.SumT.Legacy

variable {V : Type}

/-- `Type_Id_Lookup<T>::type_id`, l.195-206 -/
def lookup : List Nat → Nat → Option Nat
  | [], _ => none
  | a :: l, t => if t = a then some 0 else (match lookup l t with
    | none => none
    | some k => some (k + 1))
/-- `Type_Is_Supported<T>`, l.212-223 -/
def supported (types : List Nat) (t : Nat) : Bool := types.any (fun a => t == a)

/-- `data` and `type_id`, l.903-911 -/
structure Var (V : Type) where
  data : Cell V
  typeId : Option Nat

/-- `is_type<T>`, l.743-747 -/
def isType (types : List Nat) (t : Nat) (x : Var V) : Bool := decide (x.typeId = lookup types t)
/-- `get<T>`, l.770-791: `none` means that the error `variant_incorrect_type_exception` is raised -/
def get (types : List Nat) (t : Nat) (x : Var V) : Res (Option V) :=
  if isType types t x then (match read x.data t with
    | .error e => .error e
    | .ok v => .ok (some v)) else .ok none
/-- `destruct_current`, l.880-896 -/
def destructCurrent (types : List Nat) (x : Var V) : Res (Var V) := match x.typeId with
  | none => .ok { x with typeId := none }
  | some k => match types[k]? with
    | none => .ok { x with typeId := none }
    | some t => match destroyAt x.data t with
      | .error e => .error e
      | .ok d => .ok ⟨d, none⟩
/-- The `switch` of the copy constructor, l.504-515, and of the assignment, l.643-654, with the assignment of the identifier: `none` if `get` raises the error. -/
def copyFrom (types : List Nat) (x other : Var V) : Res (Option (Var V)) := match other.typeId with
  | none => .ok (some { x with typeId := none })
  | some k => match types[k]? with
    | none => .ok (some { x with typeId := some k })
    | some t => match get types t other with
      | .error e => .error e
      | .ok none => .ok none
      | .ok (some v) => match construct x.data t v with
        | .error e => .error e
        | .ok d => .ok (some ⟨d, some k⟩)

abbrev World (V : Type) := Nat → Option (Var V)
/-- The argument of a constructor: a value from elsewhere or the object inside a variant, read when the constructor runs. -/
inductive Arg (V : Type) where
  | value (v : V)
  | content (j : Nat)
/-- What a program does. -/
inductive Op (V : Type) where
  | default (i : Nat)
  | ofValue (i t : Nat) (a : Arg V)
  | inPlace (i k t : Nat) (a : Arg V)
  | copy (i j : Nat)
  | destroy (i : Nat)
  | emplace (i t : Nat) (a : Arg V)
  | emplaceThrows (i t : Nat)
  | assignValue (i t : Nat) (a : Arg V)
  | assignCopy (i j : Nat)
  | clear (i : Nat)

def evalArg (w : World V) (t : Nat) : Arg V → Res V
  | .value v => .ok v
  | .content j => match w j with
    | none => .error .deadAccess
    | some x => read x.data t
/-- The constructors from a value, l.475-481, l.488-494: `k` is the identifier. -/
def create (w : World V) (i t : Nat) (k : Option Nat) (a : Arg V) : Res (World V) := match evalArg w t a with
  | .error e => .error e
  | .ok v => match construct none t v with
    | .error e => .error e
    | .ok d => .ok (upd w i (some ⟨d, k⟩))
/-- `emplace`, l.524-612, and the assignment of a value, l.616-626. -/
def replace (types : List Nat) (w : World V) (i t : Nat) (a : Arg V) : Res (World V) := match w i with
  | none => .error .deadAccess
  | some x => match destructCurrent types x with
    | .error e => .error e
    | .ok x => match evalArg (upd w i (some x)) t a with
      | .error e => .error e
      | .ok v => match construct x.data t v with
        | .error e => .error e
        | .ok d => .ok (upd w i (some ⟨d, lookup types t⟩))
/-- One operation; `none` means that it does not compile (an unsupported type, a wrong index) or that the assertion of `get` inside of it raised the error. -/
def step (types : List Nat) (w : World V) : Op V → Res (Option (World V))
  -- l.465-468
  | .default i => .ok (some (upd w i (some ⟨none, none⟩)))
  | .ofValue i t a => if supported types t then (match create w i t (lookup types t) a with
      | .error e => .error e
      | .ok w => .ok (some w)) else .ok none
  | .inPlace i k t a => if lookup types t = some k then (match create w i t (some k) a with
      | .error e => .error e
      | .ok w => .ok (some w)) else .ok none
  | .copy i j => match w j with
    | none => .error .deadAccess
    | some y => match copyFrom types ⟨none, none⟩ y with
      | .error e => .error e
      | .ok none => .ok none
      | .ok (some x) => .ok (some (upd w i (some x)))
  -- `~variant`, l.230-233: the memory must hold no object afterwards
  | .destroy i => match w i with
    | none => .error .deadAccess
    | some x => match destructCurrent types x with
      | .error e => .error e
      | .ok ⟨none, _⟩ => .ok (some (upd w i none))
      | .ok ⟨some _, _⟩ => .error .constructLive
  | .emplace i t a => if supported types t then (match replace types w i t a with
      | .error e => .error e
      | .ok w => .ok (some w)) else .ok none
  -- `emplace` or the assignment of a value whose constructor throws: `destruct_current` has been called
  | .emplaceThrows i t => if supported types t then (match w i with
      | none => .error .deadAccess
      | some x => match destructCurrent types x with
        | .error e => .error e
        | .ok x => .ok (some (upd w i (some x)))) else .ok none
  | .assignValue i t a => if supported types t then (match replace types w i t a with
      | .error e => .error e
      | .ok w => .ok (some w)) else .ok none
  -- l.633-658
  | .assignCopy i j => match w i, w j with
    | some x, some y => if i = j then .ok (some w) else (match destructCurrent types x with
      | .error e => .error e
      | .ok x => match copyFrom types x y with
        | .error e => .error e
        | .ok none => .ok none
        | .ok (some x) => .ok (some (upd w i (some x))))
    | _, _ => .error .deadAccess
  -- `clear`, l.760-763
  | .clear i => match w i with
    | none => .error .deadAccess
    | some x => match destructCurrent types x with
      | .error e => .error e
      | .ok x => .ok (some (upd w i (some x)))
def run (types : List Nat) (w : World V) : List (Op V) → Res (Option (World V))
  | [] => .ok (some w)
  | o :: os => match step types w o with
    | .error e => .error e
    | .ok none => .ok none
    | .ok (some w) => run types w os

/-- `is_valid`, l.734-737; `index`, l.752-755 -/
def isValid (x : Var V) : Bool := decide (x.typeId ≠ none)
/-- `call(reader)`, l.711-729: which `read` is called with which value -/
def call (types : List Nat) (x : Var V) : Res (Option (Nat × V)) := match x.typeId with
  | none => .ok none
  | some k => match types[k]? with
    | none => .ok none
    | some t => match read x.data t with
      | .error e => .error e
      | .ok v => .ok (some (t, v))
/-- `visit`, l.990-1005: the type of the argument and the argument of the visitor; `none` means that the error `bad_variant_access` is raised, or the one of `get` -/
def visit (types : List Nat) (x : Var V) : Res (Option (Nat × V)) := match x.typeId with
  | none => .ok none
  | some k => match types[k]? with
    | none => .ok none
    | some t => match get types t x with
      | .error e => .error e
      | .ok none => .ok none
      | .ok (some v) => .ok (some (t, v))
/-- `is_same_type` for the same declaration, l.665-668 -/
def isSame (x y : Var V) : Bool := decide (x.typeId = y.typeId)
/-- `is_same_type` for another declaration `us`, l.675-694 -/
def isSameOther (types us : List Nat) (x y : Var V) : Bool := match y.typeId with
  | none => false
  | some k => match us[k]? with
    | none => false
    | some u => decide (x.typeId = lookup types u)
/-- `is_base_of<TBase>`, l.855-873: `base` is `etl::is_base_of<TBase, ·>` -/
def isBase (types : List Nat) (base : Nat → Bool) (x : Var V) : Bool := match x.typeId with
  | none => false
  | some k => match types[k]? with
    | none => false
    | some t => base t
/-- `upcast_ptr`, l.797-810: the distance of the pointer from the stored object, which is reinterpreted -/
def upcastPtr (types : List Nat) (base : Nat → Bool) (x : Var V) : Option Nat := if isBase types base x then some 0 else none

end Etl.SumT.Legacy
