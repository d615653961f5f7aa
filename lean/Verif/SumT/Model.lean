import Verif.Common.Res

/-!
# Model of etl::optional, etl::variant and etl::expected

Source: `/repo/include/etl/optional.h`, `/repo/include/etl/private/variant_variadic.h`, `/repo/include/etl/expected.h`.

The storage of an object is a cell that is empty or holds one live object with its type.  Constructing over a live object (which is then never destroyed), destroying an object that is not there or is of another type, and reading it, are errors of the model.
A type is a number; what a move leaves behind in the source is given by `moved`.  Objects are named by numbers; a program is a list of operations on them.
Not modelled: exceptions thrown by constructors, except in `emplaceThrows`; `in_place` with several arguments and `initializer_list` (they are a constructor like any other); the C++03 implementations (comparisons, visits and `expected<void, E>` are in `SumT.More`).
-/
namespace Etl.SumT

variable {V : Type}

/-- the live object of a storage -/
abbrev Cell (V : Type) := Option (Nat × V)
/-- placement new -/
def construct (c : Cell V) (t : Nat) (v : V) : Res (Cell V) := match c with
  | none => .ok (some (t, v))
  | some _ => .error .constructLive
/-- the destructor of type `t` -/
def destroyAt (c : Cell V) (t : Nat) : Res (Cell V) := match c with
  | none => .error .deadAccess
  | some (t', _) => if t' = t then .ok none else .error .deadAccess
/-- an access as type `t` -/
def read (c : Cell V) (t : Nat) : Res V := match c with
  | none => .error .deadAccess
  | some (t', v) => if t' = t then .ok v else .error .deadAccess

/-- what is known of the types -/
structure Tys (V : Type) where
  types : List Nat
  copyable : Nat → Bool
  moveable : Nat → Bool
  moved : Nat → V → V
  dflt : Nat → V

/-! ## variant -/

/-- `index_of_type`, variant_variadic.h l.81-108 -/
def indexOf : List Nat → Nat → Nat
  | [], _ => 0
  | [_], _ => 0
  | a :: b :: rest, t => if a = t then 0 else 1 + indexOf (b :: rest) t
/-- `type_from_index`, l.113-138 -/
def typeFrom : List Nat → Nat → Nat
  | [], _ => 0
  | [a], _ => a
  | a :: _ :: _, 0 => a
  | _ :: b :: rest, k + 1 => typeFrom (b :: rest) k

/-- `variant`, l.1453-1463: the storage, the operation function (`none`: the null operation), the index (`none`: `variant_npos`) -/
structure Var (V : Type) where
  data : Cell V
  operation : Option Nat
  typeId : Option Nat

/-- `do_operation(Destroy, …)`, l.166-304 -/
def opDestroy (op : Option Nat) (c : Cell V) : Res (Cell V) := match op with
  | none => .ok c
  | some t => destroyAt c t
/-- `do_operation(Copy, …)`: nothing for a type that cannot be copied -/
def opCopy (T : Tys V) (op : Option Nat) (dst src : Cell V) : Res (Cell V) := match op with
  | none => .ok dst
  | some t => if T.copyable t then (match read src t with
      | .error e => .error e
      | .ok v => construct dst t v) else .ok dst
/-- `do_operation(Move, …)`: the new and the old storage -/
def opMove (T : Tys V) (op : Option Nat) (dst src : Cell V) : Res (Cell V × Cell V) := match op with
  | none => .ok (dst, src)
  | some t => if T.moveable t then (match read src t with
      | .error e => .error e
      | .ok v => match construct dst t v with
        | .error e => .error e
        | .ok d => .ok (d, some (t, T.moved t v))) else .ok (dst, src)

/-- Copy constructor, l.643-659 -/
def copyCtor (T : Tys V) (other : Var V) : Res (Var V) :=
  if other.typeId = none then .ok ⟨none, other.operation, none⟩
  else match opCopy T other.operation none other.data with
    | .error e => .error e
    | .ok d => .ok ⟨d, other.operation, other.typeId⟩
/-- Move constructor, l.667-687: the new variant and the source -/
def moveCtor (T : Tys V) (other : Var V) : Res (Var V × Var V) :=
  if other.typeId = none then .ok (⟨none, other.operation, none⟩, other)
  else match opMove T other.operation none other.data with
    | .error e => .error e
    | .ok (d, s) => .ok (⟨d, other.operation, other.typeId⟩, ⟨s, other.operation, other.typeId⟩)
/-- Destructor, l.692-701: what is left alive -/
def dtor (x : Var V) : Res (Cell V) := if x.typeId ≠ none then opDestroy x.operation x.data else .ok x.data
/-- Copy assignment from another variant, l.815-835 -/
def assignCopy (T : Tys V) (x other : Var V) : Res (Var V) :=
  if other.typeId = none then .ok { x with typeId := none }
  else match opDestroy x.operation x.data with
    | .error e => .error e
    | .ok d => match opCopy T other.operation d other.data with
      | .error e => .error e
      | .ok d => .ok ⟨d, other.operation, other.typeId⟩
/-- Move assignment from another variant, l.841-861 -/
def assignMove (T : Tys V) (x other : Var V) : Res (Var V × Var V) :=
  if other.typeId = none then .ok ({ x with typeId := none }, other)
  else match opDestroy x.operation x.data with
    | .error e => .error e
    | .ok d => match opMove T other.operation d other.data with
      | .error e => .error e
      | .ok (d, s) => .ok (⟨d, other.operation, other.typeId⟩, ⟨s, other.operation, other.typeId⟩)

/-- the objects of a program -/
abbrev World (V : Type) := Nat → Option (Var V)
/-- the argument of a constructor: a value from elsewhere, or the object inside a variant, by `const T&` or by `T&&` -/
inductive Arg (V : Type) where
  | value (v : V)
  | content (j : Nat) (move : Bool)
/-- reading the argument, when the constructor runs -/
def evalArg (T : Tys V) (w : World V) (t : Nat) : Arg V → Res (V × World V)
  | .value v => .ok (v, w)
  | .content j mv => match w j with
    | none => .error .deadAccess
    | some x => match read x.data t with
      | .error e => .error e
      | .ok v => .ok (v, if mv then upd w j (some { x with data := some (t, T.moved t v) }) else w)

/-- what a program does with variants -/
inductive Op (V : Type) where
  | default (i : Nat)
  | ofValue (i t : Nat) (a : Arg V)
  | inPlace (i k : Nat) (a : Arg V)
  | copy (i j : Nat)
  | move (i j : Nat)
  | destroy (i : Nat)
  | emplaceT (i t : Nat) (a : Arg V)
  | emplaceI (i k : Nat) (a : Arg V)
  | assignValue (i t : Nat) (a : Arg V)
  | assignCopy (i j : Nat)
  | assignMove (i j : Nat)
  | swap (i j : Nat)

/-- Constructors from a value, by type or by index, l.562-601: `k` is the index and `t` the type -/
def create (T : Tys V) (w : World V) (i k t : Nat) (a : Arg V) : Res (World V) :=
  match evalArg T w t a with
  | .error e => .error e
  | .ok (v, w) => match construct none t v with
    | .error e => .error e
    | .ok d => .ok (upd w i (some ⟨d, some t, some k⟩))
/-- `emplace`, by type and by index, l.706-790, and the assignment from a value, l.796-809: the old object is destroyed first, then the new one is constructed from the argument -/
def replace (T : Tys V) (w : World V) (i k t : Nat) (a : Arg V) : Res (World V) :=
  match w i with
  | none => .error .deadAccess
  | some x => match opDestroy x.operation x.data with
    | .error e => .error e
    | .ok d => match evalArg T (upd w i (some { x with data := d })) t a with
      | .error e => .error e
      | .ok (v, w) => match construct d t v with
        | .error e => .error e
        | .ok d => .ok (upd w i (some ⟨d, some t, some k⟩))
/-- one operation -/
def step (T : Tys V) (w : World V) : Op V → Res (World V)
  | .default i => create T w i 0 (typeFrom T.types 0) (.value (T.dflt (typeFrom T.types 0)))
  | .ofValue i t a => create T w i (indexOf T.types t) t a
  | .inPlace i k a => create T w i k (typeFrom T.types k) a
  | .copy i j => match w j with
    | none => .error .deadAccess
    | some y => match copyCtor T y with
      | .error e => .error e
      | .ok x => .ok (upd w i (some x))
  | .move i j => match w j with
    | none => .error .deadAccess
    | some y => match moveCtor T y with
      | .error e => .error e
      | .ok (x, y) => .ok (upd (upd w j (some y)) i (some x))
  | .destroy i => match w i with
    | none => .error .deadAccess
    | some x => match dtor x with
      | .error e => .error e
      | .ok none => .ok (upd w i none)
      | .ok (some _) => .error .constructLive
  | .emplaceT i t a => replace T w i (indexOf T.types t) t a
  | .emplaceI i k a => replace T w i k (typeFrom T.types k) a
  | .assignValue i t a => replace T w i (indexOf T.types t) t a
  | .assignCopy i j => match w i, w j with
    | some x, some y => if i = j then .ok w else (match assignCopy T x y with
      | .error e => .error e
      | .ok x => .ok (upd w i (some x)))
    | _, _ => .error .deadAccess
  | .assignMove i j => match w i, w j with
    | some x, some y => if i = j then .ok w else (match assignMove T x y with
      | .error e => .error e
      | .ok (x, y) => .ok (upd (upd w j (some y)) i (some x)))
    | _, _ => .error .deadAccess
  -- `swap`, l.923-928
  | .swap i j => match w i with
    | none => .error .deadAccess
    | some x => match moveCtor T x with
      | .error e => .error e
      | .ok (temp, x) => match w j with
        | none => .error .deadAccess
        | some y => match (if i = j then .ok (x, x) else assignMove T x y) with
          | .error e => .error e
          | .ok (x, y) => match assignMove T y temp with
            | .error e => .error e
            | .ok (y, temp) => match dtor temp with
              | .error e => .error e
              | .ok none => .ok (upd (upd w i (some x)) j (some y))
              | .ok (some _) => .error .constructLive
/-- a program -/
def run (T : Tys V) (w : World V) : List (Op V) → Res (World V)
  | [] => .ok w
  | o :: os => match step T w o with
    | .error e => .error e
    | .ok w => run T w os

/-- the result of an access: a value or an error -/
inductive Got (V : Type) where
  | value (v : V)
  | error
deriving DecidableEq
/-- `get<Index>(v)` of an lvalue, l.1499-1512 -/
def get (T : Tys V) (x : Var V) (k : Nat) : Res (Got V) :=
  if x.typeId = some k then (match read x.data (typeFrom T.types k) with
    | .error e => .error e
    | .ok v => .ok (.value v))
  else .ok .error
/-- `get<T>(v)` of an lvalue, l.1562-1568 -/
def getT (T : Tys V) (x : Var V) (t : Nat) : Res (Got V) := get T x (indexOf T.types t)
/-- `get<Index>` of an rvalue, l.1516-1527: without a check -/
def getRvalue (T : Tys V) (x : Var V) (k : Nat) : Res (Got V) := match read x.data (typeFrom T.types k) with
  | .error e => .error e
  | .ok v => .ok (.value v)
/-- `get_if`, l.1600-1662 -/
def getIf (T : Tys V) (x : Var V) (k : Nat) : Res (Option V) :=
  if x.typeId = some k then (match get T x k with
    | .error e => .error e
    | .ok (.value v) => .ok (some v)
    | .ok .error => .ok none)
  else .ok none
/-- `holds_alternative<T>`, l.1469-1475 -/
def holds (T : Tys V) (x : Var V) (t : Nat) : Bool := decide (x.typeId = some (indexOf T.types t))
/-- `emplace` whose constructor throws, l.706-721: the function and the index are still the old ones -/
def emplaceThrows (x : Var V) : Res (Var V) := match opDestroy x.operation x.data with
  | .error e => .error e
  | .ok d => .ok { x with data := d }

/-! ## optional -/

/-- `optional_impl`, optional.h l.596-680: the value (the type is not needed, 0) and `valid` -/
structure Opt (V : Type) where
  data : Cell V
  valid : Bool
/-- `storage_type::construct`, l.607-645 -/
def Opt.clear (x : Opt V) : Res (Opt V) := if x.valid then (match destroyAt x.data 0 with
  | .error e => .error e
  | .ok d => .ok { x with data := d }) else .ok x
def Opt.fill (x : Opt V) (v : V) : Res (Opt V) := match construct x.data 0 v with
  | .error e => .error e
  | .ok d => .ok ⟨d, true⟩
/-- `storage_type::destroy`, l.648-656 -/
def Opt.destroy (x : Opt V) : Res (Opt V) := if x.valid then (match destroyAt x.data 0 with
  | .error e => .error e
  | .ok d => .ok ⟨d, false⟩) else .ok x

abbrev OWorld (V : Type) := Nat → Option (Opt V)
/-- `other.value()`, without the check -/
def oRead (moved : V → V) (w : OWorld V) : Arg V → Res (V × OWorld V)
  | .value v => .ok (v, w)
  | .content j mv => match w j with
    | none => .error .deadAccess
    | some x => match read x.data 0 with
      | .error e => .error e
      | .ok v => .ok (v, if mv then upd w j (some { x with data := some (0, moved v) }) else w)
/-- `storage.construct(argument)`: the old value is destroyed, then the argument is read -/
def oConstruct (moved : V → V) (w : OWorld V) (i : Nat) (a : Arg V) : Res (OWorld V) := match w i with
  | none => .error .deadAccess
  | some x => match x.clear with
    | .error e => .error e
    | .ok x => match oRead moved (upd w i (some x)) a with
      | .error e => .error e
      | .ok (v, w) => match x.fill v with
        | .error e => .error e
        | .ok x => .ok (upd w i (some x))
/-- `storage.destroy()` -/
def oDestroy (w : OWorld V) (i : Nat) : Res (OWorld V) := match w i with
  | none => .error .deadAccess
  | some x => match x.destroy with
    | .error e => .error e
    | .ok x => .ok (upd w i (some x))
/-- copy or move from another optional: the constructors, l.141-162, and the assignments, l.217-256 -/
def oFrom (moved : V → V) (w : OWorld V) (i j : Nat) (mv : Bool) : Res (OWorld V) := match w j with
  | none => .error .deadAccess
  | some y => if y.valid then oConstruct moved w i (.content j mv) else oDestroy w i

inductive OOp (V : Type) where
  | default (i : Nat)
  | ofValue (i : Nat) (a : Arg V)
  | copy (i j : Nat)
  | move (i j : Nat)
  | destroy (i : Nat)
  | assignNull (i : Nat)
  | assignCopy (i j : Nat)
  | assignMove (i j : Nat)
  | assignValue (i : Nat) (a : Arg V)
  | emplace (i : Nat) (a : Arg V)
  | reset (i : Nat)
  | swap (i j : Nat)
/-- a new storage, l.600-604 -/
def oNew (w : OWorld V) (i : Nat) : OWorld V := upd w i (some ⟨none, false⟩)
/-- the end of an optional, l.188-192 -/
def oEnd (w : OWorld V) (i : Nat) : Res (OWorld V) := match oDestroy w i with
  | .error e => .error e
  | .ok w => match w i with
    | some ⟨none, _⟩ => .ok (upd w i none)
    | _ => .error .constructLive
/-- one operation, l.117-520.  `tmp` is the name of the local variable of `swap`, l.464-469. -/
def oStep (moved : V → V) (tmp : Nat) (w : OWorld V) : OOp V → Res (OWorld V)
  | .default i => .ok (oNew w i)
  | .ofValue i a => oConstruct moved (oNew w i) i a
  | .copy i j => oFrom moved (oNew w i) i j false
  | .move i j => oFrom moved (oNew w i) i j true
  | .destroy i => oEnd w i
  | .assignNull i => match w i with
    | none => .error .deadAccess
    | some x => if x.valid then oDestroy w i else .ok w
  | .assignCopy i j => if i = j then .ok w else oFrom moved w i j false
  | .assignMove i j => if i = j then .ok w else oFrom moved w i j true
  | .assignValue i a => oConstruct moved w i a
  | .emplace i a => oConstruct moved w i a
  | .reset i => oDestroy w i
  | .swap i j => match oFrom moved (oNew w tmp) tmp i false with
    | .error e => .error e
    | .ok w => match (if i = j then .ok w else oFrom moved w i j false) with
      | .error e => .error e
      | .ok w => match oFrom moved w j tmp false with
        | .error e => .error e
        | .ok w => oEnd w tmp
def oRun (moved : V → V) (tmp : Nat) (w : OWorld V) : List (OOp V) → Res (OWorld V)
  | [] => .ok w
  | o :: os => match oStep moved tmp w o with
    | .error e => .error e
    | .ok w => oRun moved tmp w os
/-- `value()`, `operator *`, l.356-405: checked in debug builds only -/
def oValue (debug : Bool) (x : Opt V) : Res (Got V) :=
  if debug && !x.valid then .ok .error
  else match read x.data 0 with
    | .error e => .error e
    | .ok v => .ok (.value v)
/-- `value_or`, l.404-407 -/
def oValueOr (debug : Bool) (x : Opt V) (dflt : V) : Res (Got V) := if x.valid then oValue debug x else .ok (.value dflt)

/-! ## expected -/

/-- What a program does with `expected<TValue, TError>`: a `variant<monostate, TValue, TError>`, expected.h l.741-749 -/
inductive EOp (V : Type) where
  | default (i : Nat)
  | ofValue (i : Nat) (a : Arg V)
  | ofUnexpected (i : Nat) (a : Arg V)
  | unexpect (i : Nat) (a : Arg V)
  | copy (i j : Nat)
  | move (i j : Nat)
  | destroy (i : Nat)
  | assignCopy (i j : Nat)
  | assignMove (i j : Nat)
  | assignValue (i : Nat) (a : Arg V)
  | assignUnexpected (i : Nat) (a : Arg V)
  | emplace (i : Nat) (a : Arg V)
  | swap (i j : Nat)
/-- the constructors, l.252-397, the assignments, l.404-478, `swap`, l.631-636, `emplace`, l.641-647, in terms of the variant -/
def EOp.toVariant (T : Tys V) : EOp V → Op V
  | .default i => .inPlace i 1 (.value (T.dflt (typeFrom T.types 1)))
  | .ofValue i a => .inPlace i 1 a
  | .ofUnexpected i a => .inPlace i 2 a
  | .unexpect i a => .ofValue i (typeFrom T.types 2) a
  | .copy i j => .copy i j
  | .move i j => .move i j
  | .destroy i => .destroy i
  | .assignCopy i j => .assignCopy i j
  | .assignMove i j => .assignMove i j
  | .assignValue i a => .emplaceI i 1 a
  | .assignUnexpected i a => .emplaceI i 2 a
  | .emplace i a => .emplaceT i (typeFrom T.types 1) a
  | .swap i j => .swap i j
/-- `has_value`, l.533-537 -/
def eHasValue (x : Var V) : Bool := decide (x.typeId = some 1)
/-- `value`, l.485-515 -/
def eValue (T : Tys V) (x : Var V) : Res (Got V) := get T x 1
/-- `error`, l.592-626 -/
def eError (T : Tys V) (x : Var V) : Res (Got V) := get T x 2
/-- `operator *`, `operator ->`, l.694-735 -/
def eDeref (T : Tys V) (x : Var V) : Res (Got V) := getT T x (typeFrom T.types 1)
/-- `value_or`, l.554-586 -/
def eValueOr (T : Tys V) (x : Var V) (dflt : V) : Res (Got V) := if eHasValue x then eValue T x else .ok (.value dflt)

end Etl.SumT
