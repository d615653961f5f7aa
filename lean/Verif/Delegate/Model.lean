import Verif.Common.Res

/-!
# Model of delegates and of the delegate and callback services

Sources: `/repo/include/etl/private/delegate_cpp11.h` (`delegate`), `/repo/include/etl/delegate_service.h`, `/repo/include/etl/callback_service.h`.

What the user's functions do is arbitrary: `exec c a w` is the call of `c` with the arguments `a` in the world `w`; it may fail (for example because the object is dead).  Objects are numbers, `0` is the null pointer.
A failed `ETL_ASSERT` is the outcome `none`.  Distinct stubs have distinct addresses (a linker that folds identical functions can break this).
-/
namespace Etl.Delegate

/-- the code that can be called: a free function, a method (const or not) of an object, the call operator (const or not) of an object of a class -/
inductive Callee where
  | func (f : Nat) | method (m obj : Nat) | constMethod (m obj : Nat) | op (cls obj : Nat) | constOp (cls obj : Nat)
  deriving DecidableEq
/-- the stubs, l.577-655; a template has one for each argument -/
inductive Stub where
  | method (m : Nat) | constMethod (m : Nat) | methodInstance (m obj : Nat) | constMethodInstance (m obj : Nat) | opInstance (cls obj : Nat) | func (f : Nat) | lambda (cls : Nat) | constLambda (cls : Nat)
  deriving DecidableEq
/-- `invocation_element`, l.516-550 -/
structure Delegate where
  object : Nat
  stub : Option Stub
  deriving DecidableEq

/-- the object behind the pointer, which the stubs dereference -/
def deref (obj : Nat) (c : Nat → Callee) : Res Callee := if obj = 0 then .error .nullDeref else .ok (c obj)
/-- what a stub calls, given the object pointer, l.581-655 -/
def Stub.target : Stub → Nat → Res Callee
  | .method m, o => deref o (.method m)
  | .constMethod m, o => deref o (.constMethod m)
  | .methodInstance m i, _ => .ok (.method m i)
  | .constMethodInstance m i, _ => .ok (.constMethod m i)
  | .opInstance c i, _ => .ok (.op c i)
  | .func f, _ => .ok (.func f)
  | .lambda c, o => deref o (.op c)
  | .constLambda c, o => deref o (.constOp c)

/-- the ways to make a delegate -/
inductive Source where
  | func (f : Nat) | lambda (cls obj : Nat) | constLambda (cls obj : Nat) | method (m obj : Nat) | constMethod (m obj : Nat)
  | methodInstance (m obj : Nat) | constMethodInstance (m obj : Nat) | opInstance (cls obj : Nat)
  deriving DecidableEq
/-- `create`, the constructors and `make_delegate`, l.138-277, l.660-747; `set` and `operator =`, l.281-358, l.460-474 -/
def Source.make : Source → Delegate
  | .func f => ⟨0, some (.func f)⟩
  | .lambda c o => ⟨o, some (.lambda c)⟩
  | .constLambda c o => ⟨o, some (.constLambda c)⟩
  | .method m o => ⟨o, some (.method m)⟩
  | .constMethod m o => ⟨o, some (.constMethod m)⟩
  | .methodInstance m o => ⟨0, some (.methodInstance m o)⟩
  | .constMethodInstance m o => ⟨0, some (.constMethodInstance m o)⟩
  | .opInstance c o => ⟨0, some (.opInstance c o)⟩

/-- the default constructor, l.125-127; `clear`, l.363-366, l.542-546 -/
def empty : Delegate := ⟨0, none⟩
/-- `is_valid`, `operator bool`, l.497-509 -/
def isValid (d : Delegate) : Bool := d.stub.isSome
/-- `operator ==`, l.480-483, l.530-533 -/
def equal (d e : Delegate) : Bool := decide (e.stub = d.stub) && decide (e.object = d.object)
/-- `operator !=`, l.488-491, l.536-539 -/
def notEqual (d e : Delegate) : Bool := decide (e.stub ≠ d.stub) || decide (e.object ≠ d.object)

section
variable {A R W : Type} (exec : Callee → A → W → Res (R × W))

/-- `(*invocation.stub)(invocation.object, args...)` -/
def invoke (s : Stub) (o : Nat) (a : A) (w : W) : Res (R × W) := match s.target o with
  | .error u => .error u
  | .ok c => exec c a w
/-- `operator()`, l.371-376; `none`: the assertion fails -/
def call (d : Delegate) (a : A) (w : W) : Res (Option (R × W)) := match d.stub with
  | none => .ok none
  | some s => match invoke exec s d.object a w with
    | .error u => .error u
    | .ok r => .ok (some r)
/-- `call_if`, l.382-416; the result `none` is `false` or the empty optional -/
def callIf (d : Delegate) (a : A) (w : W) : Res (Option R × W) := match d.stub with
  | none => .ok (none, w)
  | some s => match invoke exec s d.object a w with
    | .error u => .error u
    | .ok (r, w) => .ok (some r, w)
/-- `call_or`, both forms, l.421-449 -/
def callOr (d : Delegate) (alt : Callee) (a : A) (w : W) : Res (R × W) := match d.stub with
  | none => exec alt a w
  | some s => invoke exec s d.object a w
end

/-- the calls of a user who has delegate variables; `env` is anything else the program does -/
inductive Op (A W : Type) where
  | set (v : Nat) (s : Source) | clear (v : Nat) | copy (v u : Nat) | valid (v : Nat) | eq (v u : Nat) | ne (v u : Nat)
  | call (v : Nat) (a : A) | callIf (v : Nat) (a : A) | callOr (v : Nat) (alt : Callee) (a : A) | env (f : W → W)
/-- what they answer; `failed` is the assertion -/
inductive Out (R : Type) where
  | unit | bool (b : Bool) | ret (r : R) | opt (r : Option R) | failed
/-- the program state -/
structure St (W : Type) where
  var : Nat → Delegate
  world : W
/-- one call -/
def step {A R W : Type} (exec : Callee → A → W → Res (R × W)) (s : St W) : Op A W → Res (St W × Out R)
  | .set v src => .ok ({ s with var := upd s.var v src.make }, .unit)
  | .clear v => .ok ({ s with var := upd s.var v empty }, .unit)
  | .copy v u => .ok ({ s with var := upd s.var v (s.var u) }, .unit)
  | .valid v => .ok (s, .bool (isValid (s.var v)))
  | .eq v u => .ok (s, .bool (equal (s.var v) (s.var u)))
  | .ne v u => .ok (s, .bool (notEqual (s.var v) (s.var u)))
  | .call v a => match Delegate.call exec (s.var v) a s.world with
    | .error u => .error u
    | .ok none => .ok (s, .failed)
    | .ok (some (r, w)) => .ok ({ s with world := w }, .ret r)
  | .callIf v a => match Delegate.callIf exec (s.var v) a s.world with
    | .error u => .error u
    | .ok (r, w) => .ok ({ s with world := w }, .opt r)
  | .callOr v alt a => match Delegate.callOr exec (s.var v) alt a s.world with
    | .error u => .error u
    | .ok (r, w) => .ok ({ s with world := w }, .ret r)
  | .env f => .ok ({ s with world := f s.world }, .unit)
def run {A R W : Type} (exec : Callee → A → W → Res (R × W)) (s : St W) : List (Op A W) → Res (St W × List (Out R))
  | [] => .ok (s, [])
  | op :: ops => match step exec s op with
    | .error u => .error u
    | .ok (s, o) => match run exec s ops with
      | .error u => .error u
      | .ok (s, os) => .ok (s, o :: os)
/-- all variables default constructed -/
def init {W : Type} (w : W) : St W := ⟨fun _ => empty, w⟩

/-! ## The services -/

/-- what a place of the lookup table holds: the internal `unhandled` method of a service (of which one: its object pointer), or what the user registered.
In `callback_service` the same are pointers to function objects; a registered one is never null. -/
inductive Entry where
  | internal (svc : Nat) | user (d : Delegate)
/-- `delegate_service`, l.97-211; `callback_service`, l.50-156 -/
structure Service where
  unhandled : Delegate
  lookup : Nat → Entry
/-- the template parameters; `size_t` has `bits` bits -/
structure Cfg where
  range : Nat
  offset : Nat
  bits : Nat
/-- `(id >= Offset) && (id < (Offset + Range))`, delegate_service.h l.79, l.145, l.180; callback_service.h l.87, l.122: the sum is a `size_t` -/
def Cfg.inRange (c : Cfg) (id : Nat) : Bool := decide (id ≥ c.offset) && decide (id < (c.offset + c.range) % 2 ^ c.bits)
/-- the service objects of the program -/
abbrev Services := Nat → Option Service

/-- a call that reaches user code: what is called, with the id -/
abbrev Called := List (Callee × Nat)
/-- `delegate(id)`: the call of user code, or a failed assertion -/
def fire (d : Delegate) (id : Nat) : Res (Option Called) := match d.stub with
  | none => .ok none
  | some s => match s.target d.object with
    | .error u => .error u
    | .ok c => .ok (some [(c, id)])
/-- `unhandled`, delegate_service.h l.198-204; callback_service.h l.138-144: of the service at `svc` -/
def unhandled (ss : Services) (svc id : Nat) : Res (Option Called) := match ss svc with
  | none => .error .deadAccess
  | some s => if isValid s.unhandled then fire s.unhandled id else .ok (some [])
/-- the constructors, delegate_service.h l.115-120; callback_service.h l.57-62 -/
def make (svc : Nat) : Service := ⟨empty, fun _ => .internal svc⟩

/-- the calls of the users of services; the forms with a template parameter need an id in range (static assertion) and do the same -/
inductive SOp where
  | create (svc : Nat) | destroy (svc : Nat) | copyFrom (svc other : Nat) | register (svc id : Nat) (d : Delegate) | registerUnhandled (svc : Nat) (d : Delegate) | call (svc id : Nat)
/-- delegate_service.h l.143-149 (`register_delegate`), l.155-158 (`register_unhandled_delegate`), l.178-190 (`call`), callback_service.h l.85-91, l.97-100, l.120-130; the copy constructor is the implicit one.
The answer of a call is the user code it calls, `none` if an empty delegate is called. -/
def sstep (c : Cfg) (ss : Services) : SOp → Res (Services × Option Called)
  | .create svc => .ok (upd ss svc (some (make svc)), some [])
  | .destroy svc => .ok (upd ss svc none, some [])
  | .copyFrom svc o => match ss o with
    | none => .error .deadAccess
    | some s => .ok (upd ss svc (some s), some [])
  | .register svc id d => match ss svc with
    | none => .error .deadAccess
    | some s => if c.inRange id then .ok (upd ss svc (some { s with lookup := upd s.lookup (id - c.offset) (.user d) }), some []) else .ok (ss, some [])
  | .registerUnhandled svc d => match ss svc with
    | none => .error .deadAccess
    | some s => .ok (upd ss svc (some { s with unhandled := d }), some [])
  | .call svc id => match ss svc with
    | none => .error .deadAccess
    | some s => match (if c.inRange id then s.lookup (id - c.offset) else .internal svc) with
      | .internal o => match unhandled ss o id with
        | .error u => .error u
        | .ok r => .ok (ss, r)
      | .user d => match fire d id with
        | .error u => .error u
        | .ok r => .ok (ss, r)
def srun (c : Cfg) (ss : Services) : List SOp → Res (Services × List (Option Called))
  | [] => .ok (ss, [])
  | op :: ops => match sstep c ss op with
    | .error u => .error u
    | .ok (ss, o) => match srun c ss ops with
      | .error u => .error u
      | .ok (ss, os) => .ok (ss, o :: os)

/-- the service over a constant table of `Range + 1` delegates, delegate_service.h l.49-91: the last is for the other ids -/
def tableCall (c : Cfg) (table : List Delegate) (id : Nat) : Res (Option Called) :=
  match (if c.inRange id then table[id - c.offset]? else table[c.range]?) with
  | none => .error .outOfBounds
  | some d => fire d id

end Etl.Delegate
