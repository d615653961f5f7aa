import Verif.Pool.Model

/-!
# Model of `create` and `destroy` of `generic_pool` and `variant_pool`

Sources: `/repo/include/etl/variant_pool.h` l.63-190 (C++11), `/repo/include/etl/generic_pool.h` l.50-175 and l.190-320 (`_ext`), `/repo/include/etl/ipool.h` l.113-240, `/repo/include/etl/largest.h` l.66-115, l.160-205 (`largest_type`, `largest_alignment`), `/repo/include/etl/alignment.h` l.201-217 (`type_with_alignment`).

On top of the model of `ipool` (`Verif.Pool.Model`), where the memory of the items and the free list that goes through it are explicit.  The value of an object is the word at the beginning of its item, the same one that the free list uses: if the pool wrote into a live object, its value would change.
`obj` says what lives where; it is not in the program.  Constructing on a live object, and destroying or using what does not live, are errors.
-/
namespace Etl.VPool

/-- What is needed of a type. -/
structure Ty where
  size : Nat
  align : Nat
  deriving DecidableEq

/-- `largest_type<T1, TRest...>::type`, largest.h l.66-110. -/
def largestType : Ty → List Ty → Ty
  | t, [] => t
  | t, u :: r => let other := largestType u r; if t.size > other.size then t else other
/-- `largest_alignment<T1, TRest...>::type`, largest.h l.163-202. -/
def largestAlignment : Ty → List Ty → Ty
  | t, [] => t
  | t, u :: r => let other := largestAlignment u r; if t.align > other.align then t else other

/-- The parameters: the types, a pointer, the number of items, where the buffer is, the build. -/
structure Cfg where
  first : Ty
  rest : List Ty
  ptr : Ty
  max : Nat
  base : Nat
  debug : Bool

def Cfg.types (c : Cfg) : List Ty := c.first :: c.rest
/-- The template arguments of `generic_pool`, variant_pool.h l.70-73. -/
def Cfg.typeSize (c : Cfg) : Nat := (largestType c.first c.rest).size
def Cfg.alignment (c : Cfg) : Nat := (largestAlignment c.first c.rest).align

def roundUp (n a : Nat) : Nat := (n + a - 1) / a * a
/-- `union Element { char* next; char value[VTypeSize]; type_with_alignment<VAlignment>::type dummy; }`, generic_pool.h l.180-185: its alignment and size, as the compiler lays out a union; `dummy` is as large as its alignment. -/
def Cfg.elementAlign (c : Cfg) : Nat := Nat.max c.ptr.align c.alignment
def Cfg.elementSize (c : Cfg) : Nat := roundUp (Nat.max c.ptr.size (Nat.max c.typeSize c.alignment)) c.elementAlign

structure St where
  pool : Pool.St
  obj : Nat → Option Nat
  built : Nat
  destroyed : Nat

/-- The constructor, generic_pool.h l.62-65. -/
def init (c : Cfg) (mem : Nat → Option Nat) : St := ⟨Pool.init c.base c.elementSize c.max c.debug mem, fun _ => none, 0, 0⟩

inductive Op where
  | create (i : Nat) (v : Option Nat) (throws : Bool)   -- the type number `i`; `v` is what the constructor puts there, unless it throws
  | write (p : Nat) (v : Option Nat)                    -- a user changes an object
  | destroy (p : Nat) (off : Nat)                       -- `destroy<U>(p)`: `p` points to the `U` in the object, which is `off` bytes behind its beginning (0 unless `U` is a base class); the destructor is virtual if `U` is a base class
inductive Out where
  | addr (a : Option Nat)
  | done
  | throw (e : Pool.Err)
  | threw                                               -- the exception of a constructor

/-- `create<T>(args...)`, variant_pool.h l.92-98, generic_pool.h l.122-128, ipool.h l.195-206; the static assertion `is_one_of` is the error for an unknown type. -/
def create (c : Cfg) (s : St) (i : Nat) (v : Option Nat) (throws : Bool) : Res (St × Out) :=
  match c.types[i]? with
  | none => .error .outOfBounds
  | some t => do
    let (p, out) ← Pool.step s.pool (.alloc t.size)
    match out with
    | .addr (some a) =>
      if throws then .ok ({ s with pool := p }, .threw)
      else if a % t.align ≠ 0 then .error .outOfBounds
      else if s.obj a ≠ none then .error .constructLive
      else do
        let (p, _) ← Pool.step p (.scribble a v)
        .ok ({ s with pool := p, obj := upd s.obj a (some i), built := s.built + 1 }, .addr (some a))
    | .addr none => .ok ({ s with pool := p }, .addr none)
    | .throw e => .ok ({ s with pool := p }, .throw e)
    | .done => .ok ({ s with pool := p }, .done)

/-- `destroy`, variant_pool.h l.103-109, generic_pool.h l.164-171: the destructor, then `release`. -/
def destroy (s : St) (p off : Nat) : Res (St × Out) :=
  match s.obj (p - off) with
  | none => .error .deadAccess
  | some _ => do
    let (q, out) ← Pool.step s.pool (.release p)
    .ok ({ s with pool := q, obj := upd s.obj (p - off) none, destroyed := s.destroyed + 1 }, match out with | .throw e => .throw e | _ => .done)

def step (c : Cfg) (s : St) : Op → Res (St × Out)
  | .create i v throws => create c s i v throws
  | .write p v => (match s.obj p with
    | none => .error .deadAccess
    | some _ => do
      let (q, _) ← Pool.step s.pool (.scribble p v)
      .ok ({ s with pool := q }, .done))
  | .destroy p off => destroy s p off

end Etl.VPool
