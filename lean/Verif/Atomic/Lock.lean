import Verif.Atomic.Spec

/-!
# Model of `etl::atomic<T>` for class types, and of `etl::mutex`, on the GCC, Clang and ARM builtins

Sources: `/repo/include/etl/atomic/atomic_gcc_sync.h` l.78-79, l.802-1013 (`__atomic` builtins), l.1024-1025, l.1990-2186 (`__sync` builtins), which differ only in the names of the builtins; `/repo/include/etl/mutex/mutex_gcc_sync.h` l.42-75.

A value of `T` is `n` units (bytes, or whatever the machine copies at once), and a copy or a comparison takes one step for each.  Any number of threads call the functions, and their steps interleave arbitrarily.  The builtins are sequentially consistent, as their documentation says of what the code passes (`seq_cst`) or for `__sync`: full barriers.
The flag has no owner: that only one thread is between lock and unlock is proved, not assumed.
An assignment of a `T` copies all units, padding included.
-/
namespace Etl.Atomic.Lock
variable {n : Nat} {W : Type}

/-- A value of `T`. -/
abbrev Val (n : Nat) (W : Type) := Fin n → W

/-- The public functions; `operator =` is `store`, the conversion is `load`, `compare_exchange_strong` is the same function as `compare_exchange_weak`, l.985-1011. -/
inductive Op (n : Nat) (W : Type) where
  | load
  | store (v : Val n W)
  | exchange (v : Val n W)
  | cas (expected desired : Val n W)
/-- Their results.  `cas b e`: the answer, and what `expected`, a reference, is afterwards. -/
inductive Resp (n : Nat) (W : Type) where
  | unit
  | val (v : Val n W)
  | cas (b : Bool) (expected : Val n W)

/-- Where a thread is.  The numbers count the units that are done. -/
inductive Pc (n : Nat) (W : Type) where
  | idle
  | spin (o : Op n W)
  | read (o : Op n W) (result : Val n W) (i : Nat)
  | compare (o : Op n W) (i : Nat)
  | write (o : Op n W) (r : Resp n W) (i : Nat)
  | unlock (o : Op n W) (r : Resp n W)
  | done (o : Op n W) (r : Resp n W)

structure St (n : Nat) (W : Type) where
  flag : Bool
  value : Val n W
  pc : Nat → Pc n W
  trace : List (Ev (Op n W) (Resp n W))

/-- `atomic(T v)`, l.818-822, l.2004-2008; with `v = T()` l.812-816, l.1998-2002. -/
def init (v : Val n W) : St n W := ⟨false, v, fun _ => .idle, []⟩

/-- What is assigned to `value`. -/
def Op.arg : Op n W → Val n W → Val n W
  | .load, x => x
  | .store v, _ => v
  | .exchange v, _ => v
  | .cas _ d, _ => d

/-- `value[i] = x` -/
def put (value : Val n W) (i : Fin n) (x : W) : Val n W := fun j => if j = i then x else value j

/-- What comes first behind the lock: `T result = value`, l.842, l.887, l.910; `memcmp`, l.933; `value = v`, l.869.  (`T result` is not initialised before; the model takes the value of `default`.) -/
def start [Inhabited W] : Op n W → Pc n W
  | .load => .read .load (fun _ => default) 0
  | .store v => .write (.store v) .unit 0
  | .exchange v => .read (.exchange v) (fun _ => default) 0
  | .cas e d => .compare (.cas e d) 0

/-- One step of a thread that is in a call, l.838-1011 and l.2024-2186: `ETL_BUILTIN_LOCK` tries once, l.78, l.1024. -/
def stepT [Inhabited W] [DecidableEq W] (s : St n W) (t : Nat) : St n W :=
  match s.pc t with
  | .idle => s
  | .spin o => if s.flag then s else { s with flag := true, pc := upd s.pc t (start o) }
  | .read o r i => if h : i < n then { s with pc := upd s.pc t (.read o (put r ⟨i, h⟩ (s.value ⟨i, h⟩)) (i + 1)) }
      else (match o with
        | .exchange _ => { s with pc := upd s.pc t (.write o (.val r) 0) }
        | _ => { s with pc := upd s.pc t (.unlock o (.val r)) })
  | .compare o i => (match o with
      | .cas e _ => if h : i < n then
          if s.value ⟨i, h⟩ = e ⟨i, h⟩ then { s with pc := upd s.pc t (.compare o (i + 1)) }
          else { s with pc := upd s.pc t (.unlock o (.cas false e)) }
        else { s with pc := upd s.pc t (.write o (.cas true e) 0) }
      | _ => s)
  | .write o r i => if h : i < n then { s with value := put s.value ⟨i, h⟩ (o.arg s.value ⟨i, h⟩), pc := upd s.pc t (.write o r (i + 1)) }
      else { s with pc := upd s.pc t (.unlock o r) }
  | .unlock o r => { s with flag := false, pc := upd s.pc t (.done o r), trace := s.trace ++ [.lin t o r] }
  | .done o r => { s with pc := upd s.pc t .idle, trace := s.trace ++ [.ret t o r] }

/-- What can happen next. -/
inductive Act (n : Nat) (W : Type) where
  | call (t : Nat) (o : Op n W)
  | step (t : Nat)
def step [Inhabited W] [DecidableEq W] (s : St n W) : Act n W → St n W
  | .call t o => (match s.pc t with
    | .idle => { s with pc := upd s.pc t (.spin o), trace := s.trace ++ [.inv t o] }
    | _ => s)
  | .step t => stepT s t
def run [Inhabited W] [DecidableEq W] (s : St n W) (l : List (Act n W)) : St n W := l.foldl step s

/-! ## etl::mutex, mutex_gcc_sync.h -/

/-- A thread that uses a mutex: outside; in the loop of `lock`; inside. -/
inductive MPc where
  | out | lock | inside
  deriving DecidableEq
structure MSt where
  flag : Bool
  pc : Nat → MPc
/-- The constructor, l.46-50. -/
def minit : MSt := ⟨false, fun _ => .out⟩
/-- What a thread can do: call `lock`; one turn of its loop; `try_lock`; `unlock`, which only a thread calls that is inside. -/
inductive MAct where
  | lock (t : Nat) | spin (t : Nat) | tryLock (t : Nat) | unlock (t : Nat)
/-- `lock`, l.52-57; `try_lock`, l.59-62; `unlock`, l.64-67. -/
def mstep (s : MSt) : MAct → MSt
  | .lock t => if s.pc t = .out then { s with pc := upd s.pc t .lock } else s
  | .spin t => if s.pc t = .lock then (if s.flag then s else ⟨true, upd s.pc t .inside⟩) else s
  | .tryLock t => if s.pc t = .out then (if s.flag then s else ⟨true, upd s.pc t .inside⟩) else s
  | .unlock t => if s.pc t = .inside then ⟨false, upd s.pc t .out⟩ else s
def mrun (s : MSt) (l : List MAct) : MSt := l.foldl mstep s

end Etl.Atomic.Lock
