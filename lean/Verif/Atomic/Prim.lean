import Verif.Atomic.Spec

/-!
# Model of `etl::atomic` of integral types, pointers and bool on the GCC, Clang and ARM builtins

Source: `/repo/include/etl/atomic/atomic_gcc_sync.h`: `__atomic` builtins l.105-390 (integral types), l.400-637 (pointers), l.642-797 (bool); `__sync` builtins l.1051-1455, l.1460-1765, l.1770-1985.

The variable is a word of `w` bits (signed types: two's complement, as the builtins compute).  A call is one builtin, which is one indivisible step, and what is done with its result, which touches only local variables; `compare_exchange_strong` of the `__sync` family is a loop.  Any number of threads, arbitrary interleavings; the default memory order `seq_cst` (weaker orders are not modelled).
-/
namespace Etl.Atomic.Prim
variable {w : Nat}

/-- Which builtins: l.76-1020 or l.1022-2190. -/
inductive Fam where
  | atomic | sync
  deriving DecidableEq
/-- The type: integral, pointer to objects of `size` bytes, bool. -/
inductive Kind (w : Nat) where
  | int
  | ptr (size : BitVec w)
  | bool

/-- The public functions.  `operator =` stands for itself; `conv` is the conversion operator. -/
inductive Op (w : Nat) where
  | load | conv
  | store (v : BitVec w) | assign (v : BitVec w)
  | exchange (v : BitVec w)
  | preInc | postInc | preDec | postDec
  | addAssign (v : BitVec w) | subAssign (v : BitVec w) | andAssign (v : BitVec w) | orAssign (v : BitVec w) | xorAssign (v : BitVec w)
  | fetchAdd (v : BitVec w) | fetchSub (v : BitVec w) | fetchAnd (v : BitVec w) | fetchOr (v : BitVec w) | fetchXor (v : BitVec w)
  | casWeak (expected desired : BitVec w)
  | casStrong (expected desired : BitVec w)
inductive Resp (w : Nat) where
  | unit
  | val (v : BitVec w)
  | cas (b : Bool) (expected : BitVec w)

/-! ## The builtins: the new value of the variable, and the result -/

def fetchAdd (m v : BitVec w) : BitVec w × BitVec w := (m + v, m)
def fetchSub (m v : BitVec w) : BitVec w × BitVec w := (m - v, m)
def fetchAnd (m v : BitVec w) : BitVec w × BitVec w := (m &&& v, m)
def fetchOr (m v : BitVec w) : BitVec w × BitVec w := (m ||| v, m)
def fetchXor (m v : BitVec w) : BitVec w × BitVec w := (m ^^^ v, m)
def addFetch (m v : BitVec w) : BitVec w × BitVec w := (m + v, m + v)
def subFetch (m v : BitVec w) : BitVec w × BitVec w := (m - v, m - v)
def swap (m v : BitVec w) : BitVec w × BitVec w := (v, m)
/-- `__atomic_compare_exchange_n`: the variable, the answer, `*expected`.  The weak one may fail without reason (`spur`). -/
def compareExchange (m e d : BitVec w) (weak spur : Bool) : BitVec w × Bool × BitVec w := if m = e ∧ ¬(weak ∧ spur) then (d, true, e) else (m, false, m)
/-- `__sync_val_compare_and_swap` -/
def valCas (m e d : BitVec w) : BitVec w × BitVec w := (if m = e then d else m, m)

/-- Where a thread is.  `cas e d old` is in the loop of `compare_exchange_strong`. -/
inductive Pc (w : Nat) where
  | idle
  | called (o : Op w)
  | cas (e d old : BitVec w)
  | done (o : Op w) (r : Resp w)

/-- `char(v)` and `static_cast<bool>`, for bool. -/
def norm (k : Kind w) (v : BitVec w) : BitVec w := match k with | .bool => if v = 0 then 0 else 1 | _ => v
/-- One, in units of the type: `sizeof(T)` for pointers, l.437-475, l.1497-1535. -/
def one : Kind w → BitVec w | .ptr size => size | _ => 1
/-- The argument of `+=`: `v * sizeof(T)` for pointers, l.475-497, l.1535-1555. -/
def scaled (k : Kind w) (v : BitVec w) : BitVec w := match k with | .ptr size => v * size | _ => v
/-- `compare_exchange_...` of the `__atomic` family: `expected` is passed for integral types, l.337-379; for pointers and bool a copy of it is, and the copy is forgotten, l.569-627, l.713-787. -/
def keeps : Kind w → Bool | .int => true | _ => false

/-- `compare_exchange_weak` of the `__sync` family, l.1317-1385, l.1640-1703, l.1870-1930: the variable, the answer, `expected`. -/
def weakSync (k : Kind w) (m e d : BitVec w) : BitVec w × Bool × BitVec w :=
  let (m', old) := valCas m (norm k e) (norm k d)
  let old := norm k old
  if old = e then (m', true, e) else (m', false, old)

/-- The step of a call that touches the variable: the new value, and where the thread is then. -/
def exec (f : Fam) (k : Kind w) (m : BitVec w) (spur : Bool) : Op w → BitVec w × Pc w
  | .load => (match f with
    | .atomic => (m, .done .load (.val (norm k m)))                                              -- l.262-270, l.529-537, l.701-709
    | .sync => let (m', r) := fetchAdd m 0; (m', .done .load (.val (norm k r))))                 -- l.1213-1223
  | .conv => let (m', r) := fetchAdd m 0; (m', .done .conv (.val (norm k r)))                    -- l.230-238, l.1181-1189
  | .store v => (match f with
    | .atomic => (norm k v, .done (.store v) .unit)                                              -- l.251-259
    | .sync => let (m', _) := swap m (norm k v); (m', .done (.store v) .unit))                   -- l.1202-1210
  | .assign v => (match f with
    | .atomic => (norm k v, .done (.assign v) (.val v))                                          -- l.124-136
    | .sync => let (m', _) := swap m (norm k v); (m', .done (.assign v) (.val v)))
  | .exchange v => let (m', r) := swap m (norm k v); (m', .done (.exchange v) (.val (norm k r)))  -- l.325-333, l.1297-1307
  | .preInc => let (m', r) := addFetch m (one k); (m', .done .preInc (.val r))                   -- l.139-147, l.437-445
  | .postInc => let (m', r) := fetchAdd m (one k); (m', .done .postInc (.val r))
  | .preDec => let (m', r) := subFetch m (one k); (m', .done .preDec (.val r))
  | .postDec => let (m', r) := fetchSub m (one k); (m', .done .postDec (.val r))
  | .addAssign v => let (m', r) := fetchAdd m (scaled k v); (m', .done (.addAssign v) (.val r))  -- l.183-191, l.475-483, l.1134-1142
  | .subAssign v => let (m', r) := fetchSub m (scaled k v); (m', .done (.subAssign v) (.val r))
  | .andAssign v => let (m', r) := fetchAnd m v; (m', .done (.andAssign v) (.val r))
  | .orAssign v => let (m', r) := fetchOr m v; (m', .done (.orAssign v) (.val r))
  | .xorAssign v => let (m', r) := fetchXor m v; (m', .done (.xorAssign v) (.val r))
  | .fetchAdd v => let (m', r) := fetchAdd m v; (m', .done (.fetchAdd v) (.val r))               -- l.273-281, l.540-548, l.1226-1236, l.1601-1609: not scaled
  | .fetchSub v => let (m', r) := fetchSub m v; (m', .done (.fetchSub v) (.val r))
  | .fetchAnd v => let (m', r) := fetchAnd m v; (m', .done (.fetchAnd v) (.val r))
  | .fetchOr v => let (m', r) := fetchOr m v; (m', .done (.fetchOr v) (.val r))
  | .fetchXor v => let (m', r) := fetchXor m v; (m', .done (.fetchXor v) (.val r))
  | .casWeak e d => (match f with
    | .atomic => let (m', b, e') := compareExchange m (norm k e) (norm k d) true spur; (m', .done (.casWeak e d) (.cas b (if keeps k then e' else e)))
    | .sync => let (m', b, e') := weakSync k m e d; (m', .done (.casWeak e d) (.cas b e')))
  | .casStrong e d => (match f with
    | .atomic => let (m', b, e') := compareExchange m (norm k e) (norm k d) false spur; (m', .done (.casStrong e d) (.cas b (if keeps k then e' else e)))
    | .sync => (m, .cas e d e))                                                                  -- `T old = expected`, l.1391

/-- One turn of `while (!compare_exchange_weak(old, desired)) if (memcmp(&old, &expected, sizeof(T))) { expected = old; return false; }`, l.1388-1449, l.1706-1759, l.1936-1979. -/
def loop (k : Kind w) (m e d old : BitVec w) : BitVec w × Pc w :=
  let (m', b, old') := weakSync k m old d
  if b then (m', .done (.casStrong e d) (.cas true e))
  else if old' ≠ e then (m', .done (.casStrong e d) (.cas false old'))
  else (m', .cas e d old')

structure St (w : Nat) where
  value : BitVec w
  pc : Nat → Pc w
  trace : List (Ev (Op w) (Resp w))
/-- The constructors, l.113-121, l.405-413, l.647-655, l.1061-1069. -/
def init (k : Kind w) (v : BitVec w) : St w := ⟨norm k v, fun _ => .idle, []⟩

/-- A thread goes on, and the call takes effect if it has a result now. -/
def goto (s : St w) (t : Nat) (x : BitVec w × Pc w) : St w :=
  match x.2 with
  | .done o r => { value := x.1, pc := upd s.pc t x.2, trace := s.trace ++ [.lin t o r] }
  | _ => { value := x.1, pc := upd s.pc t x.2, trace := s.trace }

inductive Act (w : Nat) where
  | call (t : Nat) (o : Op w)
  | step (t : Nat) (spur : Bool)
def step (f : Fam) (k : Kind w) (s : St w) : Act w → St w
  | .call t o => (match s.pc t with
    | .idle => { s with pc := upd s.pc t (.called o), trace := s.trace ++ [.inv t o] }
    | _ => s)
  | .step t spur => (match s.pc t with
    | .idle => s
    | .called o => goto s t (exec f k s.value spur o)
    | .cas e d old => goto s t (loop k s.value e d old)
    | .done o r => { s with pc := upd s.pc t .idle, trace := s.trace ++ [.ret t o r] })
def run (f : Fam) (k : Kind w) (s : St w) (l : List (Act w)) : St w := l.foldl (step f k) s

end Etl.Atomic.Prim
