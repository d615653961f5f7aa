import Verif.Common.Res

/-!
# Model of the queues that are protected by a lock

Sources: `/repo/include/etl/queue_mpmc_mutex.h` (etl::mutex, any number of threads), `/repo/include/etl/queue_spsc_locked.h` (lock and unlock callbacks, and `..._from_unlocked` for a context that the lock keeps out),
`/repo/include/etl/queue_spsc_isr.h` (`TAccess::lock` disables the interrupt, `..._from_isr` for the interrupt), `/repo/include/etl/queue_lockable.h` (the derived class gives `lock` and `unlock`; `..._unlocked` for a context that the lock keeps out).
The four files have the same implementation functions, line for line; the model has them once.  (`push_unlocked(rvalue)` of queue_lockable.h l.291-294 copies its argument instead of moving it: the element is the same.)

Any number of threads call the locked functions, and an interrupt (or another context that the lock keeps out) calls the functions without lock.  Each access to a shared variable, the lock and the unlock are one micro-step; the steps of all threads and of the interrupt interleave arbitrarily.
The lock is the usual one: a thread gets it only if nobody has it, and what was done before an unlock is visible after the next lock.  The interrupt starts only if the lock is free, and the threads do not run until it returns (single core, or equivalent).
An access of a thread to a shared variable without the lock is reported as a data race, as is one of the interrupt while a thread has the lock.

`push` stands for all overloads of `push` and `emplace`, `pop` for `pop(reference)`, `drop` for `pop()`.  A moved-from element is destroyed at once, so what is in it is not observable.  `throws` says that the constructor of the element throws.
-/
namespace Etl.Locked
variable {α : Type}

/-- the public functions -/
inductive Op (α : Type) where
  | push (v : α) (throws : Bool)
  | pop | drop | clear | empty | full | size | available | front
/-- their results; `ref i` is a reference to the slot `i` -/
inductive Resp (α : Type) where
  | bool (b : Bool)
  | popped (v : Option α)
  | num (n : Nat)
  | ref (i : Nat)
  | unit
/-- where a thread is in a call -/
inductive Pc (α : Type) where
  | idle
  | want (o : Op α)                            -- before the lock
  | check (o : Op α)
  | construct (v : α) (throws : Bool)
  | advW (v : α)
  | incSize (v : α)
  | take
  | destroy (o : Op α) (v : Option α)
  | advR (o : Op α) (v : Option α)
  | decSize (o : Op α) (v : Option α)
  | leave (o : Op α) (r : Resp α)               -- before the unlock
  | done (o : Op α) (r : Resp α)
  | threw
/-- `none` is the interrupt -/
abbrev Ctx := Option Nat
/-- what happens: a call, a return, and the ghost `lin`: the moment at which the call takes effect -/
inductive Ev (α : Type) where
  | inv (c : Ctx) (o : Op α)
  | lin (c : Ctx) (o : Op α) (r : Resp α)
  | ret (c : Ctx) (o : Op α) (r : Resp α)
  | threw (c : Ctx)

/-- the shared variables (queue_mpmc_mutex.h l.104-107, l.664; the others the same) -/
structure Q (α : Type) where
  cap : Nat
  wi : Nat
  ri : Nat
  sz : Nat
  slot : Nat → Option α
structure St (α : Type) where
  q : Q α
  lock : Option Nat
  isr : Bool
  pc : Nat → Pc α
  ipc : Pc α
  trace : List (Ev α)

/-- constructors, queue_mpmc_mutex.h l.78-85; queue_spsc_locked.h l.106-112; queue_spsc_isr.h l.190-197; queue_lockable.h l.173-179, l.567-571, l.825-828 -/
def init (cap : Nat) : St α where
  q := ⟨cap, 0, 0, 0, fun _ => none⟩
  lock := none
  isr := false
  pc := fun _ => .idle
  ipc := .idle
  trace := []

/-- `get_next_index`, queue_mpmc_mutex.h l.88-98; queue_spsc_locked.h l.117-127; queue_spsc_isr.h l.441-451; queue_lockable.h l.184-194 -/
def next (i cap : Nat) : Nat := if i + 1 = cap then 0 else i + 1

/-- one access of an implementation function: `push_implementation`, `emplace_implementation`, `pop_implementation`, `front_implementation`, the loop of `clear`, and the expressions of `empty`, `full`, `size`, `available`
(queue_mpmc_mutex.h l.343-410, l.425-650; queue_spsc_locked.h l.139-166, l.500-520, l.595-825; queue_spsc_isr.h l.126-170, l.202-435; queue_lockable.h l.212-240, l.539-560, l.578-784) -/
def body (q : Q α) : Pc α → Res (Q α × Pc α)
  | .check (.push v th) => if q.sz ≠ q.cap then .ok (q, .construct v th) else .ok (q, .leave (.push v th) (.bool false))
  | .construct v th =>
    if q.wi < q.cap then
      if th then .ok (q, .threw)
      else match q.slot q.wi with
        | none => .ok ({ q with slot := upd q.slot q.wi (some v) }, .advW v)
        | some _ => .error .constructLive
    else .error .outOfBounds
  | .advW v => .ok ({ q with wi := next q.wi q.cap }, .incSize v)
  | .incSize v => .ok ({ q with sz := q.sz + 1 }, .leave (.push v false) (.bool true))
  | .check .pop => if q.sz = 0 then .ok (q, .leave .pop (.popped none)) else .ok (q, .take)
  | .take => if q.ri < q.cap then (match q.slot q.ri with
      | some v => .ok (q, .destroy .pop (some v))
      | none => .error .deadAccess)
    else .error .outOfBounds
  | .check .drop => if q.sz = 0 then .ok (q, .leave .drop (.bool false)) else .ok (q, .destroy .drop none)
  | .check .clear => if q.sz = 0 then .ok (q, .leave .clear .unit) else .ok (q, .destroy .clear none)
  | .destroy o v => if q.ri < q.cap then (match q.slot q.ri with
      | some _ => .ok ({ q with slot := upd q.slot q.ri none }, .advR o v)
      | none => .error .deadAccess)
    else .error .outOfBounds
  | .advR o v => .ok ({ q with ri := next q.ri q.cap }, .decSize o v)
  | .decSize o v => .ok ({ q with sz := q.sz - 1 }, match o with
      | .pop => .leave .pop (.popped v)
      | .clear => .check .clear
      | _ => .leave .drop (.bool true))
  | .check .empty => .ok (q, .leave .empty (.bool (decide (q.sz = 0))))
  | .check .full => .ok (q, .leave .full (.bool (decide (q.sz = q.cap))))
  | .check .size => .ok (q, .leave .size (.num q.sz))
  | .check .available => .ok (q, .leave .available (.num (q.cap - q.sz)))
  | .check .front => .ok (q, .leave .front (.ref q.ri))
  | pc => .ok (q, pc)

/-- a thread inside of a locked function: `lock`, the implementation, `unlock`, return (queue_mpmc_mutex.h l.158-410; queue_spsc_locked.h l.219-575; queue_spsc_isr.h l.508-757; queue_lockable.h l.75-153, l.276-308, l.325-334, l.375-444, l.459-490, l.511-560).  An exception leaves the function without `unlock`. -/
def stepT (s : St α) (t : Nat) : Res (St α) :=
  if s.isr then .ok s
  else match s.pc t with
    | .idle => .ok s
    | .want o => if s.lock = none then .ok { s with lock := some t, pc := upd s.pc t (.check o) } else .ok s
    | .leave o r => .ok { s with lock := none, pc := upd s.pc t (.done o r), trace := s.trace ++ [.lin (some t) o r] }
    | .done o r => .ok { s with pc := upd s.pc t .idle, trace := s.trace ++ [.ret (some t) o r] }
    | .threw => .ok { s with pc := upd s.pc t .idle, trace := s.trace ++ [.threw (some t)] }
    | pc => if s.lock = some t then (match body s.q pc with
        | .ok (q, pc) => .ok { s with q := q, pc := upd s.pc t pc }
        | .error e => .error e)
      else .error .dataRace
/-- the interrupt: the implementation without lock (queue_spsc_isr.h l.65-170; queue_spsc_locked.h l.59-86, l.211-292, l.407-505; queue_lockable.h l.67-141 and l.268-545, the `..._unlocked` functions) -/
def stepI (s : St α) : Res (St α) :=
  if s.isr then (match s.ipc with
    | .leave o r => .ok { s with ipc := .done o r, trace := s.trace ++ [.lin none o r] }
    | .done o r => .ok { s with isr := false, ipc := .idle, trace := s.trace ++ [.ret none o r] }
    | .threw => .ok { s with isr := false, ipc := .idle, trace := s.trace ++ [.threw none] }
    | pc => if s.lock = none then (match body s.q pc with
        | .ok (q, pc) => .ok { s with q := q, ipc := pc }
        | .error e => .error e)
      else .error .dataRace)
  else .ok s

/-- what can happen next.  `look` is a user that reads the slot behind a reference that `front` has returned. -/
inductive Act (α : Type) where
  | call (t : Nat) (o : Op α)
  | step (t : Nat)
  | irq (o : Op α)
  | istep
  | look (i : Nat)
def step (s : St α) : Act α → Res (St α)
  | .call t o => if s.isr then .ok s else match s.pc t with
    | .idle => .ok { s with pc := upd s.pc t (.want o), trace := s.trace ++ [.inv (some t) o] }
    | _ => .ok s
  | .step t => stepT s t
  | .irq o => if s.isr = false ∧ s.lock = none then .ok { s with isr := true, ipc := .check o, trace := s.trace ++ [.inv none o] } else .ok s
  | .istep => stepI s
  | .look i => if s.lock = none ∧ s.isr = false then (match s.q.slot i with
      | some _ => .ok s
      | none => .error .deadAccess)
    else .error .dataRace
def run (s : St α) : List (Act α) → Res (St α)
  | [] => .ok s
  | a :: as => match step s a with
    | .error e => .error e
    | .ok s => run s as
end Etl.Locked
