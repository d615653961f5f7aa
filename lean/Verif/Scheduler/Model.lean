import Verif.Common.Res
import Verif.Algo.Search

/-!
# Model of scheduler and task

Sources: `/repo/include/etl/scheduler.h`, `/repo/include/etl/task.h`.

Tasks are numbered.  `task_request_work` is const: it looks at the world and gives a score; `task_process_work` changes the world, which has type `σ`, and may set the scheduler's
`running` and `exit` flags.  Tasks and callbacks do not add tasks.  The task list is an `etl::vector` of pointers; its contents are a list (C05 is about `vector::insert`).
-/
namespace Etl.Scheduler

structure St (σ : Type) where
  world : σ
  running : Bool
  exit : Bool
  log : List Nat          -- the tasks whose `task_process_work` was called

/-- The user's tasks and callbacks. -/
structure Sys (σ : Type) where
  prio : Nat → Nat
  request : Nat → σ → Nat
  /-- new world, and whether the task calls `exit_scheduler` -/
  process : Nat → σ → σ × Bool
  watchdog : Option (σ → σ × Bool)
  idle : Option (σ → σ × Bool)

variable {σ : Type}

/-- `compare_priority` and `add_task`, l.285-300 and l.339-345: gives the new list, or `none` when the assert for a full list fires. -/
def addTask (y : Sys σ) (cap : Nat) (tasks : List Nat) (t : Nat) : Res (Option (List Nat)) :=
  if tasks.length < cap then
    match Algo.upperBound tasks 0 tasks.length (y.prio t) (fun p x => decide (p > y.prio x)) with
    | .error u => .error u
    | .ok r => .ok (some (tasks.take r ++ t :: tasks.drop r))
  else .ok none

/-- `add_task_list`, l.308-315; stops at the first assert (the tasks before are added). -/
def addTaskList (y : Sys σ) (cap : Nat) : List Nat → List Nat → Res (List Nat × Bool)
  | tasks, [] => .ok (tasks, true)
  | tasks, t :: ts =>
    match addTask y cap tasks t with
    | .error u => .error u
    | .ok none => .ok (tasks, false)
    | .ok (some l) => addTaskList y cap l ts

/-- `task.task_process_work()`. -/
def work (y : Sys σ) (t : Nat) (s : St σ) : St σ :=
  { s with world := (y.process t s.world).1, exit := s.exit || (y.process t s.world).2, log := s.log ++ [t] }

/-- `scheduler_policy_sequential_single::schedule_tasks`, l.104-120: the loop from `index` on. -/
def singleLoop (y : Sys σ) (tasks : List Nat) : Nat → Nat → Bool → St σ → Res (Bool × St σ)
  | 0, i, idle, s => if i < tasks.length then .error .diverge else .ok (idle, s)
  | fuel + 1, i, idle, s =>
    if i < tasks.length then
      match tasks[i]? with
      | none => .error .outOfBounds
      | some t => if y.request t s.world > 0 then singleLoop y tasks fuel (i + 1) false (work y t s) else singleLoop y tasks fuel (i + 1) idle s
    else .ok (idle, s)

def single (y : Sys σ) (tasks : List Nat) (s : St σ) : Res (Bool × St σ) := singleLoop y tasks tasks.length 0 true s

/-- The inner `while` of `scheduler_policy_sequential_multiple`, l.141-145. -/
def drain (y : Sys σ) (t : Nat) : Nat → Bool → St σ → Res (Bool × St σ)
  | 0, idle, s => if y.request t s.world > 0 then .error .diverge else .ok (idle, s)
  | fuel + 1, idle, s => if y.request t s.world > 0 then drain y t fuel false (work y t s) else .ok (idle, s)

/-- `scheduler_policy_sequential_multiple::schedule_tasks`, l.133-149; `bound` is the fuel of the inner loop. -/
def multipleLoop (y : Sys σ) (tasks : List Nat) (bound : Nat) : Nat → Nat → Bool → St σ → Res (Bool × St σ)
  | 0, i, idle, s => if i < tasks.length then .error .diverge else .ok (idle, s)
  | fuel + 1, i, idle, s =>
    if i < tasks.length then
      match tasks[i]? with
      | none => .error .outOfBounds
      | some t =>
        match drain y t bound idle s with
        | .error u => .error u
        | .ok (idle, s) => multipleLoop y tasks bound fuel (i + 1) idle s
    else .ok (idle, s)

def multiple (y : Sys σ) (bound : Nat) (tasks : List Nat) (s : St σ) : Res (Bool × St σ) := multipleLoop y tasks bound tasks.length 0 true s

/-- `scheduler_policy_highest_priority::schedule_tasks`, l.162-186. -/
def highestLoop (y : Sys σ) (tasks : List Nat) : Nat → Nat → St σ → Res (Bool × St σ)
  | 0, i, s => if i < tasks.length then .error .diverge else .ok (true, s)
  | fuel + 1, i, s =>
    if i < tasks.length then
      match tasks[i]? with
      | none => .error .outOfBounds
      | some t => if y.request t s.world > 0 then .ok (false, work y t s) else highestLoop y tasks fuel (i + 1) s
    else .ok (true, s)

def highest (y : Sys σ) (tasks : List Nat) (s : St σ) : Res (Bool × St σ) := highestLoop y tasks tasks.length 0 s

/-- The scan of `scheduler_policy_most_work`, l.199-214: gives `idle` and `most_index`. -/
def mostScan (y : Sys σ) (tasks : List Nat) (s : St σ) : Nat → Nat → Bool → Nat → Nat → Res (Bool × Nat)
  | 0, i, idle, mi, _ => if i < tasks.length then .error .diverge else .ok (idle, mi)
  | fuel + 1, i, idle, mi, mw =>
    if i < tasks.length then
      match tasks[i]? with
      | none => .error .outOfBounds
      | some t => if y.request t s.world > mw then mostScan y tasks s fuel (i + 1) false i (y.request t s.world) else mostScan y tasks s fuel (i + 1) idle mi mw
    else .ok (idle, mi)

/-- `scheduler_policy_most_work::schedule_tasks`, l.195-223. -/
def mostWork (y : Sys σ) (tasks : List Nat) (s : St σ) : Res (Bool × St σ) :=
  match mostScan y tasks s tasks.length 0 true 0 0 with
  | .error u => .error u
  | .ok (idle, mi) =>
    if idle then .ok (true, s)
    else match tasks[mi]? with
      | none => .error .outOfBounds
      | some t => .ok (false, work y t s)

/-- A call through one of the callback pointers, if set, l.386-394. -/
def callback (f : Option (σ → σ × Bool)) (s : St σ) : St σ :=
  match f with
  | none => s
  | some g => { s with world := (g s.world).1, exit := s.exit || (g s.world).2 }

/-- One round of the loop of `start`, l.382-396 (`running` is true: nothing modelled clears it). -/
def round (y : Sys σ) (policy : List Nat → St σ → Res (Bool × St σ)) (tasks : List Nat) (s : St σ) : Res (St σ) :=
  match policy tasks s with
  | .error u => .error u
  | .ok (idle, s) =>
    .ok (if idle then callback y.idle (callback y.watchdog s) else callback y.watchdog s)

/-- The loop of `start`, l.380-397. -/
def startLoop (y : Sys σ) (policy : List Nat → St σ → Res (Bool × St σ)) (tasks : List Nat) : Nat → St σ → Res (St σ)
  | 0, s => if s.exit then .ok s else .error .diverge
  | fuel + 1, s =>
    if s.exit then .ok s
    else match round y policy tasks s with
      | .error u => .error u
      | .ok s => startLoop y policy tasks fuel s

/-- `start`, l.374-398; `none` is the assert for an empty task list. -/
def start (y : Sys σ) (policy : List Nat → St σ → Res (Bool × St σ)) (tasks : List Nat) (fuel : Nat) (s : St σ) : Res (Option (St σ)) :=
  if tasks.length > 0 then
    match startLoop y policy tasks fuel { s with running := true } with
    | .error u => .error u
    | .ok s => .ok (some s)
  else .ok none

end Etl.Scheduler
