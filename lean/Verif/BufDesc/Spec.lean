import Verif.BufDesc.Model

/-!
# Specification of `etl::buffer_descriptors`

Stated over the visible history (newest first): the calls and returns of the allocating thread and the accesses of the users of the buffers.
-/
namespace Etl.BufDesc
variable {α : Type}

inductive Vis (α : Type) where
  | call (f : Option α)
  | ret (d : Option Nat)
  | clear
  | wrote (i j : Nat) (v : α)
  | got (i j : Nat) (v : α)
  | released (i : Nat)
  deriving Repr, DecidableEq

/-- Buffer `x` belongs to somebody: it has been handed out, and not been released since. -/
def owned : List (Vis α) → Nat → Bool
  | [], _ => false
  | .ret (some i) :: h, x => if x = i then true else owned h x
  | .released i :: h, x => if x = i then false else owned h x
  | .clear :: _, _ => false
  | _ :: h, x => owned h x

/-- The number of buffers handed out since the beginning or the last `clear()`. -/
def handed : List (Vis α) → Nat
  | [] => 0
  | .ret (some _) :: h => handed h + 1
  | .clear :: _ => 0
  | _ :: h => handed h

/-- The call under way, if there is one, and its fill value. -/
def pending : List (Vis α) → Option (Option α)
  | [] => none
  | .call f :: _ => some f
  | .ret _ :: _ => none
  | _ :: h => pending h

/-- What buffer `i` holds at index `j`: the last value written there through the buffer's descriptor, or the fill value it was handed out with. -/
def contents (m0 : Nat → Nat → α) : List (Vis α) → Nat → Nat → α
  | [], i, j => m0 i j
  | .wrote i' j' v :: h, i, j => if i = i' ∧ j = j' then v else contents m0 h i j
  | .ret (some i') :: h, i, j =>
    match pending h with
    | some (some f) => if i = i' then f else contents m0 h i j
    | _ => contents m0 h i j
  | _ :: h, i, j => contents m0 h i j

/-- The contract: one allocating thread; buffers are used and released only by those who own them, inside their bounds; `clear()` is called between
allocations. -/
def legal (SZ : Nat) (h : List (Vis α)) : Event α → Prop
  | .call _ => pending h = none
  | .micro => True
  | .clear => pending h = none
  | .write i j _ => owned h i = true ∧ j < SZ
  | .read i j => owned h i = true ∧ j < SZ
  | .release i => owned h i = true

/-- What becomes visible of an event. -/
def vis (e : Event α) (o : Option (Out α)) : List (Vis α) :=
  match e, o with
  | .call f, _ => [.call f]
  | .micro, some (.desc i) => [.ret (some i)]
  | .micro, some .invalid => [.ret none]
  | .micro, _ => []
  | .clear, _ => [.clear]
  | .write i j v, _ => [.wrote i j v]
  | .read i j, some (.val v) => [.got i j v]
  | .read _ _, _ => []
  | .release i, _ => [.released i]

/-- The states and histories that runs within the contract reach. -/
inductive Reach (N SZ : Nat) (mem : Nat → α) : St α → Pc α → List (Vis α) → Prop
  | start : Reach N SZ mem (init N SZ mem) .idle []
  | next {s pc h e s' pc' o} : Reach N SZ mem s pc h → legal SZ h e → step s pc e = .ok (s', pc', o) → Reach N SZ mem s' pc' (vis e o ++ h)

/-- What users rely on, at every point of the history. -/
def Good (N : Nat) (m0 : Nat → Nat → α) : List (Vis α) → Prop
  | [] => True
  -- a buffer is handed out only if nobody owns it, and the buffers go round in order
  | .ret (some i) :: h => i < N ∧ i = handed h % N ∧ owned h i = false ∧ Good N m0 h
  -- the answer is `invalid` only if somebody owns the next buffer in order
  | .ret none :: h => owned h (handed h % N) = true ∧ Good N m0 h
  -- an owner reads what was last written through the descriptor of that buffer
  | .got i j v :: h => v = contents m0 h i j ∧ Good N m0 h
  | _ :: h => Good N m0 h

end Etl.BufDesc
