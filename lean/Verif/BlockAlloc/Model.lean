import Verif.Pool.Model
import Verif.MultiRange.Model

/-!
# Model of successor and of the memory block allocators

Source: `/repo/include/etl/successor.h`, `/repo/include/etl/imemory_block_allocator.h`, `/repo/include/etl/fixed_sized_memory_block_allocator.h`; the pool inside is the model of `ipool.h` in `Verif/Pool/Model.lean`.

The objects are numbered, `succ` are their `p_successor` members.  A recursion along the successors that does not end is the error `diverge`: the fuel bounds the number of objects on the way.
-/
namespace Etl.BlockAlloc
open Etl.MultiRange (Links)

/-! ## successor -/

/-- `set_successor(s)`, successor.h l.97-100. -/
def setSuccessor (succ : Links) (self s : Nat) : Links := upd succ self (some s)
/-- `set_successor(s, rest...)`, l.107-112; for no `rest` the overload above. -/
def setSuccessors : Links → Nat → Nat → List Nat → Links
  | succ, self, s, [] => setSuccessor succ self s
  | succ, self, s, r :: rest => setSuccessors (setSuccessor succ self s) s r rest

/-- `append_successor(s)`, l.118-128. -/
def appendOne : Nat → Links → Nat → Nat → Res Links
  | 0, _, _, _ => .error .diverge
  | fuel + 1, succ, self, s => match succ self with
    | some q => appendOne fuel succ q s
    | none => .ok (setSuccessor succ self s)

/-- `append_successor(s, rest...)`, l.135-147; for no `rest` the overload above. -/
def appendMany : Nat → Links → Nat → Nat → List Nat → Res Links
  | fuel, succ, self, s, [] => appendOne fuel succ self s
  | fuel, succ, self, s, r :: rest => match succ self with
    | some q => do
      let succ ← appendOne fuel succ q s
      appendMany fuel succ q r rest
    | none => appendMany fuel (setSuccessor succ self s) self r rest

/-- `clear_successor`, l.153-156. -/
def clearSuccessor (succ : Links) (self : Nat) : Links := upd succ self none
/-- `clear_successor_chain`, l.161-168. -/
def clearChain : Nat → Links → Nat → Res Links
  | 0, _, _ => .error .diverge
  | fuel + 1, succ, self => match succ self with
    | some q => do
      let succ ← clearChain fuel succ q
      .ok (clearSuccessor succ self)
    | none => .ok succ

/-! ## Allocators -/

/-- `fixed_sized_memory_block_allocator`, l.44-126. -/
structure Alloc where
  blockSize : Nat
  alignment : Nat
  pool : Pool.St

structure W where
  succ : Links
  al : Nat → Alloc

inductive Out where
  | addr (p : Option Nat)
  | flag (b : Bool)
  | throw (e : Pool.Err)

/-- `allocate_block`, fixed_sized_memory_block_allocator.h l.66-78. -/
def allocateBlock (a : Alloc) (size align : Nat) : Res (Alloc × Out) :=
  if align ≤ a.alignment ∧ size ≤ a.blockSize ∧ Pool.full a.pool = false then
    match Pool.allocate a.pool a.blockSize with
    | .error e => .error e
    | .ok (p, .addr x) => .ok ({ a with pool := p }, .addr x)
    | .ok (p, .throw e) => .ok ({ a with pool := p }, .throw e)
    | .ok (p, .done) => .ok ({ a with pool := p }, .addr none)
  else .ok (a, .addr none)

/-- `release_block`, l.83-94. -/
def releaseBlock (a : Alloc) (p : Nat) : Res (Alloc × Out) :=
  if Pool.isItemInPool a.pool p then
    match Pool.releaseItem a.pool p with
    | .error e => .error e
    | .ok (q, .throw e) => .ok ({ a with pool := q }, .throw e)
    | .ok (q, _) => .ok ({ a with pool := q }, .flag true)
  else .ok (a, .flag false)

/-- `is_owner_of_block`, l.99-102. -/
def isOwnerOfBlock (a : Alloc) (p : Nat) : Bool := Pool.isItemInPool a.pool p

/-- `allocate`, imemory_block_allocator.h l.58-74. -/
def allocate : Nat → W → Nat → Nat → Nat → Res (W × Out)
  | 0, _, _, _, _ => .error .diverge
  | fuel + 1, w, i, size, align => match allocateBlock (w.al i) size align with
    | .error e => .error e
    | .ok (a, .addr none) => match w.succ i with
      | some j => allocate fuel { w with al := upd w.al i a } j size align
      | none => .ok ({ w with al := upd w.al i a }, .addr none)
    | .ok (a, out) => .ok ({ w with al := upd w.al i a }, out)

/-- `release`, l.81-97. -/
def release : Nat → W → Nat → Nat → Res (W × Out)
  | 0, _, _, _ => .error .diverge
  | fuel + 1, w, i, p => match releaseBlock (w.al i) p with
    | .error e => .error e
    | .ok (a, .flag false) => match w.succ i with
      | some j => release fuel { w with al := upd w.al i a } j p
      | none => .ok ({ w with al := upd w.al i a }, .flag false)
    | .ok (a, out) => .ok ({ w with al := upd w.al i a }, out)

/-- `is_owner_of`, l.103-119. -/
def isOwnerOf : Nat → W → Nat → Nat → Res Bool
  | 0, _, _, _ => .error .diverge
  | fuel + 1, w, i, p =>
    if isOwnerOfBlock (w.al i) p then .ok true
    else match w.succ i with
      | some j => isOwnerOf fuel w j p
      | none => .ok false

/-- The user writes the word `v` at the start of the block at `p`, got from allocator `k`.  (Not a call: the memory is the user's.) -/
def scribble (w : W) (k p : Nat) (v : Option Nat) : Res W := do
  let q ← Pool.writePtr (w.al k).pool p v
  .ok { w with al := upd w.al k { w.al k with pool := q } }

end Etl.BlockAlloc
