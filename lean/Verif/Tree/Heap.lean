import Verif.Common.Res

/-!
# The nodes of the trees behind `etl::map` and `etl::set`

Source: `/repo/include/etl/map.h` (`map_base::Node`, l.190-222) and `/repo/include/etl/set.h` (the same text, l.180-204).
Nodes are the numbers `1 .. lim` (the items of the pool); 0 is the null pointer.  `kLeft`, `kRight`, `kNeither` (l.182-187) are `some false`, `some true`, `none`;
`1 - dir` is `!dir`.  Indexing `children` with `kNeither` is an access outside the array.
A reference to a pointer (`Node*&`) is a `Loc`: `root_node` or `node->children[d]`.
-/
namespace Etl.Tree

/-- `Node::children`, `weight`, `dir` of every node, and `root_node` (l.217-220, l.453). -/
structure TH where
  lim : Nat
  ch : Nat → Bool → Nat
  wt : Nat → Option Bool
  dr : Nat → Option Bool
  root : Nat

/-- A `Node*&`. -/
inductive Loc where
  | root
  | child (p : Nat) (d : Bool)
  deriving DecidableEq

namespace TH

/-- `p` is a pointer to a node. -/
@[reducible] def valid (h : TH) (p : Nat) : Prop := 1 ≤ p ∧ p ≤ h.lim

/-- Write of `p->children[d]`, `p->weight`, `p->dir`. -/
def sc (h : TH) (p : Nat) (d : Bool) (v : Nat) : TH := { h with ch := fun q e => if q = p ∧ e = d then v else h.ch q e }
def sw (h : TH) (p : Nat) (w : Option Bool) : TH := { h with wt := upd h.wt p w }
def sd (h : TH) (p : Nat) (w : Option Bool) : TH := { h with dr := upd h.dr p w }
/-- Write through a `Node*&`. -/
def sl (h : TH) : Loc → Nat → TH
  | .root, v => { h with root := v }
  | .child p d, v => h.sc p d v
/-- Read through a `Node*&`. -/
def gl (h : TH) : Loc → Nat
  | .root => h.root
  | .child p d => h.ch p d

/-- Member accesses through a pointer: undefined if it does not point to a node. -/
def child (h : TH) (p : Nat) (d : Bool) : Res Nat := if h.valid p then .ok (h.ch p d) else .error .nullDeref
def setChild (h : TH) (p : Nat) (d : Bool) (v : Nat) : Res TH := if h.valid p then .ok (h.sc p d v) else .error .nullDeref
def weight (h : TH) (p : Nat) : Res (Option Bool) := if h.valid p then .ok (h.wt p) else .error .nullDeref
def setWeight (h : TH) (p : Nat) (w : Option Bool) : Res TH := if h.valid p then .ok (h.sw p w) else .error .nullDeref
def dir (h : TH) (p : Nat) : Res (Option Bool) := if h.valid p then .ok (h.dr p) else .error .nullDeref
def setDir (h : TH) (p : Nat) (w : Option Bool) : Res TH := if h.valid p then .ok (h.sd p w) else .error .nullDeref
/-- `dir` used as an index: `kNeither` is outside the array. -/
def dirIx (h : TH) (p : Nat) : Res Bool := do
  match ← h.dir p with
  | some d => .ok d
  | none => .error .outOfBounds
/-- The references `p->children[d]`, `p->children[p->dir]`. -/
def locAt (h : TH) (p : Nat) (d : Bool) : Res Loc := if h.valid p then .ok (.child p d) else .error .nullDeref
def locDir (h : TH) (p : Nat) : Res Loc := do .ok (.child p (← h.dirIx p))
/-- Use of a reference to a pointer. -/
def getL (h : TH) : Loc → Res Nat
  | .root => .ok h.root
  | .child p d => h.child p d
def setL (h : TH) (L : Loc) (v : Nat) : Res TH := match L with
  | .root => .ok { h with root := v }
  | .child p d => h.setChild p d v

/-- `mark_as_leaf`, l.209-215. -/
def markAsLeaf (h : TH) (n : Nat) : Res TH := do
  let h ← h.setWeight n none
  let h ← h.setDir n none
  let h ← h.setChild n false 0
  h.setChild n true 0

/-- `rotate_2node(position, dir)`, l.310-335.  `position` is read once: nothing before l.332 changes it. -/
def rotate2 (h : TH) (L : Loc) (d : Bool) : Res TH := do
  let p ← h.getL L
  let r ← h.child p d
  let h ← h.setChild p d (← h.child r (!d))
  let h ← h.setChild r (!d) p
  let h ← h.setWeight p none
  let h ← h.setL L r
  h.setWeight r none

/-- `rotate_3node(position, dir, third)`, l.340-375.  `position` is read once: nothing before l.372 changes it. -/
def rotate3 (h : TH) (L : Loc) (d : Bool) (third : Option Bool) : Res TH := do
  let p ← h.getL L
  let b ← h.child p d
  let r ← h.child b (!d)
  let h ← h.setWeight b (if third ≠ none ∧ third ≠ some d then some d else none)
  let h ← h.setChild b (!d) (← h.child r d)
  let h ← h.setChild r d b
  let h ← h.setWeight p (if third ≠ none ∧ third = some d then some (!d) else none)
  let h ← h.setChild p d (← h.child r (!d))
  let h ← h.setChild r (!d) p
  let h ← h.setL L r
  h.setWeight r none

/-- Step 1 of `balance_node`, l.252-277. -/
def weightLoop (h : TH) (n : Nat) : Nat → Res TH
  | 0 => .error .diverge
  | k + 1 => if n ≠ 0 then do
      match ← h.dir n with
      | none => .ok h
      | some d => do
        let w ← h.weight n
        let h ← if w = some (!d) then h.setWeight n none else h.setWeight n (some d)
        weightLoop h (← h.child n d) k
    else .ok h

/-- `balance_node(critical_node)`, l.247-305. -/
def balanceNode (h : TH) (L : Loc) (fuel : Nat) : Res TH := do
  let c ← h.getL L
  let d ← h.dirIx c
  let h ← h.weightLoop (← h.child c d) fuel
  let w ← h.weight c
  if w = none then h.setWeight c (some d)
  else if some d ≠ w then h.setWeight c none
  else do
    let b ← h.child c d
    if w = (← h.dir b) then h.rotate2 L d
    else do
      let e ← h.child b (!d)
      h.rotate3 L d (← h.dir e)

/-- `find_limit_node(position, dir)`, l.381-393. -/
def limitLoop (h : TH) (d : Bool) (p : Nat) : Nat → Res Nat
  | 0 => .error .diverge
  | k + 1 => if p ≠ 0 then do
      let q ← h.child p d
      if q ≠ 0 then limitLoop h d q k else .ok p
    else .ok p

/-- `detach_node(position, replacement)`, l.429-449. -/
def detachNode (h : TH) (P R : Loc) : Res TH := do
  let detached ← h.getL P
  let swap ← h.getL R
  let h ← h.setL P swap
  let d ← h.dirIx swap
  let h ← h.setL R (← h.child swap (!d))
  let h ← h.setChild swap false (← h.child detached false)
  let h ← h.setChild swap true (← h.child detached true)
  h.setWeight swap (← h.weight detached)

end TH
end Etl.Tree
