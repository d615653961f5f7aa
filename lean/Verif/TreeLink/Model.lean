import Verif.Common.Res

/-!
# Model of the intrusive tree links

Source: `/repo/include/etl/intrusive_links.h` (`tree_link`, l.835-981; `link_left`, `link_right`, `link_rotate_left`, `link_rotate_right`, `link_rotate`, `link_clear`, `is_linked`, l.993-1322).

A link is a number, `0` is the null pointer.  Following or writing a member of the null pointer is the error `nullDeref`.  The overloads for pointers test their arguments, those for references do not (a reference is not null).
-/
namespace Etl.TreeLink

/-- the three members of all links, l.976-978 -/
structure Heap where
  par : Nat → Nat
  lf : Nat → Nat
  rt : Nat → Nat

def Heap.parent (h : Heap) (n : Nat) : Res Nat := if n = 0 then .error .nullDeref else .ok (h.par n)
def Heap.left (h : Heap) (n : Nat) : Res Nat := if n = 0 then .error .nullDeref else .ok (h.lf n)
def Heap.right (h : Heap) (n : Nat) : Res Nat := if n = 0 then .error .nullDeref else .ok (h.rt n)
def Heap.setParent (h : Heap) (n v : Nat) : Res Heap := if n = 0 then .error .nullDeref else .ok { h with par := upd h.par n v }
def Heap.setLeft (h : Heap) (n v : Nat) : Res Heap := if n = 0 then .error .nullDeref else .ok { h with lf := upd h.lf n v }
def Heap.setRight (h : Heap) (n v : Nat) : Res Heap := if n = 0 then .error .nullDeref else .ok { h with rt := upd h.rt n v }

/-- `mirror`, l.970-974 -/
def mirror (h : Heap) (n : Nat) : Res Heap := do
  let l ← h.left n
  let r ← h.right n
  let h ← h.setLeft n r
  h.setRight n l
/-- `clear`, l.878-883; `link_clear`, l.1293-1306 -/
def clear (h : Heap) (n : Nat) : Res Heap := do
  let h ← h.setParent n 0
  let h ← h.setLeft n 0
  h.setRight n 0
/-- `is_linked`, l.886-889, l.1309-1322 -/
def isLinked (h : Heap) (n : Nat) : Res Bool := do
  let p ← h.parent n
  let l ← h.left n
  let r ← h.right n
  .ok (p != 0 || l != 0 || r != 0)

/-- `link_left` of pointers, l.1011-1022; the other overloads (l.1001-1005, l.1028-1036, l.1042-1050) do the same without the test of the reference -/
def linkLeft (h : Heap) (parent leaf : Nat) : Res Heap := do
  let h ← if parent ≠ 0 then h.setLeft parent leaf else .ok h
  if leaf ≠ 0 then h.setParent leaf parent else .ok h
/-- `link_right` of pointers, l.1067-1078; the other overloads l.1058-1062, l.1083-1091, l.1096-1104 -/
def linkRight (h : Heap) (parent leaf : Nat) : Res Heap := do
  let h ← if parent ≠ 0 then h.setRight parent leaf else .ok h
  if leaf ≠ 0 then h.setParent leaf parent else .ok h

/-- `link_rotate_left`, l.1112-1124 -/
def rotateLeft (h : Heap) (parent leaf : Nat) : Res Heap := do
  let b ← h.left leaf
  let h ← h.setRight parent b
  let r ← h.right parent
  let h ← if r ≠ 0 then h.setParent r parent else .ok h
  let g ← h.parent parent
  let h ← h.setParent leaf g
  let h ← h.setParent parent leaf
  h.setLeft leaf parent
/-- `link_rotate_right`, l.1167-1179 -/
def rotateRight (h : Heap) (parent leaf : Nat) : Res Heap := do
  let b ← h.right leaf
  let h ← h.setLeft parent b
  let l ← h.left parent
  let h ← if l ≠ 0 then h.setParent l parent else .ok h
  let g ← h.parent parent
  let h ← h.setParent leaf g
  let h ← h.setParent parent leaf
  h.setRight leaf parent
/-- `link_rotate_left`, `link_rotate_right` of pointers, l.1130-1160, l.1184-1211 -/
def rotateLeftP (h : Heap) (parent leaf : Nat) : Res Heap := if parent ≠ 0 ∧ leaf ≠ 0 then rotateLeft h parent leaf else .ok h
def rotateRightP (h : Heap) (parent leaf : Nat) : Res Heap := if parent ≠ 0 ∧ leaf ≠ 0 then rotateRight h parent leaf else .ok h
/-- `link_rotate`, l.1220-1230 -/
def rotate (h : Heap) (parent leaf : Nat) : Res Heap := do
  let l ← h.left parent
  if l = leaf then rotateRight h parent leaf else rotateLeft h parent leaf
/-- `link_rotate` of pointers, l.1237-1289 -/
def rotateP (h : Heap) (parent leaf : Nat) : Res Heap := if parent ≠ 0 ∧ leaf ≠ 0 then rotate h parent leaf else .ok h

/-- What a user does to rotate inside a tree (as the balanced containers of the library do, for example map.h `rotate_2node`): the rotation does not touch the link above, so the user stores the new child there;
`root` is the variable that points to the top of the tree. -/
def rotateIn (h : Heap) (root parent leaf : Nat) : Res (Heap × Nat) := do
  let g ← h.parent parent
  let h ← rotate h parent leaf
  if g = 0 then .ok (h, leaf) else
    let l ← h.left g
    let h ← if l = parent then linkLeft h g leaf else linkRight h g leaf
    .ok (h, root)

end Etl.TreeLink
