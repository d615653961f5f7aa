import Verif.TreeLink.Model
import Mathlib.Tactic.Linarith

/-!
# C92: intrusive tree links
-/
namespace Etl.TreeLink

/-! ## Specification -/

/-- a binary tree of links -/
inductive Tree where
  | nil | node (l : Tree) (n : Nat) (r : Tree)
/-- its links from left to right -/
def Tree.inorder : Tree → List Nat
  | .nil => []
  | .node l n r => l.inorder ++ n :: r.inorder
/-- the tree stands in memory at the pointer `p`, under the link `par`: each link points to its parent and its two children -/
def Shape (h : Heap) (par p : Nat) : Tree → Prop
  | .nil => p = 0
  | .node l n r => p = n ∧ n ≠ 0 ∧ h.par n = par ∧ Shape h n (h.lf n) l ∧ Shape h n (h.rt n) r
/-- a whole tree: no link twice -/
structure Holds (h : Heap) (par p : Nat) (t : Tree) : Prop where
  shape : Shape h par p t
  nodup : t.inorder.Nodup
/-- nothing but the given links has changed -/
def Only (h h' : Heap) (l : List Nat) : Prop := ∀ n, n ∉ l → h'.par n = h.par n ∧ h'.lf n = h.lf n ∧ h'.rt n = h.rt n

/-! ## Lemmas -/

theorem Shape.frame {h h' : Heap} : ∀ {t : Tree} {par p : Nat}, Shape h par p t → (∀ n ∈ t.inorder, h'.par n = h.par n ∧ h'.lf n = h.lf n ∧ h'.rt n = h.rt n) → Shape h' par p t
  | .nil, _, _, hs, _ => hs
  | .node l n r, par, p, ⟨h1, h2, h3, h4, h5⟩, hf => by
    have hn := hf n (by simp [Tree.inorder])
    refine ⟨h1, h2, by rw [hn.1]; exact h3, ?_, ?_⟩
    · rw [hn.2.1]; exact h4.frame (fun m hm => hf m (by simp [Tree.inorder, hm]))
    · rw [hn.2.2]; exact h5.frame (fun m hm => hf m (by simp [Tree.inorder, hm]))
theorem Shape.nz {h : Heap} : ∀ {t : Tree} {par p : Nat}, Shape h par p t → ∀ n ∈ t.inorder, n ≠ 0
  | .nil, _, _, _, n, hn => by simp [Tree.inorder] at hn
  | .node l m r, par, p, ⟨h1, h2, h3, h4, h5⟩, n, hn => by
    simp only [Tree.inorder, List.mem_append, List.mem_cons] at hn
    rcases hn with hn | rfl | hn
    · exact h4.nz n hn
    · exact h2
    · exact h5.nz n hn
theorem Shape.root {h : Heap} {t : Tree} {par p : Nat} (hs : Shape h par p t) (hp : p ≠ 0) : p ∈ t.inorder ∧ h.par p = par := by
  cases t with
  | nil => exact absurd hs hp
  | node l n r => obtain ⟨rfl, _, h3, _⟩ := hs; exact ⟨by simp [Tree.inorder], h3⟩
/-- the tree is hung elsewhere: only the parent of its root has changed -/
theorem Shape.move {h h' : Heap} {t : Tree} {par p q : Nat} (hs : Shape h par p t) (hnd : t.inorder.Nodup)
    (hf : ∀ n ∈ t.inorder, h'.lf n = h.lf n ∧ h'.rt n = h.rt n ∧ (n ≠ p → h'.par n = h.par n)) (hq : p ≠ 0 → h'.par p = q) : Shape h' q p t := by
  cases t with
  | nil => exact hs
  | node l n r =>
    obtain ⟨rfl, h2, h3, h4, h5⟩ := hs
    have hn := hf p (by simp [Tree.inorder])
    simp only [Tree.inorder, List.nodup_append, List.nodup_cons, List.mem_cons, forall_eq_or_imp] at hnd
    refine ⟨rfl, h2, hq h2, ?_, ?_⟩
    · rw [hn.1]; exact h4.frame (fun m hm => by
        have := hf m (by simp [Tree.inorder, hm]); exact ⟨this.2.2 (hnd.2.2 m hm).1, this.1, this.2.1⟩)
    · rw [hn.2.1]; exact h5.frame (fun m hm => by
        have := hf m (by simp [Tree.inorder, hm]); exact ⟨this.2.2 (fun e => hnd.2.1.1 (e ▸ hm)), this.1, this.2.1⟩)

/-! ## Theorems -/

theorem rotateLeft_eq (h : Heap) (x y : Nat) (hx : x ≠ 0) (hy : y ≠ 0) : rotateLeft h x y = .ok
    { par := upd (upd (if h.lf y ≠ 0 then upd h.par (h.lf y) x else h.par) y ((if h.lf y ≠ 0 then upd h.par (h.lf y) x else h.par) x)) x y, lf := upd h.lf y x, rt := upd h.rt x (h.lf y) } := by
  by_cases hb : h.lf y = 0
  · simp [rotateLeft, Heap.left, Heap.right, Heap.parent, Heap.setLeft, Heap.setRight, Heap.setParent, hx, hy, hb, bind, Except.bind]
  · simp [rotateLeft, Heap.left, Heap.right, Heap.parent, Heap.setLeft, Heap.setRight, Heap.setParent, hx, hy, hb, bind, Except.bind]
theorem rotateRight_eq (h : Heap) (x y : Nat) (hx : x ≠ 0) (hy : y ≠ 0) : rotateRight h x y = .ok
    { par := upd (upd (if h.rt y ≠ 0 then upd h.par (h.rt y) x else h.par) y ((if h.rt y ≠ 0 then upd h.par (h.rt y) x else h.par) x)) x y, lf := upd h.lf x (h.rt y), rt := upd h.rt y x } := by
  by_cases hb : h.rt y = 0
  · simp [rotateRight, Heap.left, Heap.right, Heap.parent, Heap.setLeft, Heap.setRight, Heap.setParent, hx, hy, hb, bind, Except.bind]
  · simp [rotateRight, Heap.left, Heap.right, Heap.parent, Heap.setLeft, Heap.setRight, Heap.setParent, hx, hy, hb, bind, Except.bind]

theorem upd_ne {f : Nat → Nat} {i j v : Nat} (h : j ≠ i) : upd f i v j = f j := upd_other f v h

/-- **C92**: rotating left turns `x(a, y(b, c))` into `y(x(a, b), c)` under the same parent, with all parent links right; no other link changes. -/
theorem C92_rotate_left (h : Heap) (par p x y : Nat) (a b c : Tree) (hh : Holds h par p (.node a x (.node b y c))) :
    ∃ h', rotateLeft h x y = .ok h' ∧ Holds h' par y (.node (.node a x b) y c) ∧ Only h h' (Tree.node a x (.node b y c)).inorder := by
  obtain ⟨⟨epx, hx, hpx, ha, ey, hy, hpy, hb, hc⟩, hnd⟩ := hh
  have hnd' := hnd
  simp only [Tree.inorder, List.nodup_append, List.nodup_cons, List.mem_cons, List.mem_append, not_or] at hnd
  obtain ⟨ha1, ⟨⟨hxb, hxy, hxc⟩, hb1, ⟨hyc, hc1⟩, hbd⟩, had⟩ := hnd
  have ebx : h.lf y ≠ 0 → h.lf y ∈ b.inorder := fun e => (hb.root e).1
  have hxb' : ∀ n ∈ b.inorder, n ≠ x := fun n hn e => hxb (e ▸ hn)
  have hyb' : ∀ n ∈ b.inorder, n ≠ y := fun n hn => hbd n hn y (.inl rfl)
  have hxc' : ∀ n ∈ c.inorder, n ≠ x := fun n hn e => hxc (e ▸ hn)
  have hyc' : ∀ n ∈ c.inorder, n ≠ y := fun n hn e => hyc (e ▸ hn)
  have hcb' : ∀ n ∈ c.inorder, h.lf y ≠ 0 → n ≠ h.lf y := fun n hn e e' => hbd _ (ebx e) n (.inr hn) e'.symm
  have hxa' : ∀ n ∈ a.inorder, n ≠ x := fun n hn => had n hn x (.inl rfl)
  have hya' : ∀ n ∈ a.inorder, n ≠ y := fun n hn => had n hn y (.inr (.inr (.inl rfl)))
  have hab' : ∀ n ∈ a.inorder, h.lf y ≠ 0 → n ≠ h.lf y := fun n hn e => had n hn _ (.inr (.inl (ebx e)))
  have hP : ∀ n, (h.lf y ≠ 0 → n ≠ h.lf y) → (if h.lf y ≠ 0 then upd h.par (h.lf y) x else h.par) n = h.par n := by
    intro n hn; split
    · rename_i e; exact upd_ne (hn e)
    · rfl
  have hxP : (if h.lf y ≠ 0 then upd h.par (h.lf y) x else h.par) x = par := by rw [hP x (fun e e' => hxb (e' ▸ ebx e))]; exact hpx
  refine ⟨_, rotateLeft_eq h x y hx hy, ⟨⟨rfl, hy, ?_, ⟨?_, hx, ?_, ?_, ?_⟩, ?_⟩, by simpa [Tree.inorder] using hnd'⟩, ?_⟩
  · show upd (upd _ y _) x y y = par
    rw [upd_ne (Ne.symm hxy), upd_same]; exact hxP
  · exact upd_same _ _ _
  · exact upd_same _ _ _
  · show Shape _ x (upd h.lf y x x) a
    rw [upd_ne hxy]
    exact ha.frame (fun n hn => ⟨by show upd (upd _ y _) x y n = _; rw [upd_ne (hxa' n hn), upd_ne (hya' n hn)]; exact hP n (hab' n hn), upd_ne (hya' n hn), upd_ne (hxa' n hn)⟩)
  · show Shape _ x (upd h.rt x (h.lf y) x) b
    rw [upd_same]
    refine hb.move hb1 (fun n hn => ⟨upd_ne (hyb' n hn), upd_ne (hxb' n hn), fun e => ?_⟩) (fun e => ?_)
    · show upd (upd _ y _) x y n = _; rw [upd_ne (hxb' n hn), upd_ne (hyb' n hn)]; exact hP n (fun _ => e)
    · show upd (upd _ y _) x y _ = _; rw [upd_ne (hxb' _ (ebx e)), upd_ne (hyb' _ (ebx e)), if_pos e, upd_same]
  · show Shape _ y (upd h.rt x (h.lf y) y) c
    rw [upd_ne (Ne.symm hxy)]
    exact hc.frame (fun n hn => ⟨by show upd (upd _ y _) x y n = _; rw [upd_ne (hxc' n hn), upd_ne (hyc' n hn)]; exact hP n (hcb' n hn), upd_ne (hyc' n hn), upd_ne (hxc' n hn)⟩)
  · intro n hn
    simp only [Tree.inorder, List.mem_append, List.mem_cons, not_or] at hn
    exact ⟨by show upd (upd _ y _) x y n = _; rw [upd_ne hn.2.1, upd_ne hn.2.2.2.1]; exact hP n (fun e e' => hn.2.2.1 (e' ▸ ebx e)), upd_ne hn.2.2.2.1, upd_ne hn.2.1⟩

/-- **C92**: rotating right turns `x(y(a, b), c)` into `y(a, x(b, c))`. -/
theorem C92_rotate_right (h : Heap) (par p x y : Nat) (a b c : Tree) (hh : Holds h par p (.node (.node a y b) x c)) :
    ∃ h', rotateRight h x y = .ok h' ∧ Holds h' par y (.node a y (.node b x c)) ∧ Only h h' (Tree.node (.node a y b) x c).inorder := by
  obtain ⟨⟨epx, hx, hpx, ⟨ey, hy, hpy, ha, hb⟩, hc⟩, hnd⟩ := hh
  have hnd' : (a.inorder ++ y :: (b.inorder ++ x :: c.inorder)).Nodup := by simpa [Tree.inorder] using hnd
  have hnd := hnd'
  simp only [List.nodup_append, List.nodup_cons, List.mem_cons, List.mem_append, not_or] at hnd
  obtain ⟨ha1, ⟨⟨hyb, hyx, hyc⟩, hb1, ⟨hxc, hc1⟩, hbd⟩, had⟩ := hnd
  have ebx : h.rt y ≠ 0 → h.rt y ∈ b.inorder := fun e => (hb.root e).1
  have hxb' : ∀ n ∈ b.inorder, n ≠ x := fun n hn => hbd n hn x (.inl rfl)
  have hyb' : ∀ n ∈ b.inorder, n ≠ y := fun n hn e => hyb (e ▸ hn)
  have hxc' : ∀ n ∈ c.inorder, n ≠ x := fun n hn e => hxc (e ▸ hn)
  have hyc' : ∀ n ∈ c.inorder, n ≠ y := fun n hn e => hyc (e ▸ hn)
  have hcb' : ∀ n ∈ c.inorder, h.rt y ≠ 0 → n ≠ h.rt y := fun n hn e e' => hbd _ (ebx e) n (.inr hn) e'.symm
  have hxa' : ∀ n ∈ a.inorder, n ≠ x := fun n hn => had n hn x (.inr (.inr (.inl rfl)))
  have hya' : ∀ n ∈ a.inorder, n ≠ y := fun n hn => had n hn y (.inl rfl)
  have hab' : ∀ n ∈ a.inorder, h.rt y ≠ 0 → n ≠ h.rt y := fun n hn e => had n hn _ (.inr (.inl (ebx e)))
  have hP : ∀ n, (h.rt y ≠ 0 → n ≠ h.rt y) → (if h.rt y ≠ 0 then upd h.par (h.rt y) x else h.par) n = h.par n := by
    intro n hn; split
    · rename_i e; exact upd_ne (hn e)
    · rfl
  have hxP : (if h.rt y ≠ 0 then upd h.par (h.rt y) x else h.par) x = par := by rw [hP x (fun e e' => hxb' _ (ebx e) e'.symm)]; exact hpx
  refine ⟨_, rotateRight_eq h x y hx hy, ⟨⟨rfl, hy, ?_, ?_, ⟨?_, hx, ?_, ?_, ?_⟩⟩, by simpa [Tree.inorder] using hnd'⟩, ?_⟩
  · show upd (upd _ y _) x y y = par
    rw [upd_ne hyx, upd_same]; exact hxP
  · show Shape _ y (upd h.lf x (h.rt y) y) a
    rw [upd_ne hyx]
    exact ha.frame (fun n hn => ⟨by show upd (upd _ y _) x y n = _; rw [upd_ne (hxa' n hn), upd_ne (hya' n hn)]; exact hP n (hab' n hn), upd_ne (hxa' n hn), upd_ne (hya' n hn)⟩)
  · exact upd_same _ _ _
  · exact upd_same _ _ _
  · show Shape _ x (upd h.lf x (h.rt y) x) b
    rw [upd_same]
    refine hb.move hb1 (fun n hn => ⟨upd_ne (hxb' n hn), upd_ne (hyb' n hn), fun e => ?_⟩) (fun e => ?_)
    · show upd (upd _ y _) x y n = _; rw [upd_ne (hxb' n hn), upd_ne (hyb' n hn)]; exact hP n (fun _ => e)
    · show upd (upd _ y _) x y _ = _; rw [upd_ne (hxb' _ (ebx e)), upd_ne (hyb' _ (ebx e)), if_pos e, upd_same]
  · show Shape _ x (upd h.rt y x x) c
    rw [upd_ne (Ne.symm hyx)]
    exact hc.frame (fun n hn => ⟨by show upd (upd _ y _) x y n = _; rw [upd_ne (hxc' n hn), upd_ne (hyc' n hn)]; exact hP n (hcb' n hn), upd_ne (hxc' n hn), upd_ne (hyc' n hn)⟩)
  · intro n hn
    simp only [Tree.inorder, List.mem_append, List.mem_cons, not_or, List.append_assoc, List.cons_append] at hn
    exact ⟨by show upd (upd _ y _) x y n = _; rw [upd_ne hn.2.2.2.1, upd_ne hn.2.1]; exact hP n (fun e e' => hn.2.2.1 (e' ▸ ebx e)), upd_ne hn.2.2.2.1, upd_ne hn.2.1⟩

/-- the rotation about the two given links, as trees: `none` if the second is not a child of the first -/
def Tree.rotated (t : Tree) (leaf : Nat) : Option Tree := match t with
  | .node (.node a y b) x c => if y = leaf then some (.node a y (.node b x c)) else match c with
    | .node b' z c' => if z = leaf then some (.node (.node (.node a y b) x b') z c') else none
    | .nil => none
  | .node .nil x (.node b z c) => if z = leaf then some (.node (.node .nil x b) z c) else none
  | _ => none

/-- the root of a tree, 0 if it is empty -/
def Tree.top : Tree → Nat
  | .nil => 0
  | .node _ n _ => n
theorem Shape.top {h : Heap} {par p : Nat} {t : Tree} (hs : Shape h par p t) : p = t.top := by
  cases t with
  | nil => exact hs
  | node l n r => exact hs.1

/-- **C92**: `link_rotate` finds out itself which way to rotate: any child of the root becomes the root, the order of the links from left to right stays, and no other link changes. -/
theorem C92_rotate (h : Heap) (par p leaf : Nat) (t t' : Tree) (hh : Holds h par p t) (hr : t.rotated leaf = some t') :
    ∃ h', rotate h p leaf = .ok h' ∧ Holds h' par leaf t' ∧ t'.top = leaf ∧ t'.inorder = t.inorder ∧ Only h h' t.inorder := by
  have hp : p ≠ 0 := by cases t with
    | nil => simp [Tree.rotated] at hr
    | node l n r => obtain ⟨⟨rfl, h2, _⟩, _⟩ := hh; exact h2
  have hl : h.left p = .ok (h.lf p) := if_neg hp
  cases t with
  | nil => simp [Tree.rotated] at hr
  | node l x r =>
    obtain rfl : p = x := hh.shape.1
    have right : ∀ b z c, r = .node b z c → z = leaf → l.top ≠ leaf → ∃ h', rotate h p leaf = .ok h' ∧ Holds h' par leaf (.node (.node l p b) z c) ∧ z = leaf ∧
        (Tree.node (.node l p b) z c).inorder = (Tree.node l p r).inorder ∧ Only h h' (Tree.node l p r).inorder := by
      rintro b z c rfl rfl hne
      obtain ⟨h', h1, h2, h3⟩ := C92_rotate_left h par p p z l b c hh
      have e : h.lf p ≠ z := by rw [hh.shape.2.2.2.1.top]; exact hne
      refine ⟨h', ?_, h2, rfl, by simp [Tree.inorder], h3⟩
      rw [rotate, hl]; show (if h.lf p = z then _ else _) = _; rw [if_neg e]; exact h1
    cases l with
    | nil =>
      cases r with
      | nil => simp [Tree.rotated] at hr
      | node b z c =>
        simp only [Tree.rotated] at hr
        split at hr
        · rename_i e; cases hr
          obtain ⟨h', h1, h2, h3, h4, h5⟩ := right b z c rfl e (by
            have := hh.shape.2.2.2.2.2.1; show (0 : Nat) ≠ leaf; rw [← e]; exact Ne.symm this)
          exact ⟨h', h1, h2, h3, h4, h5⟩
        · cases hr
    | node a y b =>
      by_cases e : y = leaf
      · simp only [Tree.rotated, e, if_true] at hr; cases hr
        subst e
        obtain ⟨h', h1, h2, h3⟩ := C92_rotate_right h par p p y a b r hh
        have e' : h.lf p = y := hh.shape.2.2.2.1.1
        refine ⟨h', ?_, h2, rfl, by simp [Tree.inorder], h3⟩
        rw [rotate, hl]; show (if h.lf p = y then _ else _) = _; rw [if_pos e']; exact h1
      · cases r with
        | nil => simp [Tree.rotated, e] at hr
        | node b' z c' =>
          simp only [Tree.rotated, e, if_false] at hr
          split at hr
          · rename_i e'; cases hr
            obtain ⟨h', h1, h2, h3, h4, h5⟩ := right b' z c' rfl e' e
            exact ⟨h', h1, h2, h3, h4, h5⟩
          · cases hr

/-- the subtree at a path (`false` left, `true` right), and the tree with another one there -/
def Tree.sub : Tree → List Bool → Tree
  | t, [] => t
  | .nil, _ => .nil
  | .node l _ _, false :: ds => l.sub ds
  | .node _ _ r, true :: ds => r.sub ds
def Tree.replace : Tree → List Bool → Tree → Tree
  | _, [], s => s
  | .nil, _, _ => .nil
  | .node l n r, false :: ds, s => .node (l.replace ds s) n r
  | .node l n r, true :: ds, s => .node l n (r.replace ds s)
/-- the link above the subtree; `par` if it is the whole tree -/
def Tree.above (par : Nat) : Tree → List Bool → Nat
  | _, [] => par
  | .nil, _ => par
  | .node l n _, false :: ds => Tree.above n l ds
  | .node _ n r, true :: ds => Tree.above n r ds

theorem Shape.sub {h : Heap} : ∀ {t : Tree} {ds : List Bool} {par p : Nat}, Shape h par p t → t.sub ds ≠ .nil → Shape h (t.above par ds) (t.sub ds).top (t.sub ds)
  | t, [], par, p, hs, _ => by
    have : p = t.top := hs.top
    cases t <;> (simp only [Tree.sub, Tree.above]; rw [← this]; exact hs)
  | .nil, _ :: _, _, _, _, hn => absurd rfl hn
  | .node l n r, false :: ds, par, p, hs, hn => hs.2.2.2.1.sub (ds := ds) hn
  | .node l n r, true :: ds, par, p, hs, hn => hs.2.2.2.2.sub (ds := ds) hn
theorem sub_mem : ∀ {t : Tree} {ds : List Bool} {n : Nat}, n ∈ (t.sub ds).inorder → n ∈ t.inorder
  | t, [], n, h => by cases t <;> exact h
  | .nil, _ :: _, n, h => h
  | .node l m r, false :: ds, n, h => by simp [Tree.inorder, sub_mem (t := l) (ds := ds) h]
  | .node l m r, true :: ds, n, h => by simp [Tree.inorder, sub_mem (t := r) (ds := ds) h]
theorem sub_nodup : ∀ {t : Tree} {ds : List Bool}, t.inorder.Nodup → (t.sub ds).inorder.Nodup
  | t, [], h => by cases t <;> exact h
  | .nil, _ :: _, h => h
  | .node l m r, false :: ds, h => sub_nodup (t := l) (ds := ds) (List.nodup_append.1 h).1
  | .node l m r, true :: ds, h => sub_nodup (t := r) (ds := ds) (List.nodup_cons.1 (List.nodup_append.1 h).2.1).2
theorem replace_inorder : ∀ {t : Tree} {ds : List Bool} {s : Tree}, s.inorder = (t.sub ds).inorder → t.sub ds ≠ .nil → (t.replace ds s).inorder = t.inorder
  | t, [], s, h, _ => by cases t <;> exact h
  | .nil, _ :: _, s, h, hn => absurd rfl hn
  | .node l m r, false :: ds, s, h, hn => by simp only [Tree.replace, Tree.inorder]; rw [replace_inorder (t := l) (ds := ds) h hn]
  | .node l m r, true :: ds, s, h, hn => by simp only [Tree.replace, Tree.inorder]; rw [replace_inorder (t := r) (ds := ds) h hn]
theorem above_mem : ∀ {t : Tree} {ds : List Bool} {par : Nat}, t.sub ds ≠ .nil → ds ≠ [] → t.above par ds ∈ t.inorder
  | _, [], _, _, h => absurd rfl h
  | .nil, _ :: _, _, hn, _ => absurd rfl hn
  | .node l m r, [false], par, hn, _ => by cases l <;> simp [Tree.above, Tree.inorder]
  | .node l m r, [true], par, hn, _ => by cases r <;> simp [Tree.above, Tree.inorder]
  | .node l m r, false :: d :: ds, par, hn, _ => by
    have := above_mem (t := l) (ds := d :: ds) (par := m) hn (by simp)
    simp only [Tree.above, Tree.inorder, List.mem_append]; exact .inl this
  | .node l m r, true :: d :: ds, par, hn, _ => by
    have := above_mem (t := r) (ds := d :: ds) (par := m) hn (by simp)
    simp only [Tree.above, Tree.inorder, List.mem_append, List.mem_cons]; exact .inr (.inr this)

/-- what the memory is like after a subtree was replaced: the link above points to the new one on the proper side -/
structure Plugged (h h' : Heap) (t : Tree) (ds : List Bool) (par sp' : Nat) : Prop where
  pars : ∀ n ∈ t.inorder, n ∉ (t.sub ds).inorder → h'.par n = h.par n
  side : ∀ n ∈ t.inorder, n ∉ (t.sub ds).inorder → n ≠ t.above par ds → h'.lf n = h.lf n ∧ h'.rt n = h.rt n
  here : (ds.getLast? = some false → h'.lf (t.above par ds) = sp' ∧ h'.rt (t.above par ds) = h.rt (t.above par ds)) ∧
    (ds.getLast? = some true → h'.rt (t.above par ds) = sp' ∧ h'.lf (t.above par ds) = h.lf (t.above par ds))

theorem plug {h h' : Heap} {sp' : Nat} {s' : Tree} : ∀ {t : Tree} {ds : List Bool} {par p : Nat}, ds ≠ [] → Shape h par p t → t.inorder.Nodup → t.sub ds ≠ .nil → Plugged h h' t ds par sp' →
    Shape h' (t.above par ds) sp' s' → Shape h' par p (t.replace ds s')
  | _, [], _, _, hd, _, _, _, _, _ => absurd rfl hd
  | .nil, _ :: _, _, _, _, _, _, hn, _, _ => absurd rfl hn
  | .node l n r, [d], par, p, _, ⟨h1, h2, h3, h4, h5⟩, hnd, hn, hp, hs => by
    simp only [Tree.inorder, List.nodup_append, List.nodup_cons, List.mem_cons] at hnd
    obtain ⟨hl, ⟨hnr, hr⟩, hd⟩ := hnd
    cases d with
    | false =>
      have e : Tree.above par (.node l n r) [false] = n := by cases l <;> rfl
      have es : Tree.sub (.node l n r) [false] = l := by cases l <;> rfl
      have er : Tree.replace (.node l n r) [false] s' = .node s' n r := by cases l <;> rfl
      obtain ⟨q1, q2, q3, _⟩ := hp
      rw [e] at q3 hs q2; rw [es] at q1 q2
      have nl : n ∉ l.inorder := fun hm => hd n hm n (.inl rfl) rfl
      rw [er]
      refine ⟨h1, h2, by rw [q1 n (by simp [Tree.inorder]) nl]; exact h3, by rw [(q3 rfl).1]; exact hs, ?_⟩
      rw [(q3 rfl).2]
      exact h5.frame (fun m hm => by
        have hml : m ∉ l.inorder := fun hm' => hd m hm' m (.inr hm) rfl
        have := q2 m (by simp [Tree.inorder, hm]) hml (fun e => hnr (e ▸ hm))
        exact ⟨q1 m (by simp [Tree.inorder, hm]) hml, this.1, this.2⟩)
    | true =>
      have e : Tree.above par (.node l n r) [true] = n := by cases r <;> rfl
      have es : Tree.sub (.node l n r) [true] = r := by cases r <;> rfl
      have er : Tree.replace (.node l n r) [true] s' = .node l n s' := by cases r <;> rfl
      obtain ⟨q1, q2, _, q3⟩ := hp
      rw [e] at q3 hs q2; rw [es] at q1 q2
      rw [er]
      refine ⟨h1, h2, by rw [q1 n (by simp [Tree.inorder]) hnr]; exact h3, ?_, by rw [(q3 rfl).1]; exact hs⟩
      rw [(q3 rfl).2]
      exact h4.frame (fun m hm => by
        have hml : m ∉ r.inorder := fun hm' => hd m hm m (.inr hm') rfl
        have := q2 m (by simp [Tree.inorder, hm]) hml (hd m hm n (.inl rfl))
        exact ⟨q1 m (by simp [Tree.inorder, hm]) hml, this.1, this.2⟩)
  | .node l n r, false :: d :: ds, par, p, _, ⟨h1, h2, h3, h4, h5⟩, hnd, hn, hp, hs => by
    simp only [Tree.inorder, List.nodup_append, List.nodup_cons, List.mem_cons] at hnd
    obtain ⟨hl, ⟨hnr, hr⟩, hd⟩ := hnd
    obtain ⟨q1, q2, q3⟩ := hp
    simp only [Tree.sub, Tree.above, List.getLast?_cons_cons] at q1 q2 q3 hs hn
    have ha := above_mem (t := l) (ds := d :: ds) (par := n) hn (by simp)
    have hs' : ∀ m, m ∈ (l.sub (d :: ds)).inorder → m ∈ l.inorder := fun m => sub_mem
    have ns : n ∉ (l.sub (d :: ds)).inorder := fun hm => hd n (hs' n hm) n (.inl rfl) rfl
    have hq := q2 n (by simp [Tree.inorder]) ns (fun e => hd _ ha n (.inl rfl) e.symm)
    refine ⟨h1, h2, by rw [q1 n (by simp [Tree.inorder]) ns]; exact h3, ?_, ?_⟩
    · rw [hq.1]
      exact plug (by simp) h4 hl hn ⟨fun m hm => q1 m (by simp [Tree.inorder, hm]), fun m hm => q2 m (by simp [Tree.inorder, hm]), q3⟩ hs
    · rw [hq.2]
      exact h5.frame (fun m hm => by
        have hml : m ∉ (l.sub (d :: ds)).inorder := fun hm' => hd m (hs' m hm') m (.inr hm) rfl
        have := q2 m (by simp [Tree.inorder, hm]) hml (fun e => hd _ ha m (.inr hm) e.symm)
        exact ⟨q1 m (by simp [Tree.inorder, hm]) hml, this.1, this.2⟩)
  | .node l n r, true :: d :: ds, par, p, _, ⟨h1, h2, h3, h4, h5⟩, hnd, hn, hp, hs => by
    simp only [Tree.inorder, List.nodup_append, List.nodup_cons, List.mem_cons] at hnd
    obtain ⟨hl, ⟨hnr, hr⟩, hd⟩ := hnd
    obtain ⟨q1, q2, q3⟩ := hp
    simp only [Tree.sub, Tree.above, List.getLast?_cons_cons] at q1 q2 q3 hs hn
    have ha := above_mem (t := r) (ds := d :: ds) (par := n) hn (by simp)
    have hs' : ∀ m, m ∈ (r.sub (d :: ds)).inorder → m ∈ r.inorder := fun m => sub_mem
    have ns : n ∉ (r.sub (d :: ds)).inorder := fun hm => hnr (hs' n hm)
    have hq := q2 n (by simp [Tree.inorder]) ns (fun e => hnr (e ▸ ha))
    refine ⟨h1, h2, by rw [q1 n (by simp [Tree.inorder]) ns]; exact h3, ?_, ?_⟩
    · rw [hq.1]
      exact h4.frame (fun m hm => by
        have hml : m ∉ (r.sub (d :: ds)).inorder := fun hm' => hd m hm m (.inr (hs' m hm')) rfl
        have := q2 m (by simp [Tree.inorder, hm]) hml (fun e => hd m hm _ (.inr ha) e)
        exact ⟨q1 m (by simp [Tree.inorder, hm]) hml, this.1, this.2⟩)
    · rw [hq.2]
      exact plug (by simp) h5 hr hn ⟨fun m hm => q1 m (by simp [Tree.inorder, hm]), fun m hm => q2 m (by simp [Tree.inorder, hm]), q3⟩ hs

/-- where the link above points before -/
theorem above_child {h : Heap} : ∀ {t : Tree} {ds : List Bool} {par p : Nat}, ds ≠ [] → Shape h par p t → t.inorder.Nodup → t.sub ds ≠ .nil →
    t.above par ds ∉ (t.sub ds).inorder ∧ (h.lf (t.above par ds) = (t.sub ds).top ↔ ds.getLast? = some false)
  | _, [], _, _, hd, _, _, _ => absurd rfl hd
  | .nil, _ :: _, _, _, _, _, _, hn => absurd rfl hn
  | .node l n r, [d], par, p, _, ⟨h1, h2, h3, h4, h5⟩, hnd, hn => by
    simp only [Tree.inorder, List.nodup_append, List.nodup_cons, List.mem_cons] at hnd
    obtain ⟨hl, ⟨hnr, hr⟩, hd⟩ := hnd
    cases d with
    | false =>
      have e : Tree.above par (.node l n r) [false] = n := by cases l <;> rfl
      have es : Tree.sub (.node l n r) [false] = l := by cases l <;> rfl
      rw [e, es]; exact ⟨fun hm => hd n hm n (.inl rfl) rfl, by rw [← h4.top]; simp⟩
    | true =>
      have e : Tree.above par (.node l n r) [true] = n := by cases r <;> rfl
      have es : Tree.sub (.node l n r) [true] = r := by cases r <;> rfl
      rw [es] at hn
      rw [e, es]
      refine ⟨hnr, ⟨fun e' => ?_, fun e' => by simp at e'⟩⟩
      exfalso
      have htop : r.top ∈ r.inorder ∧ r.top ≠ 0 := by
        cases r with
        | nil => exact absurd rfl hn
        | node a m b => exact ⟨by simp [Tree.top, Tree.inorder], h5.2.1⟩
      rw [← e'] at htop
      exact hd _ (h4.root htop.2).1 _ (.inr htop.1) rfl
  | .node l n r, false :: d :: ds, par, p, _, ⟨h1, h2, h3, h4, h5⟩, hnd, hn => by
    simp only [Tree.sub, Tree.above, List.getLast?_cons_cons] at hn ⊢
    exact above_child (by simp) h4 (List.nodup_append.1 hnd).1 hn
  | .node l n r, true :: d :: ds, par, p, _, ⟨h1, h2, h3, h4, h5⟩, hnd, hn => by
    simp only [Tree.sub, Tree.above, List.getLast?_cons_cons] at hn ⊢
    exact above_child (by simp) h5 (List.nodup_cons.1 (List.nodup_append.1 hnd).2.1).2 hn

theorem rotated_ne {t t' : Tree} {leaf : Nat} (h : t.rotated leaf = some t') : t ≠ .nil := by rintro rfl; simp [Tree.rotated] at h

/-- **C92**: a rotation anywhere in a tree, with the link above set to the new child: the whole tree stands in memory with that subtree rotated, and the order of its links from left to right is the same. -/
theorem C92_rotate_in (h : Heap) (root leaf : Nat) (t s' : Tree) (ds : List Bool) (hh : Holds h 0 root t) (hr : (t.sub ds).rotated leaf = some s') :
    ∃ h' root', rotateIn h root (t.sub ds).top leaf = .ok (h', root') ∧ Holds h' 0 root' (t.replace ds s') ∧ (t.replace ds s').inorder = t.inorder ∧ Only h h' t.inorder := by
  have hn := rotated_ne hr
  have hsub := hh.shape.sub (ds := ds) hn
  have hp0 : (t.sub ds).top ≠ 0 := by
    revert hsub hn; cases t.sub ds with
    | nil => intro h; exact absurd rfl h
    | node a m b => intro _ hs; exact hs.2.1
  have hpar : h.par (t.sub ds).top = t.above 0 ds := (hsub.root hp0).2
  obtain ⟨h1, e1, e2, etop, e3, e4⟩ := C92_rotate h _ _ leaf _ _ ⟨hsub, sub_nodup hh.nodup⟩ hr
  have hin : (t.replace ds s').inorder = t.inorder := replace_inorder e3 hn
  have hnd' : (t.replace ds s').inorder.Nodup := hin ▸ hh.nodup
  by_cases hds : ds = []
  · subst hds
    have es : t.sub [] = t := by cases t <;> rfl
    have er : t.replace [] s' = s' := by cases t <;> rfl
    have ea : t.above 0 [] = 0 := by cases t <;> rfl
    rw [es] at e1 e4 hpar hp0; rw [ea] at e2 hpar; rw [es, er]; rw [er] at hin
    refine ⟨h1, leaf, ?_, e2, hin, e4⟩
    rw [rotateIn]; show (h.parent t.top >>= _) = _
    rw [show h.parent t.top = .ok 0 by rw [Heap.parent, if_neg hp0, hpar]]
    show (rotate h t.top leaf >>= _) = _
    rw [e1]; rfl
  · have hg := above_mem (par := 0) hn hds
    have hg0 : t.above 0 ds ≠ 0 := hh.shape.nz _ hg
    obtain ⟨ac1, ac2⟩ := above_child hds hh.shape hh.nodup hn
    have hl0 : leaf ≠ 0 := by
      cases s' with
      | nil =>
        have := congrArg List.length e3
        revert hn this; cases t.sub ds with
        | nil => intro h; exact absurd rfl h
        | node a m b => intro _ h; simp [Tree.inorder] at h
      | node a m b => exact fun e => e2.shape.2.1 (by rw [← etop] at e; exact e)
    have hlf : h1.lf (t.above 0 ds) = h.lf (t.above 0 ds) := (e4 _ ac1).2.1
    have hleaf : leaf ∈ (t.sub ds).inorder := by
      rw [← e3, ← etop]; cases s' with
      | nil => exact absurd etop.symm hl0
      | node a m b => simp [Tree.top, Tree.inorder]
    have hlp : h1.par leaf = t.above 0 ds := (e2.shape.root hl0).2
    have start : ∀ k : Heap → Res (Heap × Nat), (rotateIn h root (t.sub ds).top leaf) = (do
        let l ← h1.left (t.above 0 ds)
        let h ← if l = (t.sub ds).top then linkLeft h1 (t.above 0 ds) leaf else linkRight h1 (t.above 0 ds) leaf
        .ok (h, root)) := by
      intro _
      rw [rotateIn]; show (h.parent _ >>= _) = _
      rw [show h.parent (t.sub ds).top = .ok (t.above 0 ds) by rw [Heap.parent, if_neg hp0, hpar]]
      show (rotate h _ leaf >>= _) = _
      rw [e1]; show (if t.above 0 ds = 0 then _ else _) = _; rw [if_neg hg0]
    have hpu : upd h1.par leaf (t.above 0 ds) = h1.par := by funext n; by_cases e : n = leaf <;> simp [upd, e, hlp]
    by_cases hlast : ds.getLast? = some false
    · refine ⟨⟨h1.par, upd h1.lf (t.above 0 ds) leaf, h1.rt⟩, root, ?_, ⟨plug hds hh.shape hh.nodup hn (sp' := leaf) ⟨?_, ?_, ?_, ?_⟩ ?_, hnd'⟩, hin, ?_⟩
      · rw [start (fun h => .ok (h, root))]
        show (h1.left _ >>= _) = _
        rw [show h1.left (t.above 0 ds) = .ok (h.lf (t.above 0 ds)) by rw [Heap.left, if_neg hg0, hlf]]
        show (if h.lf (t.above 0 ds) = (t.sub ds).top then (linkLeft h1 (t.above 0 ds) leaf >>= fun h => .ok (h, root)) else (linkRight h1 (t.above 0 ds) leaf >>= fun h => .ok (h, root))) = _
        rw [if_pos (ac2.2 hlast)]
        simp [linkLeft, hg0, hl0, Heap.setLeft, Heap.setParent, bind, Except.bind, hpu]
      · intro n _ hns; exact (e4 n hns).1
      · intro n _ hns hne; exact ⟨by show upd _ _ _ n = _; rw [upd_ne hne]; exact (e4 n hns).2.1, (e4 n hns).2.2⟩
      · intro _; exact ⟨upd_same _ _ _, (e4 _ ac1).2.2⟩
      · intro e; rw [hlast] at e; simp at e
      · exact e2.shape.frame (fun n hm => ⟨rfl, upd_ne (fun e => ac1 (by rw [← e, ← e3]; exact hm)), rfl⟩)
      · intro n hm
        have hns : n ∉ (t.sub ds).inorder := fun h' => hm (sub_mem h')
        exact ⟨(e4 n hns).1, by show upd _ _ _ n = _; rw [upd_ne (fun e : n = t.above 0 ds => hm (by rw [e]; exact hg))]; exact (e4 n hns).2.1, (e4 n hns).2.2⟩
    · refine ⟨⟨h1.par, h1.lf, upd h1.rt (t.above 0 ds) leaf⟩, root, ?_, ⟨plug hds hh.shape hh.nodup hn (sp' := leaf) ⟨?_, ?_, ?_, ?_⟩ ?_, hnd'⟩, hin, ?_⟩
      · rw [start (fun h => .ok (h, root))]
        show (h1.left _ >>= _) = _
        rw [show h1.left (t.above 0 ds) = .ok (h.lf (t.above 0 ds)) by rw [Heap.left, if_neg hg0, hlf]]
        show (if h.lf (t.above 0 ds) = (t.sub ds).top then (linkLeft h1 (t.above 0 ds) leaf >>= fun h => .ok (h, root)) else (linkRight h1 (t.above 0 ds) leaf >>= fun h => .ok (h, root))) = _
        rw [if_neg (fun e => hlast (ac2.1 e))]
        simp [linkRight, hg0, hl0, Heap.setRight, Heap.setParent, bind, Except.bind, hpu]
      · intro n _ hns; exact (e4 n hns).1
      · intro n _ hns hne; exact ⟨(e4 n hns).2.1, by show upd _ _ _ n = _; rw [upd_ne hne]; exact (e4 n hns).2.2⟩
      · intro e; exact absurd e hlast
      · intro _; exact ⟨upd_same _ _ _, (e4 _ ac1).2.1⟩
      · exact e2.shape.frame (fun n hm => ⟨rfl, rfl, upd_ne (fun e => ac1 (by rw [← e, ← e3]; exact hm))⟩)
      · intro n hm
        have hns : n ∉ (t.sub ds).inorder := fun h' => hm (sub_mem h')
        exact ⟨(e4 n hns).1, (e4 n hns).2.1, by show upd _ _ _ n = _; rw [upd_ne (fun e : n = t.above 0 ds => hm (by rw [e]; exact hg))]; exact (e4 n hns).2.2⟩

/-- a user's rotations one after the other; each is given by the two links -/
def rotations (h : Heap) (root : Nat) : List (Nat × Nat) → Res (Heap × Nat)
  | [] => .ok (h, root)
  | (x, y) :: l => do
    let (h, root) ← rotateIn h root x y
    rotations h root l
/-- the trees a sequence of rotations passes through: each rotates a link and one of its children -/
inductive Path : Tree → List (Nat × Nat) → Tree → Prop
  | done (t : Tree) : Path t [] t
  | step (t s' u : Tree) (ds : List Bool) (leaf : Nat) (l : List (Nat × Nat)) (hr : (t.sub ds).rotated leaf = some s') (rest : Path (t.replace ds s') l u) : Path t (((t.sub ds).top, leaf) :: l) u

/-- **C92**: any history of rotations, each of a link with one of its children, keeps a tree in memory with the same links in the same order from left to right. -/
theorem C92_history (h : Heap) (root : Nat) (t u : Tree) (l : List (Nat × Nat)) (hh : Holds h 0 root t) (hp : Path t l u) :
    ∃ h' root', rotations h root l = .ok (h', root') ∧ Holds h' 0 root' u ∧ u.inorder = t.inorder ∧ Only h h' t.inorder := by
  induction hp generalizing h root with
  | done t => exact ⟨h, root, rfl, hh, rfl, fun _ _ => ⟨rfl, rfl, rfl⟩⟩
  | step t s' u ds leaf l hr rest ih =>
    obtain ⟨h1, r1, e1, e2, e3, e4⟩ := C92_rotate_in h root leaf t s' ds hh hr
    obtain ⟨h2, r2, f1, f2, f3, f4⟩ := ih h1 r1 e2
    refine ⟨h2, r2, by rw [rotations, e1]; exact f1, f2, f3.trans e3, fun n hn => ?_⟩
    have a := e4 n hn; have b := f4 n (by rw [e3]; exact hn)
    exact ⟨b.1.trans a.1, b.2.1.trans a.2.1, b.2.2.trans a.2.2⟩

/-- **C92**: `link_left` hangs a tree under a link that has no left child; nothing else changes. -/
theorem C92_link_left (h : Heap) (par p x q q0 : Nat) (r s : Tree) (hx : Holds h par p (.node .nil x r)) (hs : Holds h q0 q s) (hd : ∀ n ∈ s.inorder, n ≠ x ∧ n ∉ r.inorder) :
    ∃ h', linkLeft h x q = .ok h' ∧ Holds h' par p (.node s x r) ∧ Only h h' (x :: s.inorder) := by
  obtain ⟨⟨rfl, h2, h3, h4, h5⟩, hnd⟩ := hx
  simp only [Tree.inorder, List.nil_append, List.nodup_cons] at hnd
  have hq : q ≠ 0 → q ∈ s.inorder := fun e => (hs.shape.root e).1
  have nd' : (Tree.node s p r).inorder.Nodup := by
    simp only [Tree.inorder, List.nodup_append, List.nodup_cons, List.mem_cons]
    exact ⟨hs.nodup, hnd, fun a ha b hb e => by
      rcases hb with rfl | hb
      · exact (hd a ha).1 e
      · exact (hd a ha).2 (e ▸ hb)⟩
  refine ⟨⟨if q ≠ 0 then upd h.par q p else h.par, upd h.lf p q, h.rt⟩, ?_, ⟨⟨rfl, h2, ?_, ?_, ?_⟩, nd'⟩, ?_⟩
  · by_cases e : q = 0 <;> simp [linkLeft, h2, e, Heap.setLeft, Heap.setParent, bind, Except.bind]
  · show (if q ≠ 0 then upd h.par q p else h.par) p = par
    split
    · rename_i e; rw [upd_ne (Ne.symm (hd q (hq e)).1)]; exact h3
    · exact h3
  · show Shape _ p (upd h.lf p q p) s
    rw [upd_same]
    refine hs.shape.move hs.nodup (fun n hn => ⟨upd_ne (hd n hn).1, rfl, fun e => ?_⟩) (fun e => ?_)
    · show (if q ≠ 0 then upd h.par q p else h.par) n = _
      split
      · exact upd_ne e
      · rfl
    · show (if q ≠ 0 then upd h.par q p else h.par) q = _
      rw [if_pos e, upd_same]
  · refine h5.frame (fun n hn => ⟨?_, upd_ne (fun e => hnd.1 (e ▸ hn)), rfl⟩)
    show (if q ≠ 0 then upd h.par q p else h.par) n = _
    split
    · rename_i e; exact upd_ne (fun e' => (hd q (hq e)).2 (e' ▸ hn))
    · rfl
  · intro n hn; simp only [List.mem_cons, not_or] at hn
    refine ⟨?_, upd_ne hn.1, rfl⟩
    show (if q ≠ 0 then upd h.par q p else h.par) n = _
    split
    · rename_i e; exact upd_ne (fun e' => hn.2 (e' ▸ hq e))
    · rfl

/-- **C92**: `link_right` hangs a tree under a link that has no right child; nothing else changes. -/
theorem C92_link_right (h : Heap) (par p x q q0 : Nat) (l s : Tree) (hx : Holds h par p (.node l x .nil)) (hs : Holds h q0 q s) (hd : ∀ n ∈ s.inorder, n ≠ x ∧ n ∉ l.inorder) :
    ∃ h', linkRight h x q = .ok h' ∧ Holds h' par p (.node l x s) ∧ Only h h' (x :: s.inorder) := by
  obtain ⟨⟨rfl, h2, h3, h4, h5⟩, hnd⟩ := hx
  simp only [Tree.inorder, List.nodup_append, List.nodup_cons, List.mem_cons, List.not_mem_nil, or_false, forall_eq] at hnd
  have hq : q ≠ 0 → q ∈ s.inorder := fun e => (hs.shape.root e).1
  have nd' : (Tree.node l p s).inorder.Nodup := by
    simp only [Tree.inorder, List.nodup_append, List.nodup_cons, List.mem_cons]
    exact ⟨hnd.1, ⟨fun hm => (hd p hm).1 rfl, hs.nodup⟩, fun a ha b hb e => by
      rcases hb with rfl | hb
      · exact hnd.2.2 a ha e
      · exact (hd b hb).2 (e ▸ ha)⟩
  refine ⟨⟨if q ≠ 0 then upd h.par q p else h.par, h.lf, upd h.rt p q⟩, ?_, ⟨⟨rfl, h2, ?_, ?_, ?_⟩, nd'⟩, ?_⟩
  · by_cases e : q = 0 <;> simp [linkRight, h2, e, Heap.setRight, Heap.setParent, bind, Except.bind]
  · show (if q ≠ 0 then upd h.par q p else h.par) p = par
    split
    · rename_i e; rw [upd_ne (Ne.symm (hd q (hq e)).1)]; exact h3
    · exact h3
  · refine h4.frame (fun n hn => ⟨?_, rfl, upd_ne (hnd.2.2 n hn)⟩)
    show (if q ≠ 0 then upd h.par q p else h.par) n = _
    split
    · rename_i e; exact upd_ne (fun e' => (hd q (hq e)).2 (e' ▸ hn))
    · rfl
  · show Shape _ p (upd h.rt p q p) s
    rw [upd_same]
    refine hs.shape.move hs.nodup (fun n hn => ⟨rfl, upd_ne (hd n hn).1, fun e => ?_⟩) (fun e => ?_)
    · show (if q ≠ 0 then upd h.par q p else h.par) n = _
      split
      · exact upd_ne e
      · rfl
    · show (if q ≠ 0 then upd h.par q p else h.par) q = _
      rw [if_pos e, upd_same]
  · intro n hn; simp only [List.mem_cons, not_or] at hn
    refine ⟨?_, rfl, upd_ne hn.1⟩
    show (if q ≠ 0 then upd h.par q p else h.par) n = _
    split
    · rename_i e; exact upd_ne (fun e' => hn.2 (e' ▸ hq e))
    · rfl

/-- **C92**: `mirror` exchanges the two subtrees of a link. -/
theorem C92_mirror (h : Heap) (par p n : Nat) (l r : Tree) (hh : Holds h par p (.node l n r)) :
    ∃ h', mirror h n = .ok h' ∧ Holds h' par p (.node r n l) ∧ Only h h' [n] := by
  obtain ⟨⟨rfl, h2, h3, h4, h5⟩, hnd⟩ := hh
  simp only [Tree.inorder, List.nodup_append, List.nodup_cons, List.mem_cons] at hnd
  obtain ⟨hl, ⟨hnr, hr⟩, hd⟩ := hnd
  have nd' : (Tree.node r p l).inorder.Nodup := by
    simp only [Tree.inorder, List.nodup_append, List.nodup_cons, List.mem_cons]
    exact ⟨hr, ⟨fun hm => hd p hm p (.inl rfl) rfl, hl⟩, fun a ha b hb e => by
      rcases hb with rfl | hb
      · exact hnr (e ▸ ha)
      · exact hd b hb a (.inr ha) e.symm⟩
  refine ⟨⟨h.par, upd h.lf p (h.rt p), upd h.rt p (h.lf p)⟩, ?_, ⟨⟨rfl, h2, h3, ?_, ?_⟩, nd'⟩, ?_⟩
  · simp [mirror, h2, Heap.left, Heap.right, Heap.setLeft, Heap.setRight, bind, Except.bind]
  · show Shape _ p (upd h.lf p (h.rt p) p) r
    rw [upd_same]; exact h5.frame (fun m hm => ⟨rfl, upd_ne (fun e => hnr (e ▸ hm)), upd_ne (fun e => hnr (e ▸ hm))⟩)
  · show Shape _ p (upd h.rt p (h.lf p) p) l
    rw [upd_same]; exact h4.frame (fun m hm => ⟨rfl, upd_ne (hd m hm p (.inl rfl)), upd_ne (hd m hm p (.inl rfl))⟩)
  · intro m hm; simp only [List.mem_singleton] at hm; exact ⟨rfl, upd_ne hm, upd_ne hm⟩

/-- **C92**: `clear` takes all links away from one link, `is_linked` answers whether it has any. -/
theorem C92_clear (h : Heap) (n : Nat) (hn : n ≠ 0) : (∃ h', clear h n = .ok h' ∧ isLinked h' n = .ok false ∧ Only h h' [n]) ∧
    ∃ b, isLinked h n = .ok b ∧ (b = true ↔ h.par n ≠ 0 ∨ h.lf n ≠ 0 ∨ h.rt n ≠ 0) := by
  refine ⟨⟨⟨upd h.par n 0, upd h.lf n 0, upd h.rt n 0⟩, ?_, ?_, ?_⟩, ⟨_, by simp [isLinked, hn, Heap.parent, Heap.left, Heap.right, bind, Except.bind]; rfl, by simp [or_assoc]⟩⟩
  · simp [clear, hn, Heap.setParent, Heap.setLeft, Heap.setRight, bind, Except.bind]
  · simp [isLinked, hn, Heap.parent, Heap.left, Heap.right, bind, Except.bind]
  · intro m hm; simp only [List.mem_singleton] at hm; exact ⟨upd_ne hm, upd_ne hm, upd_ne hm⟩

/-- **C92**: a rotation with a null pointer does nothing; the overloads for pointers are otherwise those for references. -/
theorem C92_null (h : Heap) (x y : Nat) : (x = 0 ∨ y = 0 → rotateP h x y = .ok h ∧ rotateLeftP h x y = .ok h ∧ rotateRightP h x y = .ok h) ∧
    (x ≠ 0 → y ≠ 0 → rotateP h x y = rotate h x y ∧ rotateLeftP h x y = rotateLeft h x y ∧ rotateRightP h x y = rotateRight h x y) := by
  constructor
  · rintro (rfl | rfl) <;> simp [rotateP, rotateLeftP, rotateRightP]
  · intro hx hy; simp [rotateP, rotateLeftP, rotateRightP, hx, hy]

/-! ## Findings -/

/-- **Finding** (C92): a rotation leaves the link above as it is: it still points to the old child, whose parent is now another link.  The caller has to set it (`C92_rotate_in`). -/
theorem C92_link_above : ∃ (h h' : Heap), Holds h 0 9 (.node (.node (.node .nil 1 .nil) 2 .nil) 9 .nil) ∧ rotate h 2 1 = .ok h' ∧ h'.lf 9 = 2 ∧ h'.par 2 = 1 ∧ ¬ ∃ t, Holds h' 0 9 t :=
  ⟨⟨fun n => if n = 1 then 2 else if n = 2 then 9 else 0, fun n => if n = 9 then 2 else if n = 2 then 1 else 0, fun _ => 0⟩, _,
    ⟨⟨rfl, by decide, rfl, ⟨rfl, by decide, rfl, ⟨rfl, by decide, rfl, rfl, rfl⟩, rfl⟩, rfl⟩, by decide⟩, rfl, rfl, rfl, by
      rintro ⟨t, ht⟩
      cases t with
      | nil => have e : (9 : Nat) = 0 := ht.shape; omega
      | node l n r =>
        obtain ⟨rfl, _, _, h4, _⟩ := ht.shape
        cases l with
        | nil => have e : (2 : Nat) = 0 := h4; omega
        | node a m b => obtain ⟨e, _, h5, _⟩ := h4; have e : 2 = m := e; subst e; have h6 : (1 : Nat) = 9 := h5; omega⟩

/-! ## Examples -/

/-- `4(2(1, 3), 5)` -/
def exTree : Tree := .node (.node (.node .nil 1 .nil) 2 (.node .nil 3 .nil)) 4 (.node .nil 5 .nil)
def exHeap : Heap := ⟨fun n => [0, 2, 4, 2, 0, 4].getD n 0, fun n => [0, 0, 1, 0, 2, 0].getD n 0, fun n => [0, 0, 3, 0, 5, 0].getD n 0⟩
theorem ex_holds : Holds exHeap 0 4 exTree :=
  ⟨⟨rfl, by decide, rfl, ⟨rfl, by decide, rfl, ⟨rfl, by decide, rfl, rfl, rfl⟩, ⟨rfl, by decide, rfl, rfl, rfl⟩⟩, ⟨rfl, by decide, rfl, rfl, rfl⟩⟩, by decide⟩
/-- 2 with its right child 3 below 4, then 4 with its left child 3: two rotations -/
example : ∃ u, Path exTree [(2, 3), (4, 3)] u ∧ u.top = 3 :=
  ⟨_, .step exTree _ _ [false] 3 [(4, 3)] rfl (.step _ _ _ [] 3 [] rfl (.done _)), rfl⟩
example : ∃ h' root', rotations exHeap 4 [(2, 3), (4, 3)] = .ok (h', root') ∧ root' = 3 ∧ h'.lf 3 = 2 ∧ h'.rt 3 = 4 := ⟨_, _, rfl, rfl, rfl, rfl⟩

end Etl.TreeLink
