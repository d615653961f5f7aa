import Verif.Common.Links
import Mathlib.Tactic.Set

/-!
# The in-place merge sort (S. Tatham) of the linked lists

`ilist::sort`, `/repo/include/etl/list.h` l.1679-1790; `intrusive_list::sort`, `/repo/include/etl/intrusive_list.h` l.897-999.  The two bodies are the same
up to the names `join` / `etl::link`.  `t` is the terminal node (`end()`), `cmp` is `compare(*a, *b)` on nodes (it may hit a dead object).
Simplification: the `int` counters are unbounded (the code would overflow `list_size` for lists of more than 2^30 elements).
-/
namespace Etl.Links

/-- The `for` loop "Step 'list_size' places along from left". -/
def stepAlong (h : Links) (t right left_size : Nat) : Nat → Res (Nat × Nat)
  | 0 => .ok (right, left_size)
  | n + 1 => do
    let r ← h.next right
    if r = t then .ok (r, left_size + 1) else stepAlong h t r (left_size + 1) n

/-- The variables of the merge loop. -/
structure Mst where
  h : Links
  left : Nat
  right : Nat
  ls : Nat      -- left_size
  rs : Nat      -- right_size
  head : Nat
  tail : Nat

/-- "Add the next node to the merged head." -/
def addNode (t : Nat) (m : Mst) (node : Nat) : Res Mst := do
  let m ← (if m.head = t then do
      let h ← m.h.join m.head node
      .ok { m with h := h, head := node, tail := node }
    else do
      let h ← m.h.join m.tail node
      .ok { m with h := h, tail := node } : Res Mst)
  let h ← m.h.join m.tail t
  .ok { m with h := h }

/-- `i_node = i_left++; --left_size;` -/
def takeLeft (t : Nat) (m : Mst) : Res Mst := do
  let nxt ← m.h.next m.left
  addNode t { m with left := nxt, ls := m.ls - 1 } m.left

/-- `i_node = i_right++; --right_size;` -/
def takeRight (t : Nat) (m : Mst) : Res Mst := do
  let nxt ← m.h.next m.right
  addNode t { m with right := nxt, rs := m.rs - 1 } m.right

/-- "Now we have two lists. Merge them." -/
def mergeLoop (cmp : Nat → Nat → Res Bool) (t : Nat) : Nat → Mst → Res Mst
  | 0, m => if m.ls > 0 ∨ (m.rs > 0 ∧ m.right ≠ t) then .error .diverge else .ok m
  | k + 1, m =>
    if m.ls > 0 ∨ (m.rs > 0 ∧ m.right ≠ t) then
      if m.ls = 0 then do
        let m ← takeRight t m
        mergeLoop cmp t k m
      else if m.rs = 0 ∨ m.right = t then do
        let m ← takeLeft t m
        mergeLoop cmp t k m
      else do
        let c ← cmp m.right m.left
        if !c then do
          let m ← takeLeft t m
          mergeLoop cmp t k m
        else do
          let m ← takeRight t m
          mergeLoop cmp t k m
    else .ok m

/-- One pass: `while (i_left != end())`; returns the heap and `number_of_merges`. -/
def passLoop (cmp : Nat → Nat → Res Bool) (t size : Nat) : Nat → Links → (left head tail merges : Nat) → Res (Links × Nat)
  | 0, h, left, _, _, merges => if left ≠ t then .error .diverge else .ok (h, merges)
  | k + 1, h, left, head, tail, merges =>
    if left ≠ t then do
      let (right, ls) ← stepAlong h t left 0 size
      let m ← mergeLoop cmp t (ls + size) { h := h, left := left, right := right, ls := ls, rs := size, head := head, tail := tail }
      passLoop cmp t size k m.h m.right m.head m.tail (merges + 1)
    else .ok (h, merges)

/-- The outer `while (true)`. -/
def sortLoop (cmp : Nat → Nat → Res Bool) (t : Nat) : Nat → Nat → Links → Res Links
  | 0, _, _ => .error .diverge
  | k + 1, size, h => do
    let first ← h.next t
    let (h, merges) ← passLoop cmp t size (h.lim + 1) h first t t 0
    if merges ≤ 1 then .ok h else sortLoop cmp t k (size * 2) h

/-- `sort(compare)` after the `is_trivial_list()` test. -/
def sortLinks (cmp : Nat → Nat → Res Bool) (t : Nat) (h : Links) : Res Links := sortLoop cmp t (h.lim + 1) 1 h

/-! ## What one merge does -/

variable {cmp : Nat → Nat → Res Bool} {lt : Nat → Nat → Bool} {t : Nat}

/-- State of the merge loop: `out` merged so far, `L` and `R` still to be merged, `rest` untouched. -/
structure MInv (lt : Nat → Nat → Bool) (cmp : Nat → Nat → Res Bool) (lim : Nat) (h0 : Links) (t : Nat) (m : Mst) (out L R rest : List Nat) : Prop where
  lim : m.h.lim = lim
  nd : (t :: (out ++ (L ++ (R ++ rest)))).Nodup
  ok : ∀ x ∈ t :: (out ++ (L ++ (R ++ rest))), m.h.valid x
  cmp : ∀ x ∈ out ++ (L ++ (R ++ rest)), ∀ y ∈ out ++ (L ++ (R ++ rest)), cmp x y = .ok (lt x y)
  head : m.head = t ↔ out = []
  tail : m.tail = (t :: out).getLast (by simp)
  ch : Ch m.h (t :: out)
  close : out ≠ [] → m.h.nx m.tail = t ∧ m.h.pv t = m.tail
  fl : Fw m.h L
  left : ∀ x, L.head? = some x → m.left = x
  ls : m.ls = L.length
  fr : Fw m.h (R ++ rest ++ [t])
  right : (R ++ rest ++ [t]).head? = some m.right
  rs : R.length ≤ m.rs
  rs' : R.length = m.rs ∨ rest = []
  frm : ∀ x, x ∉ t :: (out ++ (L ++ (R ++ rest))) → m.h.nx x = h0.nx x ∧ m.h.pv x = h0.pv x

theorem getLast_cons_concat (t : Nat) (l : List Nat) (x : Nat) (h : t :: (l ++ [x]) ≠ []) : (t :: (l ++ [x])).getLast h = x := by
  rw [List.getLast_cons (by simp)]; simp

theorem addNode_ok {lim : Nat} {m : Mst} {out : List Nat} {n : Nat} (hl : m.h.lim = lim) (hnd : (t :: (out ++ [n])).Nodup)
    (hok : ∀ x ∈ t :: (out ++ [n]), m.h.valid x) (hh : m.head = t ↔ out = []) (ht : m.tail = (t :: out).getLast (by simp)) (hc : Ch m.h (t :: out)) :
    ∃ m', addNode t m n = .ok m' ∧ m'.left = m.left ∧ m'.right = m.right ∧ m'.ls = m.ls ∧ m'.rs = m.rs ∧ m'.tail = n ∧ m'.head ≠ t ∧ m'.h.lim = lim ∧
      Ch m'.h (t :: (out ++ [n])) ∧ m'.h.nx n = t ∧ m'.h.pv t = n ∧ (∀ x, x ∉ t :: (out ++ [n]) → m'.h.nx x = m.h.nx x) ∧ (∀ x, x ∉ t :: (out ++ [n]) → m'.h.pv x = m.h.pv x) := by
  have htv : m.h.valid t := hok t (by simp)
  have hnv : m.h.valid n := hok n (by simp)
  have hm : m.tail ∈ t :: out := by rw [ht]; exact List.getLast_mem _
  have htail : m.h.valid m.tail := hok _ (by simp only [List.mem_cons, List.mem_append] at hm ⊢; tauto)
  have hnt : n ≠ t := by rintro rfl; simp at hnd
  have hnout : n ∉ t :: out := by
    intro hx; simp only [List.mem_cons] at hx
    rcases hx with hx | hx
    · exact hnt hx
    · exact (List.nodup_append.1 (List.nodup_cons.1 hnd).2).2.2 n hx n (by simp) rfl
  have key : Ch ((m.h.joined m.tail n).joined n t) (t :: (out ++ [n])) := by
    have e : t :: out = (t :: out).dropLast ++ [m.tail] := by rw [ht]; exact (List.dropLast_concat_getLast _).symm
    have hnd' : (t :: out).Nodup := hnd.sublist (by simp)
    have s1 : Ch (m.h.joined m.tail n) ((t :: out).dropLast ++ m.tail :: n :: []) := by
      refine Ch.join_mid (by rw [← e]; exact hc) trivial ?_ (by simp) (by simp) ?_
      · intro hx; rw [e] at hnd'; exact (List.nodup_append.1 hnd').2.2 _ hx _ (by simp) rfl
      · rw [← e]; intro hx; exact hnout (List.mem_of_mem_tail hx)
    have e2 : (t :: out).dropLast ++ m.tail :: n :: [] = t :: (out ++ [n]) := by
      rw [show (t :: out).dropLast ++ m.tail :: n :: [] = ((t :: out).dropLast ++ [m.tail]) ++ [n] by simp, ← e]; simp
    rw [e2] at s1
    refine s1.join_frame ?_ ?_
    · intro hx
      rw [show t :: (out ++ [n]) = (t :: out) ++ [n] by simp, List.dropLast_concat] at hx; exact hnout hx
    · simp only [List.tail_cons]; exact (List.nodup_cons.1 hnd).1
  have hfr : ∀ x, x ∉ t :: (out ++ [n]) → ((m.h.joined m.tail n).joined n t).nx x = m.h.nx x := by
    intro x hx
    have h1 : x ≠ n := by rintro rfl; simp at hx
    have h2 : x ≠ m.tail := by rintro rfl; exact hx (by simp only [List.mem_cons, List.mem_append] at hm ⊢; tauto)
    simp only [joined]; rw [upd_other _ _ h1, upd_other _ _ h2]
  have hfr2 : ∀ x, x ∉ t :: (out ++ [n]) → ((m.h.joined m.tail n).joined n t).pv x = m.h.pv x := by
    intro x hx
    have h1 : x ≠ n := by rintro rfl; simp at hx
    have h2 : x ≠ t := by rintro rfl; simp at hx
    simp only [joined]; rw [upd_other _ _ h2, upd_other _ _ h1]
  unfold addNode
  by_cases hx : m.head = t
  · have ho := hh.1 hx
    have htt : m.tail = t := by rw [ht]; simp [ho]
    rw [htt] at key hfr hfr2
    refine ⟨{ m with h := (m.h.joined t n).joined n t, head := n, tail := n }, ?_, rfl, rfl, rfl, rfl, rfl, hnt, hl, key, by simp [joined], by simp [joined], hfr, hfr2⟩
    simp only [hx, if_true, join_ok htv hnv, bind, Except.bind]
    rw [join_ok (by simpa using hnv) (by simpa using htv)]
  · refine ⟨{ m with h := (m.h.joined m.tail n).joined n t, tail := n }, ?_, rfl, rfl, rfl, rfl, rfl, hx, hl, key, by simp [joined], by simp [joined], hfr, hfr2⟩
    simp only [hx, if_false, join_ok htail hnv, bind, Except.bind]
    rw [join_ok (by simpa using hnv) (by simpa using htv)]

theorem takeLeft_ok {lim : Nat} {h0 : Links} {m : Mst} {out L R rest : List Nat} {x : Nat} (i : MInv lt cmp lim h0 t m out (x :: L) R rest) :
    ∃ m', takeLeft t m = .ok m' ∧ MInv lt cmp lim h0 t m' (out ++ [x]) L R rest ∧ m'.rs = m.rs := by
  have hleft := i.left x rfl
  have hxv : m.h.valid x := i.ok x (by simp)
  have hp : (t :: (out ++ [x] ++ (L ++ (R ++ rest)))) = (t :: (out ++ (x :: L ++ (R ++ rest)))) := by simp
  have hnd := i.nd; have hok := i.ok
  rw [← hp] at hnd hok
  have hmv : ∀ y, y ∈ out ++ [x] ++ (L ++ (R ++ rest)) ↔ y ∈ out ++ (x :: L ++ (R ++ rest)) := by intro y; simp
  obtain ⟨m', e, a1, a2, a3, a4, a5, a6, a7, a8, a9, a10, a11, a12⟩ := addNode_ok (m := { m with left := m.h.nx x, ls := m.ls - 1 }) (n := x) (out := out) i.lim
    (hnd.sublist (by simp)) (fun y hy => hok y (by simp only [List.mem_cons, List.mem_append] at hy ⊢; tauto)) i.head i.tail i.ch
  have hnew : ∀ y, y ∈ L ++ (R ++ rest) → y ∉ t :: (out ++ [x]) := by
    intro y hy hz
    have := (List.nodup_append (l₁ := t :: (out ++ [x])) (l₂ := L ++ (R ++ rest))).1 (by simpa using hnd)
    exact this.2.2 y hz y hy rfl
  refine ⟨m', by simp only [takeLeft, hleft, next_ok hxv, bind, Except.bind]; exact e, ?_, a4⟩
  refine { lim := a7, nd := hnd, ok := fun y hy => ?_, cmp := fun a ha b hb => i.cmp a ((hmv a).1 ha) b ((hmv b).1 hb), head := by simp [a6], tail := by rw [a5, getLast_cons_concat], ch := a8, close := fun _ => ?_, fl := ?_, left := ?_, ls := ?_, fr := ?_, right := ?_, rs := ?_, rs' := ?_, frm := ?_ }
  · have := hok y hy
    unfold valid at this ⊢; rw [a7]; rw [i.lim] at this; exact this
  · rw [a5]; exact ⟨a9, a10⟩
  · exact i.fl.tail.frame (fun y hy => a11 y (hnew y (List.mem_append_left _ (List.dropLast_subset _ hy))))
  · intro y hy
    rw [a1]
    cases L with
    | nil => simp at hy
    | cons b L => simp at hy; rw [← hy]; exact i.fl.1
  · rw [a3]; have := i.ls; simp at this ⊢; omega
  · refine i.fr.frame (fun y hy => a11 y (hnew y ?_))
    rw [List.dropLast_concat] at hy; exact List.mem_append_right _ hy
  · rw [a2]; exact i.right
  · rw [a4]; exact i.rs
  · rw [a4]; exact i.rs'
  · intro y hy
    have h1 : y ∉ t :: (out ++ [x]) := by intro z; apply hy; simp only [List.mem_cons, List.mem_append] at z ⊢; tauto
    rw [a11 y h1, a12 y h1]
    exact i.frm y (by rw [← hp]; exact hy)

theorem takeRight_ok {lim : Nat} {h0 : Links} {m : Mst} {out L R rest : List Nat} {x : Nat} (i : MInv lt cmp lim h0 t m out L (x :: R) rest) :
    ∃ m', takeRight t m = .ok m' ∧ MInv lt cmp lim h0 t m' (out ++ [x]) L R rest ∧ m'.rs = m.rs - 1 ∧ m'.ls = m.ls := by
  have hright : m.right = x := by have := i.right; simp at this; exact this.symm
  have hxv : m.h.valid x := i.ok x (by simp)
  have hp : (t :: (out ++ [x] ++ (L ++ (R ++ rest)))).Perm (t :: (out ++ (L ++ (x :: R ++ rest)))) := by
    refine List.Perm.cons t ?_
    rw [List.append_assoc]
    refine List.Perm.append_left out ?_
    exact (List.perm_middle (a := x) (l₁ := L) (l₂ := R ++ rest)).symm
  have hnd := hp.nodup_iff.2 i.nd
  have hok : ∀ y ∈ (t :: (out ++ [x] ++ (L ++ (R ++ rest)))), m.h.valid y := fun y hy => i.ok y (hp.mem_iff.1 hy)
  have hmv : ∀ y, y ∈ out ++ [x] ++ (L ++ (R ++ rest)) ↔ y ∈ out ++ (L ++ (x :: R ++ rest)) := by
    intro y; simp only [List.mem_append, List.mem_cons, List.not_mem_nil]; tauto
  obtain ⟨m', e, a1, a2, a3, a4, a5, a6, a7, a8, a9, a10, a11, a12⟩ := addNode_ok (m := { m with right := m.h.nx x, rs := m.rs - 1 }) (n := x) (out := out) i.lim
    (hnd.sublist (by simp)) (fun y hy => hok y (by simp only [List.mem_cons, List.mem_append] at hy ⊢; tauto)) i.head i.tail i.ch
  have hnew : ∀ y, y ∈ L ++ (R ++ rest) → y ∉ t :: (out ++ [x]) := by
    intro y hy hz
    have := (List.nodup_append (l₁ := t :: (out ++ [x])) (l₂ := L ++ (R ++ rest))).1 (by simpa using hnd)
    exact this.2.2 y hz y hy rfl
  have hrs := i.rs; have hrs' := i.rs'
  simp only [List.length_cons] at hrs hrs'
  refine ⟨m', by simp only [takeRight, hright, next_ok hxv, bind, Except.bind]; exact e, ?_, a4, a3⟩
  refine { lim := a7, nd := hnd, ok := fun y hy => ?_, cmp := fun a ha b hb => i.cmp a ((hmv a).1 ha) b ((hmv b).1 hb), head := by simp [a6], tail := by rw [a5, getLast_cons_concat], ch := a8, close := fun _ => ?_, fl := ?_, left := ?_, ls := ?_, fr := ?_, right := ?_, rs := ?_, rs' := ?_, frm := ?_ }
  · have := hok y hy
    unfold valid at this ⊢; rw [a7]; rw [i.lim] at this; exact this
  · rw [a5]; exact ⟨a9, a10⟩
  · exact i.fl.frame (fun y hy => a11 y (hnew y (List.mem_append_left _ (List.dropLast_subset _ hy))))
  · intro y hy; rw [a1]; exact i.left y hy
  · rw [a3]; exact i.ls
  · refine Fw.frame (h := m.h) (Fw.tail (a := x) (by simpa using i.fr)) (fun y hy => a11 y (hnew y ?_))
    rw [List.dropLast_concat] at hy; exact List.mem_append_right _ hy
  · rw [a2]
    have := i.fr
    cases hR : R ++ rest ++ [t] with
    | nil => simp at hR
    | cons b l =>
      have h2 : x :: R ++ rest ++ [t] = x :: b :: l := by rw [← hR]; simp
      rw [h2] at this
      simpa using this.1.symm
  · rw [a4]; simp only; omega
  · rw [a4]; simp only; rcases hrs' with h | h
    · left; omega
    · exact Or.inr h
  · intro y hy
    have h1 : y ∉ t :: (out ++ [x]) := by intro z; apply hy; simp only [List.mem_cons, List.mem_append] at z ⊢; tauto
    rw [a11 y h1, a12 y h1]
    exact i.frm y (fun z => hy (hp.mem_iff.2 z))

theorem mergeLoop_ok {lim : Nat} {h0 : Links} : ∀ (k : Nat) {m : Mst} {out L R rest : List Nat}, MInv lt cmp lim h0 t m out L R rest → m.ls + m.rs ≤ k →
    ∃ m', mergeLoop cmp t k m = .ok m' ∧ MInv lt cmp lim h0 t m' (out ++ mrg lt L R) [] [] rest
  | k, m, out, L, R, rest, i, hk => by
    have hls := i.ls; have hrs := i.rs; have hrs' := i.rs'
    have hend : m.right = t ↔ R ++ rest = [] := by
      have hri := i.right
      cases hR : R ++ rest with
      | nil => rw [hR] at hri; simp at hri; simp [hri]
      | cons b l =>
        rw [hR] at hri; simp at hri; rw [← hri]
        have hb : b ∈ R ++ rest := by rw [hR]; simp
        simp only [List.cons_ne_nil, iff_false]
        rintro rfl
        exact (List.nodup_cons.1 i.nd).1 (by simp only [List.mem_append] at hb ⊢; tauto)
    have hRe : R = [] → (m.rs = 0 ∨ m.right = t) := by
      intro h0; subst h0
      rcases hrs' with h1 | h1
      · left; simpa using h1.symm
      · right; rw [hend]; simp [h1]
    have hRc : R ≠ [] → m.rs ≠ 0 ∧ m.right ≠ t := by
      intro h0
      have := List.length_pos_iff.2 h0
      refine ⟨by omega, ?_⟩
      rw [ne_eq, hend]; simp [h0]
    by_cases hdone : L = [] ∧ R = []
    · obtain ⟨rfl, rfl⟩ := hdone
      have hcond : ¬ (m.ls > 0 ∨ (m.rs > 0 ∧ m.right ≠ t)) := by
        have := hRe rfl
        simp at hls; rcases this with h1 | h1
        · omega
        · simp [hls, h1]
      refine ⟨m, ?_, ?_⟩
      · cases k <;> simp only [mergeLoop] <;> rw [if_neg hcond]
      · simpa [mrg] using { i with rs := by simp, rs' := by simpa using hrs' }
    · have hcond : m.ls > 0 ∨ (m.rs > 0 ∧ m.right ≠ t) := by
        by_cases hL : L = []
        · have hR : R ≠ [] := fun x => hdone ⟨hL, x⟩
          have := hRc hR; right; exact ⟨by omega, this.2⟩
        · have := List.length_pos_iff.2 hL; left; omega
      have hkpos : ∃ k', k = k' + 1 := by
        cases k with
        | zero => omega
        | succ k => exact ⟨k, rfl⟩
      obtain ⟨k, rfl⟩ := hkpos
      simp only [mergeLoop]
      rw [if_pos hcond]
      cases L with
      | nil =>
        have hR : R ≠ [] := fun x => hdone ⟨rfl, x⟩
        obtain ⟨x, R, rfl⟩ := List.exists_cons_of_ne_nil hR
        have hl0 : m.ls = 0 := by simpa using hls
        rw [if_pos hl0]
        obtain ⟨m1, e1, i1, h1, h2⟩ := takeRight_ok i
        simp only [List.length_cons] at hrs
        obtain ⟨m2, e2, i2⟩ := mergeLoop_ok k i1 (by omega)
        exact ⟨m2, by simp only [e1, bind, Except.bind, e2], by simpa [mrg_nil_left] using i2⟩
      | cons a L =>
        have hl0 : m.ls ≠ 0 := by rw [hls]; simp
        rw [if_neg hl0]
        simp only [List.length_cons] at hls
        cases R with
        | nil =>
          rw [if_pos (hRe rfl)]
          obtain ⟨m1, e1, i1, h1⟩ := takeLeft_ok i
          have := i1.ls
          obtain ⟨m2, e2, i2⟩ := mergeLoop_ok k i1 (by omega)
          exact ⟨m2, by simp only [e1, bind, Except.bind, e2], by simpa [mrg_nil_right] using i2⟩
        | cons b R =>
          have hrc := hRc (by simp)
          rw [if_neg (show ¬ (m.rs = 0 ∨ m.right = t) from fun x => x.elim hrc.1 hrc.2)]
          have hl : m.left = a := i.left a rfl
          have hr : m.right = b := by have := i.right; simp at this; exact this.symm
          have hc : cmp m.right m.left = .ok (lt b a) := by rw [hl, hr]; exact i.cmp b (by simp) a (by simp)
          simp only [hc, bind, Except.bind]
          cases hba : lt b a with
          | false =>
            obtain ⟨m1, e1, i1, h1⟩ := takeLeft_ok i
            have := i1.ls
            obtain ⟨m2, e2, i2⟩ := mergeLoop_ok k i1 (by omega)
            exact ⟨m2, by simp only [Bool.not_false, if_true, e1, e2], by rw [mrg_cons_left _ _ hba]; simpa using i2⟩
          | true =>
            obtain ⟨m1, e1, i1, h1, h2⟩ := takeRight_ok i
            simp only [List.length_cons] at hrs
            obtain ⟨m2, e2, i2⟩ := mergeLoop_ok k i1 (by omega)
            exact ⟨m2, by simp only [Bool.not_true, Bool.false_eq_true, if_false, e1, e2], by rw [mrg_cons_right _ _ hba]; simpa using i2⟩

/-! ## What one pass does -/

theorem stepAlong_ok {h : Links} : ∀ (n : Nat) (l : List Nat) (k : Nat) (p : Nat), l ≠ [] → Fw h (l ++ [t]) → (l ++ [t]).head? = some p → t ∉ l →
    (∀ x ∈ l, h.valid x) →
    ∃ r, stepAlong h t p k n = .ok (r, k + min n l.length) ∧ (l.drop n ++ [t]).head? = some r
  | 0, l, k, p, _, _, hp, _, _ => ⟨p, by simp [stepAlong], by simpa using hp⟩
  | n + 1, l, k, p, hne, hf, hp, ht, hv => by
    obtain ⟨a, l, rfl⟩ := List.exists_cons_of_ne_nil hne
    simp at hp; subst hp
    have hav := hv a (by simp)
    simp only [stepAlong, next_ok hav, bind, Except.bind]
    cases l with
    | nil =>
      have : h.nx a = t := hf.1
      refine ⟨t, ?_, by simp⟩
      rw [this, if_pos rfl]; simp
    | cons b l =>
      have hab : h.nx a = b := hf.1
      have hbt : b ≠ t := by rintro rfl; simp at ht
      obtain ⟨r, e, h2⟩ := stepAlong_ok n (b :: l) (k + 1) b (by simp) hf.2 (by simp) (fun x => ht (List.mem_cons_of_mem _ x)) (fun x hx => hv x (List.mem_cons_of_mem _ hx))
      refine ⟨r, ?_, by simpa using h2⟩
      rw [hab, if_neg hbt, e]; simp only [List.length_cons]; congr 2; omega

/-- the list computed by one pass -/
def passF (lt : Nat → Nat → Bool) (s : Nat) : Nat → List Nat → List Nat
  | 0, _ => []
  | k + 1, l => if l = [] then [] else mrg lt (l.take s) ((l.drop s).take s) ++ passF lt s k (l.drop (2 * s))

/-- the number of merges of one pass -/
def mergesF (s : Nat) : Nat → Nat → Nat
  | 0, _ => 0
  | k + 1, n => if n = 0 then 0 else 1 + mergesF s k (n - 2 * s)

/-- `left`, `head`, `tail` between two merges -/
def PInv (lt : Nat → Nat → Bool) (cmp : Nat → Nat → Res Bool) (lim : Nat) (h0 : Links) (t : Nat) (h : Links) (left head tail : Nat) (out rest : List Nat) : Prop :=
  MInv lt cmp lim h0 t { h := h, left := left, right := left, ls := 0, rs := 0, head := head, tail := tail } out [] [] rest

theorem passLoop_ok {lim s : Nat} {h0 : Links} (hs : 0 < s) : ∀ (k : Nat) {h : Links} {left head tail merges : Nat} {out rest : List Nat},
    PInv lt cmp lim h0 t h left head tail out rest → rest.length ≤ k →
    ∃ h' left' head' tail', passLoop cmp t s k h left head tail merges = .ok (h', merges + mergesF s k rest.length) ∧ PInv lt cmp lim h0 t h' left' head' tail' (out ++ passF lt s k rest) []
  | 0, h, left, head, tail, merges, out, rest, i, hk => by
    have : rest = [] := List.length_eq_zero_iff.1 (by omega)
    subst this
    have hl : left = t := by have := i.right; simp at this; exact this.symm
    exact ⟨h, left, head, tail, by simp [passLoop, hl, mergesF], by simpa [passF] using i⟩
  | k + 1, h, left, head, tail, merges, out, rest, i, hk => by
    by_cases hr : rest = []
    · subst hr
      have hl : left = t := by have := i.right; simp at this; exact this.symm
      exact ⟨h, left, head, tail, by simp [passLoop, hl, mergesF], by simpa [passF] using i⟩
    · have hri : (rest ++ [t]).head? = some left := by simpa using i.right
      have htn : t ∉ rest := fun x => (List.nodup_cons.1 i.nd).1 (by simp [x])
      have hlt : left ≠ t := by
        rintro rfl
        obtain ⟨a, l, rfl⟩ := List.exists_cons_of_ne_nil hr
        simp at hri; simp [hri] at htn
      have hval : ∀ x ∈ rest, h.valid x := fun x hx => i.ok x (by simp [hx])
      have hfr : Fw h (rest ++ [t]) := by simpa using i.fr
      obtain ⟨r, e1, e2⟩ := stepAlong_ok s rest 0 left hr hfr hri htn hval
      have hsplit : rest = rest.take s ++ ((rest.drop s).take s ++ rest.drop (2 * s)) := by
        have : rest.drop (2 * s) = (rest.drop s).drop s := by rw [List.drop_drop]; congr 1; omega
        rw [this, List.take_append_drop, List.take_append_drop]
      have hd : (rest.drop s).take s ++ rest.drop (2 * s) = rest.drop s := by
        have : rest.drop (2 * s) = (rest.drop s).drop s := by rw [List.drop_drop]; congr 1; omega
        rw [this, List.take_append_drop]
      have hlen : 0 < rest.length := List.length_pos_iff.2 hr
      have hmin : MInv lt cmp lim h0 t { h := h, left := left, right := r, ls := 0 + min s rest.length, rs := s, head := head, tail := tail } out (rest.take s) ((rest.drop s).take s) (rest.drop (2 * s)) := by
        have hfs : Fw h (rest.take s ++ (rest.drop s ++ [t])) := by rw [← List.append_assoc, List.take_append_drop]; exact hfr
        refine { lim := i.lim, nd := by rw [← hsplit]; simpa using i.nd, ok := by rw [← hsplit]; simpa using i.ok, cmp := by rw [← hsplit]; simpa using i.cmp, head := i.head, tail := i.tail, ch := i.ch, close := i.close, fl := hfs.left, left := ?_, ls := by simp, fr := by rw [hd]; exact hfs.right, right := by rw [hd]; exact e2, rs := by simp; omega, rs' := ?_, frm := by rw [← hsplit]; simpa using i.frm }
        · intro x hx
          obtain ⟨a, l, rfl⟩ := List.exists_cons_of_ne_nil hr
          obtain ⟨s', rfl⟩ : ∃ s', s = s' + 1 := ⟨s - 1, by omega⟩
          simp at hx hri; simp [hx, ← hri]
        · by_cases h2 : rest.length ≤ 2 * s
          · right; exact List.drop_of_length_le h2
          · left; simp; omega
      obtain ⟨m', e3, i3⟩ := mergeLoop_ok (0 + min s rest.length + s) hmin (by simp)
      have hp : PInv lt cmp lim h0 t m'.h m'.right m'.head m'.tail (out ++ mrg lt (rest.take s) ((rest.drop s).take s)) (rest.drop (2 * s)) :=
        { lim := i3.lim, nd := i3.nd, ok := i3.ok, cmp := i3.cmp, head := i3.head, tail := i3.tail, ch := i3.ch, close := i3.close, fl := trivial, left := by simp, ls := rfl, fr := i3.fr, right := i3.right, rs := by simp, rs' := by simp, frm := i3.frm }
      obtain ⟨h', l', hd', t', e4, i4⟩ := passLoop_ok hs k (merges := merges + 1) hp (by simp; omega)
      refine ⟨h', l', hd', t', ?_, ?_⟩
      · simp only [passLoop]
        rw [if_pos hlt]
        simp only [e1, e3, e4, bind, Except.bind, List.length_drop]
        rw [mergesF, if_neg (by omega)]; congr 2; omega
      · rw [passF, if_neg hr, ← List.append_assoc]; exact i4

/-! ## The passes sort -/

theorem passF_perm (lt : Nat → Nat → Bool) {s : Nat} (hs : 0 < s) : ∀ (k : Nat) (l : List Nat), l.length ≤ k → (passF lt s k l).Perm l
  | 0, l, hk => by have : l = [] := List.length_eq_zero_iff.1 (by omega); subst this; exact List.Perm.refl _
  | k + 1, l, hk => by
    rw [passF]
    split_ifs with h
    · rw [h]
    · have hpos := List.length_pos_iff.2 h
      have ih := passF_perm lt hs k (l.drop (2 * s)) (by simp; omega)
      have e : l.drop (2 * s) = (l.drop s).drop s := by rw [List.drop_drop]; congr 1; omega
      have h1 := (mrg_perm lt (l.take s) ((l.drop s).take s)).append ih
      rw [e, List.append_assoc, List.take_append_drop, List.take_append_drop] at h1
      rw [e]; exact h1

/-- every block of `s` consecutive elements, counted from the start, is sorted -/
def Blocks (lt : Nat → Nat → Bool) (s : Nat) (l : List Nat) : Prop := ∀ k, SortedBy lt ((l.drop (k * s)).take s)

theorem passF_blocks {lt : Nat → Nat → Bool} (ho : StrictWeak lt) {s : Nat} (hs : 0 < s) : ∀ (k : Nat) (l : List Nat), l.length ≤ k → Blocks lt s l → Blocks lt (2 * s) (passF lt s k l)
  | 0, l, hk, _ => by intro j; simp [passF, SortedBy]
  | k + 1, l, hk, hb => by
    rw [passF]
    split_ifs with h
    · intro j; simp [SortedBy]
    · have hpos := List.length_pos_iff.2 h
      have ih := passF_blocks ho hs k (l.drop (2 * s)) (by simp; omega) (by
        intro j; have := hb (j + 2); rw [List.drop_drop]
        have e : 2 * s + j * s = (j + 2) * s := by rw [Nat.add_mul]; omega
        rw [e]; exact this)
      have hM : SortedBy lt (mrg lt (l.take s) ((l.drop s).take s)) := by
        refine mrg_sorted ho _ _ ?_ ?_
        · simpa using hb 0
        · simpa using hb 1
      have hlenM : (mrg lt (l.take s) ((l.drop s).take s)).length = min (2 * s) l.length := by
        rw [mrg_length]; simp; omega
      have hrest : 2 * s ≤ l.length ∨ passF lt s k (l.drop (2 * s)) = [] := by
        by_cases h2 : 2 * s ≤ l.length
        · exact Or.inl h2
        · right; rw [List.drop_of_length_le (by omega)]; cases k <;> simp [passF]
      intro j
      rcases hrest with h2 | h2
      · cases j with
        | zero =>
          rw [Nat.zero_mul, List.drop_zero, List.take_append_of_le_length (by omega), List.take_of_length_le (by omega)]; exact hM
        | succ j =>
          have e : (j + 1) * (2 * s) = (mrg lt (l.take s) ((l.drop s).take s)).length + j * (2 * s) := by rw [hlenM, Nat.add_mul]; omega
          rw [e, ← List.drop_drop, List.drop_left]; exact ih j
      · rw [h2, List.append_nil]
        exact (hM.sublist (List.drop_sublist _ _)).sublist (List.take_sublist _ _)

theorem passF_stable {lt : Nat → Nat → Bool} (ho : StrictWeak lt) {s : Nat} (hs : 0 < s) (c : Nat) : ∀ (k : Nat) (l : List Nat), l.length ≤ k → Blocks lt s l →
    (passF lt s k l).filter (equivBy lt c) = l.filter (equivBy lt c)
  | 0, l, hk, _ => by have : l = [] := List.length_eq_zero_iff.1 (by omega); subst this; rfl
  | k + 1, l, hk, hb => by
    rw [passF]
    split_ifs with h
    · rw [h]
    · have hpos := List.length_pos_iff.2 h
      have ih := passF_stable ho hs c k (l.drop (2 * s)) (by simp; omega) (by
        intro j; have := hb (j + 2); rw [List.drop_drop]
        have e : 2 * s + j * s = (j + 2) * s := by rw [Nat.add_mul]; omega
        rw [e]; exact this)
      have e : l.drop (2 * s) = (l.drop s).drop s := by rw [List.drop_drop]; congr 1; omega
      rw [List.filter_append, ih, mrg_stable ho _ _ (by simpa using hb 0), ← List.filter_append, ← List.filter_append, e, List.append_assoc, List.take_append_drop, List.take_append_drop]

theorem mergesF_le {s : Nat} (hs : 0 < s) (k n : Nat) (hk : n ≤ k) (h : mergesF s k n ≤ 1) : n ≤ 2 * s := by
  cases k with
  | zero => omega
  | succ k =>
    rw [mergesF] at h
    split_ifs at h with h0
    · omega
    · cases k with
      | zero => omega
      | succ k =>
        rw [mergesF] at h
        split_ifs at h with h1 <;> omega

theorem mergesF_small {s : Nat} (hs : 0 < s) (k n : Nat) (hn : n ≤ 2 * s) : mergesF s k n ≤ 1 := by
  cases k with
  | zero => simp [mergesF]
  | succ k =>
    rw [mergesF]; split_ifs
    · omega
    · have : n - 2 * s = 0 := by omega
      rw [this]; cases k <;> simp [mergesF]

theorem sortLoop_ok {lim : Nat} {h0 : Links} (ho : StrictWeak lt) (l0 : List Nat) (hne : l0 ≠ []) : ∀ (k s : Nat) (h : Links) (l : List Nat), 0 < s → h.lim = lim → Circle h t l → (∀ x, x ∉ t :: l → h.nx x = h0.nx x ∧ h.pv x = h0.pv x) →
    (∀ x ∈ l, ∀ y ∈ l, cmp x y = .ok (lt x y)) → Blocks lt s l → l.Perm l0 → (∀ c, l.filter (equivBy lt c) = l0.filter (equivBy lt c)) → l0.length ≤ lim → l0.length < s * 2 ^ k → 0 < k →
    ∃ h' l', sortLoop cmp t k s h = .ok h' ∧ h'.lim = lim ∧ Circle h' t l' ∧ IsStableSort lt l0 l' ∧ (∀ x, x ∉ t :: l0 → h'.nx x = h0.nx x ∧ h'.pv x = h0.pv x)
  | 0, _, _, _, _, _, _, _, _, _, _, _, _, _, hk => by omega
  | k + 1, s, h, l, hs, hlim, c, hfrm, hcmp, hb, hp, hst, hll, hk, _ => by
    have htv := c.tv
    have hlen : l.length = l0.length := hp.length_eq
    have hp0 : PInv lt cmp lim h0 t h (nodeAt t l 0) t t [] l := by
      have hch := c.ch
      refine { lim := hlim, nd := by simpa using c.nd, ok := by simpa using c.ok, cmp := by simpa using hcmp, head := by simp, tail := by simp, ch := trivial, close := by simp, fl := trivial, left := by simp, ls := rfl, fr := ?_, right := ?_, rs := by simp, rs' := by simp, frm := by simpa using hfrm }
      · simpa using (Ch.fw hch).tail
      · cases l <;> simp [nodeAt]
    obtain ⟨h', left', hd', tl', e1, i1⟩ := passLoop_ok hs (lim + 1) (merges := 0) hp0 (by omega)
    simp only [List.nil_append] at i1
    set l1 := passF lt s (lim + 1) l with hl1
    have hp1 : l1.Perm l := passF_perm lt hs _ _ (by omega)
    have hb1 : Blocks lt (2 * s) l1 := passF_blocks ho hs _ _ (by omega) hb
    have hst1 : ∀ a, l1.filter (equivBy lt a) = l0.filter (equivBy lt a) := fun a => (passF_stable ho hs a _ _ (by omega) hb).trans (hst a)
    have hne1 : l1 ≠ [] := by
      intro x; have := (hp1.trans hp).length_eq; rw [x] at this
      exact hne (List.length_eq_zero_iff.1 (by simpa using this.symm))
    have c1 : Circle h' t l1 := by
      have hcl := i1.close hne1
      have htl := i1.tail
      refine ⟨?_, by simpa using i1.nd, by simpa using i1.ok⟩
      have e : t :: l1 = (t :: l1).dropLast ++ [tl'] := by
        simp only at htl; rw [htl]; exact (List.dropLast_concat_getLast _).symm
      rw [e, List.append_assoc, List.singleton_append, ch_append]
      exact ⟨by rw [← e]; exact i1.ch, hcl, trivial⟩
    simp only [sortLoop, next_ok htv, c.first, hlim, e1, bind, Except.bind, Nat.zero_add]
    by_cases hm : mergesF s (lim + 1) l.length ≤ 1
    · refine ⟨h', l1, by rw [if_pos hm], i1.lim, c1, ⟨?_, hp1.trans hp, hst1⟩, fun x hx => i1.frm x (fun z => hx ((List.Perm.cons t (hp1.trans hp)).mem_iff.1 (by simpa using z)))⟩
      have h2 := mergesF_le hs (lim + 1) l.length (by omega) hm
      have h3 := hb1 0
      rw [Nat.zero_mul, List.drop_zero, List.take_of_length_le (by rw [hp1.length_eq]; exact h2)] at h3
      exact h3
    · rw [if_neg hm]
      have hk0 : 0 < k := by
        rcases Nat.eq_zero_or_pos k with h0 | h0
        · subst h0; exact absurd (mergesF_small hs (lim + 1) l.length (by rw [hlen]; simp at hk; omega)) hm
        · exact h0
      refine sortLoop_ok ho l0 hne k (s * 2) h' l1 (by omega) i1.lim c1 (by simpa using i1.frm) ?_ (by rw [Nat.mul_comm]; exact hb1) (hp1.trans hp) hst1 hll ?_ hk0
      · intro x hx y hy; exact hcmp x (hp1.mem_iff.1 hx) y (hp1.mem_iff.1 hy)
      · rw [Nat.pow_succ] at hk; rw [Nat.mul_assoc, Nat.mul_comm 2]; exact hk

/-- The pointer-level sort relinks the circle into the stable sort of its nodes. -/
theorem sortLinks_ok (ho : StrictWeak lt) {h : Links} {l : List Nat} (c : Circle h t l) (hne : l ≠ []) (hcmp : ∀ x ∈ l, ∀ y ∈ l, cmp x y = .ok (lt x y)) (hl : l.length ≤ h.lim) :
    ∃ h' l', sortLinks cmp t h = .ok h' ∧ h'.lim = h.lim ∧ Circle h' t l' ∧ IsStableSort lt l l' ∧ (∀ x, x ∉ t :: l → h'.nx x = h.nx x ∧ h'.pv x = h.pv x) := by
  refine sortLoop_ok ho l hne (h.lim + 1) 1 h l Nat.one_pos rfl c (fun _ _ => ⟨rfl, rfl⟩) hcmp ?_ (List.Perm.refl _) (fun _ => rfl) hl ?_ (Nat.succ_pos _)
  · intro k
    rcases hx : (l.drop (k * 1)).take 1 with _ | ⟨a, _ | ⟨b, r⟩⟩
    · exact List.Pairwise.nil
    · exact List.pairwise_singleton _ _
    · have h1 := congrArg List.length hx; have h2 := List.length_take_le 1 (l.drop (k * 1)); rw [h1] at h2; simp at h2
  · rw [Nat.one_mul]
    exact Nat.lt_of_lt_of_le (Nat.lt_succ_of_le hl) (Nat.le_of_lt Nat.lt_two_pow_self)

end Etl.Links
