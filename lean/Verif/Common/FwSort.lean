import Verif.Common.FwLinks

/-!
# The in-place merge sort (S. Tatham) of the singly linked lists

`iforward_list::sort`, `/repo/include/etl/forward_list.h` l.1255-1362; `intrusive_forward_list::sort`, `/repo/include/etl/intrusive_forward_list.h` l.861-966.
The two bodies are the same up to the names `join` / `etl::link`.  `t` is the start node (`before_begin()`), `e` is `end()` (null, resp. the terminator),
`cmp` is `compare(*a, *b)` on nodes (it may hit a dead object).
Simplification: the `int` counters are unbounded (the code would overflow `list_size` for lists of more than 2^30 elements).
-/
namespace Etl.FLinks
open Links (passF mergesF Blocks passF_perm passF_blocks passF_stable mergesF_le mergesF_small)

/-- The `for` loop "Step 'list_size' places along from left". -/
def stepAlong (h : FLinks) (e right left_size : Nat) : Nat → Res (Nat × Nat)
  | 0 => .ok (right, left_size)
  | n + 1 => do
    let r ← h.next right
    if r = e then .ok (r, left_size + 1) else stepAlong h e r (left_size + 1) n

/-- The variables of the merge loop. -/
structure Mst where
  h : FLinks
  left : Nat
  right : Nat
  ls : Nat      -- left_size
  rs : Nat      -- right_size
  head : Nat
  tail : Nat

/-- "Add the next node to the merged head." -/
def addNode (t e : Nat) (m : Mst) (node : Nat) : Res Mst := do
  let m ← (if m.head = t then do
      let h ← m.h.join m.head node
      .ok { m with h := h, head := node, tail := node }
    else do
      let h ← m.h.join m.tail node
      .ok { m with h := h, tail := node } : Res Mst)
  let h ← m.h.join m.tail e
  .ok { m with h := h }

/-- `p_node = p_left; ++p_left; --left_size;` -/
def takeLeft (t e : Nat) (m : Mst) : Res Mst := do
  let nxt ← m.h.next m.left
  addNode t e { m with left := nxt, ls := m.ls - 1 } m.left

/-- `p_node = p_right; ++p_right; --right_size;` -/
def takeRight (t e : Nat) (m : Mst) : Res Mst := do
  let nxt ← m.h.next m.right
  addNode t e { m with right := nxt, rs := m.rs - 1 } m.right

/-- "Now we have two lists. Merge them." -/
def mergeLoop (cmp : Nat → Nat → Res Bool) (t e : Nat) : Nat → Mst → Res Mst
  | 0, m => if m.ls > 0 ∨ (m.rs > 0 ∧ m.right ≠ e) then .error .diverge else .ok m
  | k + 1, m =>
    if m.ls > 0 ∨ (m.rs > 0 ∧ m.right ≠ e) then
      if m.ls = 0 then do
        let m ← takeRight t e m
        mergeLoop cmp t e k m
      else if m.rs = 0 ∨ m.right = e then do
        let m ← takeLeft t e m
        mergeLoop cmp t e k m
      else do
        let c ← cmp m.right m.left
        if !c then do
          let m ← takeLeft t e m
          mergeLoop cmp t e k m
        else do
          let m ← takeRight t e m
          mergeLoop cmp t e k m
    else .ok m

/-- One pass: `while (p_left != end())`; returns the heap and `number_of_merges`. -/
def passLoop (cmp : Nat → Nat → Res Bool) (t e size : Nat) : Nat → FLinks → (left head tail merges : Nat) → Res (FLinks × Nat)
  | 0, h, left, _, _, merges => if left ≠ e then .error .diverge else .ok (h, merges)
  | k + 1, h, left, head, tail, merges =>
    if left ≠ e then do
      let (right, ls) ← stepAlong h e left 0 size
      let m ← mergeLoop cmp t e (ls + size) { h := h, left := left, right := right, ls := ls, rs := size, head := head, tail := tail }
      passLoop cmp t e size k m.h m.right m.head m.tail (merges + 1)
    else .ok (h, merges)

/-- The outer `while (true)`. -/
def sortLoop (cmp : Nat → Nat → Res Bool) (t e : Nat) : Nat → Nat → FLinks → Res FLinks
  | 0, _, _ => .error .diverge
  | k + 1, size, h => do
    let first ← h.next t
    let (h, merges) ← passLoop cmp t e size (h.lim + 1) h first t t 0
    if merges ≤ 1 then .ok h else sortLoop cmp t e k (size * 2) h

/-- `sort(compare)` after the `is_trivial_list()` test. -/
def sortLinks (cmp : Nat → Nat → Res Bool) (t e : Nat) (h : FLinks) : Res FLinks := sortLoop cmp t e (h.lim + 1) 1 h

/-! ## What one merge does -/

variable {cmp : Nat → Nat → Res Bool} {lt : Nat → Nat → Bool} {t e : Nat}

/-- State of the merge loop: `out` merged so far, `L` and `R` still to be merged, `rest` untouched. -/
structure MInv (lt : Nat → Nat → Bool) (cmp : Nat → Nat → Res Bool) (lim : Nat) (h0 : FLinks) (t e : Nat) (m : Mst) (out L R rest : List Nat) : Prop where
  lim : m.h.lim = lim
  nd : (t :: (out ++ (L ++ (R ++ rest)))).Nodup
  ok : ∀ x ∈ t :: (out ++ (L ++ (R ++ rest))), m.h.valid x
  ne : e ∉ t :: (out ++ (L ++ (R ++ rest)))
  cmp : ∀ x ∈ out ++ (L ++ (R ++ rest)), ∀ y ∈ out ++ (L ++ (R ++ rest)), cmp x y = .ok (lt x y)
  head : m.head = t ↔ out = []
  tail : m.tail = (t :: out).getLast (by simp)
  sout : out ≠ [] → Seg m.h.nx t (t :: out) e
  sl : ∃ q, Seg m.h.nx m.left L q
  ls : m.ls = L.length
  sr : Seg m.h.nx m.right (R ++ rest) e
  rs : R.length ≤ m.rs
  rs' : R.length = m.rs ∨ rest = []
  frm : ∀ x, x ∉ t :: (out ++ (L ++ (R ++ rest))) → m.h.nx x = h0.nx x

theorem addNode_ok {lim : Nat} {m : Mst} {out : List Nat} {n : Nat} (hl : m.h.lim = lim) (hnd : (t :: (out ++ [n])).Nodup)
    (hok : ∀ x ∈ t :: (out ++ [n]), m.h.valid x) (hh : m.head = t ↔ out = []) (ht : m.tail = (t :: out).getLast (by simp)) (hc : out ≠ [] → Seg m.h.nx t (t :: out) e) :
    ∃ m', addNode t e m n = .ok m' ∧ m'.left = m.left ∧ m'.right = m.right ∧ m'.ls = m.ls ∧ m'.rs = m.rs ∧ m'.tail = n ∧ m'.head ≠ t ∧ m'.h.lim = lim ∧
      Seg m'.h.nx t (t :: (out ++ [n])) e ∧ (∀ x, x ∉ t :: (out ++ [n]) → m'.h.nx x = m.h.nx x) := by
  have htv : m.h.valid t := hok t (by simp)
  have hnv : m.h.valid n := hok n (by simp)
  have hm : m.tail ∈ t :: out := by rw [ht]; exact List.getLast_mem _
  have htail : m.h.valid m.tail := hok _ (by simp only [List.mem_cons, List.mem_append] at hm ⊢; tauto)
  have hnd2 : ((t :: out) ++ [n]).Nodup := by simpa using hnd
  have hnout : n ∉ t :: out := fun hx => (List.nodup_append.1 hnd2).2.2 n hx n (by simp) rfl
  have hnt : n ≠ t := fun h => hnout (by simp [h])
  have e1 : t :: out = (t :: out).dropLast ++ [m.tail] := by rw [ht]; exact (List.dropLast_concat_getLast _).symm
  have htd : m.tail ∉ (t :: out).dropLast := by
    have := (List.nodup_append.1 hnd2).1; rw [e1] at this
    exact fun hx => (List.nodup_append.1 this).2.2 _ hx _ (by simp) rfl
  have key : Seg (upd (upd m.h.nx m.tail n) n e) t (t :: (out ++ [n])) e := by
    rw [show t :: (out ++ [n]) = (t :: out) ++ n :: [] by simp, seg_mid]
    refine ⟨Seg.upd ?_ hnout, by simp [Seg]⟩
    by_cases ho : out = []
    · subst ho
      have : m.tail = t := by rw [ht]; simp
      simp [Seg, this]
    · have := hc ho; rw [e1] at this ⊢; exact this.relink htd
  have hfr : ∀ x, x ∉ t :: (out ++ [n]) → (upd (upd m.h.nx m.tail n) n e) x = m.h.nx x := by
    intro x hx
    have h1 : x ≠ n := by rintro rfl; simp at hx
    have h2 : x ≠ m.tail := by rintro rfl; exact hx (by simp only [List.mem_cons, List.mem_append] at hm ⊢; tauto)
    rw [upd_other _ _ h1, upd_other _ _ h2]
  unfold addNode
  by_cases hx : m.head = t
  · have ho := hh.1 hx
    have htt : m.tail = t := by rw [ht]; simp [ho]
    rw [htt] at key hfr
    refine ⟨{ m with h := (m.h.linked t n).linked n e, head := n, tail := n }, ?_, rfl, rfl, rfl, rfl, rfl, hnt, hl, key, hfr⟩
    simp only [hx, if_true, join_ok htv, bind, Except.bind]
    rw [join_ok (by simpa using hnv)]
  · refine ⟨{ m with h := (m.h.linked m.tail n).linked n e, tail := n }, ?_, rfl, rfl, rfl, rfl, rfl, hx, hl, key, hfr⟩
    simp only [hx, if_false, join_ok htail, bind, Except.bind]
    rw [join_ok (by simpa using hnv)]

theorem takeLeft_ok {lim : Nat} {h0 : FLinks} {m : Mst} {out L R rest : List Nat} {x : Nat} (i : MInv lt cmp lim h0 t e m out (x :: L) R rest) :
    ∃ m', takeLeft t e m = .ok m' ∧ MInv lt cmp lim h0 t e m' (out ++ [x]) L R rest ∧ m'.rs = m.rs := by
  obtain ⟨q, hleft, hseg⟩ := i.sl
  have hxv : m.h.valid x := i.ok x (by simp)
  have hp : (t :: (out ++ [x] ++ (L ++ (R ++ rest)))) = (t :: (out ++ (x :: L ++ (R ++ rest)))) := by simp
  have hnd := i.nd; have hok := i.ok; have hne := i.ne
  rw [← hp] at hnd hok hne
  have hmv : ∀ y, y ∈ out ++ [x] ++ (L ++ (R ++ rest)) ↔ y ∈ out ++ (x :: L ++ (R ++ rest)) := by intro y; simp
  obtain ⟨m', e1, a1, a2, a3, a4, a5, a6, a7, a8, a9⟩ := addNode_ok (e := e) (m := { m with left := m.h.nx x, ls := m.ls - 1 }) (n := x) (out := out) i.lim
    (hnd.sublist (by simp)) (fun y hy => hok y (by simp only [List.mem_cons, List.mem_append] at hy ⊢; tauto)) i.head i.tail i.sout
  have hnew : ∀ y, y ∈ L ++ (R ++ rest) → y ∉ t :: (out ++ [x]) := by
    intro y hy hz
    have := (List.nodup_append (l₁ := t :: (out ++ [x])) (l₂ := L ++ (R ++ rest))).1 (by simpa using hnd)
    exact this.2.2 y hz y hy rfl
  refine ⟨m', by simp only [takeLeft, hleft, next_ok hxv, bind, Except.bind]; exact e1, ?_, a4⟩
  refine { lim := a7, nd := hnd, ok := fun y hy => ?_, ne := hne, cmp := fun a ha b hb => i.cmp a ((hmv a).1 ha) b ((hmv b).1 hb), head := by simp [a6], tail := by rw [a5, Links.getLast_cons_concat], sout := fun _ => a8, sl := ⟨q, ?_⟩, ls := ?_, sr := ?_, rs := ?_, rs' := ?_, frm := ?_ }
  · have := hok y hy
    unfold valid at this ⊢; rw [a7]; rw [i.lim] at this; exact this
  · rw [a1]; exact hseg.frame (fun y hy => a9 y (hnew y (by simp [hy])))
  · rw [a3]; have := i.ls; simp at this ⊢; omega
  · rw [a2]; exact i.sr.frame (fun y hy => a9 y (hnew y (List.mem_append_right _ hy)))
  · rw [a4]; exact i.rs
  · rw [a4]; exact i.rs'
  · intro y hy
    rw [a9 y (by intro z; apply hy; simp only [List.mem_cons, List.mem_append] at z ⊢; tauto)]
    exact i.frm y (by rw [← hp]; exact hy)

theorem takeRight_ok {lim : Nat} {h0 : FLinks} {m : Mst} {out L R rest : List Nat} {x : Nat} (i : MInv lt cmp lim h0 t e m out L (x :: R) rest) :
    ∃ m', takeRight t e m = .ok m' ∧ MInv lt cmp lim h0 t e m' (out ++ [x]) L R rest ∧ m'.rs = m.rs - 1 ∧ m'.ls = m.ls := by
  obtain ⟨hright, hseg⟩ := i.sr
  obtain ⟨q, hsl⟩ := i.sl
  have hxv : m.h.valid x := i.ok x (by simp)
  have hp : (t :: (out ++ [x] ++ (L ++ (R ++ rest)))).Perm (t :: (out ++ (L ++ (x :: R ++ rest)))) := by
    refine List.Perm.cons t ?_
    rw [List.append_assoc]
    refine List.Perm.append_left out ?_
    exact (List.perm_middle (a := x) (l₁ := L) (l₂ := R ++ rest)).symm
  have hnd := hp.nodup_iff.2 i.nd
  have hok : ∀ y ∈ (t :: (out ++ [x] ++ (L ++ (R ++ rest)))), m.h.valid y := fun y hy => i.ok y (hp.mem_iff.1 hy)
  have hne := fun y => i.ne (hp.mem_iff.1 y)
  have hmv : ∀ y, y ∈ out ++ [x] ++ (L ++ (R ++ rest)) ↔ y ∈ out ++ (L ++ (x :: R ++ rest)) := by
    intro y; simp only [List.mem_append, List.mem_cons, List.not_mem_nil]; tauto
  obtain ⟨m', e1, a1, a2, a3, a4, a5, a6, a7, a8, a9⟩ := addNode_ok (e := e) (m := { m with right := m.h.nx x, rs := m.rs - 1 }) (n := x) (out := out) i.lim
    (hnd.sublist (by simp)) (fun y hy => hok y (by simp only [List.mem_cons, List.mem_append] at hy ⊢; tauto)) i.head i.tail i.sout
  have hnew : ∀ y, y ∈ L ++ (R ++ rest) → y ∉ t :: (out ++ [x]) := by
    intro y hy hz
    have := (List.nodup_append (l₁ := t :: (out ++ [x])) (l₂ := L ++ (R ++ rest))).1 (by simpa using hnd)
    exact this.2.2 y hz y hy rfl
  have hrs := i.rs; have hrs' := i.rs'
  simp only [List.length_cons] at hrs hrs'
  refine ⟨m', by simp only [takeRight, hright, next_ok hxv, bind, Except.bind]; exact e1, ?_, a4, a3⟩
  refine { lim := a7, nd := hnd, ok := fun y hy => ?_, ne := hne, cmp := fun a ha b hb => i.cmp a ((hmv a).1 ha) b ((hmv b).1 hb), head := by simp [a6], tail := by rw [a5, Links.getLast_cons_concat], sout := fun _ => a8, sl := ⟨q, ?_⟩, ls := ?_, sr := ?_, rs := ?_, rs' := ?_, frm := ?_ }
  · have := hok y hy
    unfold valid at this ⊢; rw [a7]; rw [i.lim] at this; exact this
  · rw [a1]; exact hsl.frame (fun y hy => a9 y (hnew y (List.mem_append_left _ hy)))
  · rw [a3]; exact i.ls
  · rw [a2]; exact hseg.frame (fun y hy => a9 y (hnew y (List.mem_append_right _ hy)))
  · rw [a4]; simp only; omega
  · rw [a4]; simp only; rcases hrs' with h | h
    · left; omega
    · exact Or.inr h
  · intro y hy
    rw [a9 y (by intro z; apply hy; simp only [List.mem_cons, List.mem_append] at z ⊢; tauto)]
    exact i.frm y (fun z => hy (hp.mem_iff.2 z))

theorem mergeLoop_ok {lim : Nat} {h0 : FLinks} : ∀ (k : Nat) {m : Mst} {out L R rest : List Nat}, MInv lt cmp lim h0 t e m out L R rest → m.ls + m.rs ≤ k →
    ∃ m', mergeLoop cmp t e k m = .ok m' ∧ MInv lt cmp lim h0 t e m' (out ++ mrg lt L R) [] [] rest
  | k, m, out, L, R, rest, i, hk => by
    have hls := i.ls; have hrs := i.rs; have hrs' := i.rs'
    have hend : m.right = e ↔ R ++ rest = [] := i.sr.end_ne (fun y => i.ne (by simp only [List.mem_cons, List.mem_append] at y ⊢; tauto))
    have hRe : R = [] → (m.rs = 0 ∨ m.right = e) := by
      intro h0; subst h0
      rcases hrs' with h1 | h1
      · left; simpa using h1.symm
      · right; rw [hend]; simp [h1]
    have hRc : R ≠ [] → m.rs ≠ 0 ∧ m.right ≠ e := by
      intro h0
      have := List.length_pos_iff.2 h0
      refine ⟨by omega, ?_⟩
      rw [ne_eq, hend]; simp [h0]
    by_cases hdone : L = [] ∧ R = []
    · obtain ⟨rfl, rfl⟩ := hdone
      have hcond : ¬ (m.ls > 0 ∨ (m.rs > 0 ∧ m.right ≠ e)) := by
        have := hRe rfl
        simp at hls; rcases this with h1 | h1
        · omega
        · simp [hls, h1]
      refine ⟨m, ?_, ?_⟩
      · cases k <;> simp only [mergeLoop] <;> rw [if_neg hcond]
      · simpa [mrg] using { i with rs := by simp, rs' := by simpa using hrs' }
    · have hcond : m.ls > 0 ∨ (m.rs > 0 ∧ m.right ≠ e) := by
        by_cases hL : L = []
        · have hR : R ≠ [] := fun x => hdone ⟨hL, x⟩
          have := hRc hR; right; exact ⟨by omega, this.2⟩
        · have := List.length_pos_iff.2 hL; left; omega
      have hkpos : ∃ k', k = k' + 1 := by
        cases k with
        | zero => omega
        | succ k => exact ⟨k, rfl⟩
      obtain ⟨k, rfl⟩ := hkpos
      simp only [mergeLoop]
      rw [if_pos hcond]
      cases L with
      | nil =>
        have hR : R ≠ [] := fun x => hdone ⟨rfl, x⟩
        obtain ⟨x, R, rfl⟩ := List.exists_cons_of_ne_nil hR
        have hl0 : m.ls = 0 := by simpa using hls
        rw [if_pos hl0]
        obtain ⟨m1, e1, i1, h1, h2⟩ := takeRight_ok i
        simp only [List.length_cons] at hrs
        obtain ⟨m2, e2, i2⟩ := mergeLoop_ok k i1 (by omega)
        exact ⟨m2, by simp only [e1, bind, Except.bind, e2], by simpa [mrg_nil_left] using i2⟩
      | cons a L =>
        have hl0 : m.ls ≠ 0 := by rw [hls]; simp
        rw [if_neg hl0]
        simp only [List.length_cons] at hls
        cases R with
        | nil =>
          rw [if_pos (hRe rfl)]
          obtain ⟨m1, e1, i1, h1⟩ := takeLeft_ok i
          have := i1.ls
          obtain ⟨m2, e2, i2⟩ := mergeLoop_ok k i1 (by omega)
          exact ⟨m2, by simp only [e1, bind, Except.bind, e2], by simpa [mrg_nil_right] using i2⟩
        | cons b R =>
          have hrc := hRc (by simp)
          rw [if_neg (show ¬ (m.rs = 0 ∨ m.right = e) from fun x => x.elim hrc.1 hrc.2)]
          have hl : m.left = a := i.sl.choose_spec.1
          have hr : m.right = b := i.sr.1
          have hc : cmp m.right m.left = .ok (lt b a) := by rw [hl, hr]; exact i.cmp b (by simp) a (by simp)
          simp only [hc, bind, Except.bind]
          cases hba : lt b a with
          | false =>
            obtain ⟨m1, e1, i1, h1⟩ := takeLeft_ok i
            have := i1.ls
            obtain ⟨m2, e2, i2⟩ := mergeLoop_ok k i1 (by omega)
            exact ⟨m2, by simp only [Bool.not_false, if_true, e1, e2], by rw [mrg_cons_left _ _ hba]; simpa using i2⟩
          | true =>
            obtain ⟨m1, e1, i1, h1, h2⟩ := takeRight_ok i
            simp only [List.length_cons] at hrs
            obtain ⟨m2, e2, i2⟩ := mergeLoop_ok k i1 (by omega)
            exact ⟨m2, by simp only [Bool.not_true, Bool.false_eq_true, if_false, e1, e2], by rw [mrg_cons_right _ _ hba]; simpa using i2⟩

/-! ## What one pass does -/

theorem stepAlong_ok {h : FLinks} : ∀ (n : Nat) (l : List Nat) (k : Nat) (p : Nat), l ≠ [] → Seg h.nx p l e → e ∉ l → (∀ x ∈ l, h.valid x) →
    ∃ r, stepAlong h e p k n = .ok (r, k + min n l.length) ∧ Seg h.nx p (l.take n) r ∧ Seg h.nx r (l.drop n) e
  | 0, l, k, p, _, hp, _, _ => ⟨p, by simp [stepAlong], rfl, hp⟩
  | n + 1, l, k, p, hne, hf, ht, hv => by
    obtain ⟨a, l, rfl⟩ := List.exists_cons_of_ne_nil hne
    obtain ⟨rfl, hf⟩ := hf
    have hav := hv p (by simp)
    simp only [stepAlong, next_ok hav, bind, Except.bind]
    cases l with
    | nil =>
      have : h.nx p = e := hf
      refine ⟨e, ?_, by simp [Seg, this], by simp [Seg]⟩
      rw [this, if_pos rfl]; simp
    | cons b l =>
      have hab : h.nx p = b := hf.1
      have hbt : b ≠ e := by rintro rfl; simp at ht
      obtain ⟨r, e1, h2, h3⟩ := stepAlong_ok n (b :: l) (k + 1) (h.nx p) (by simp) hf (fun x => ht (List.mem_cons_of_mem _ x)) (fun x hx => hv x (List.mem_cons_of_mem _ hx))
      refine ⟨r, ?_, ⟨rfl, h2⟩, h3⟩
      rw [if_neg (by rw [hab]; exact hbt), e1]; simp only [List.length_cons]; congr 2; omega

/-- `left`, `head`, `tail` between two merges -/
def PInv (lt : Nat → Nat → Bool) (cmp : Nat → Nat → Res Bool) (lim : Nat) (h0 : FLinks) (t e : Nat) (h : FLinks) (left head tail : Nat) (out rest : List Nat) : Prop :=
  MInv lt cmp lim h0 t e { h := h, left := left, right := left, ls := 0, rs := 0, head := head, tail := tail } out [] [] rest

theorem passLoop_ok {lim s : Nat} {h0 : FLinks} (hs : 0 < s) : ∀ (k : Nat) {h : FLinks} {left head tail merges : Nat} {out rest : List Nat},
    PInv lt cmp lim h0 t e h left head tail out rest → rest.length ≤ k →
    ∃ h' left' head' tail', passLoop cmp t e s k h left head tail merges = .ok (h', merges + mergesF s k rest.length) ∧ PInv lt cmp lim h0 t e h' left' head' tail' (out ++ passF lt s k rest) []
  | 0, h, left, head, tail, merges, out, rest, i, hk => by
    have : rest = [] := List.length_eq_zero_iff.1 (by omega)
    subst this
    have hl : left = e := i.sr
    exact ⟨h, left, head, tail, by simp [passLoop, hl, mergesF], by simpa [passF] using i⟩
  | k + 1, h, left, head, tail, merges, out, rest, i, hk => by
    by_cases hr : rest = []
    · subst hr
      have hl : left = e := i.sr
      exact ⟨h, left, head, tail, by simp [passLoop, hl, mergesF], by simpa [passF] using i⟩
    · have hri : Seg h.nx left rest e := i.sr
      have hen : e ∉ rest := fun x => i.ne (by simp [x])
      have hlt : left ≠ e := fun x => hr ((hri.end_ne hen).1 x)
      have hval : ∀ x ∈ rest, h.valid x := fun x hx => i.ok x (by simp [hx])
      obtain ⟨r, e1, e2, e2'⟩ := stepAlong_ok s rest 0 left hr hri hen hval
      have hsplit : rest = rest.take s ++ ((rest.drop s).take s ++ rest.drop (2 * s)) := by
        have : rest.drop (2 * s) = (rest.drop s).drop s := by rw [List.drop_drop]; congr 1; omega
        rw [this, List.take_append_drop, List.take_append_drop]
      have hd : (rest.drop s).take s ++ rest.drop (2 * s) = rest.drop s := by
        have : rest.drop (2 * s) = (rest.drop s).drop s := by rw [List.drop_drop]; congr 1; omega
        rw [this, List.take_append_drop]
      have hlen : 0 < rest.length := List.length_pos_iff.2 hr
      have hmin : MInv lt cmp lim h0 t e { h := h, left := left, right := r, ls := 0 + min s rest.length, rs := s, head := head, tail := tail } out (rest.take s) ((rest.drop s).take s) (rest.drop (2 * s)) := by
        refine { lim := i.lim, nd := by rw [← hsplit]; simpa using i.nd, ok := by rw [← hsplit]; simpa using i.ok, ne := by rw [← hsplit]; simpa using i.ne, cmp := by rw [← hsplit]; simpa using i.cmp, head := i.head, tail := i.tail, sout := i.sout, sl := ⟨r, e2⟩, ls := by simp, sr := by rw [hd]; exact e2', rs := by simp; omega, rs' := ?_, frm := by rw [← hsplit]; simpa using i.frm }
        by_cases h2 : rest.length ≤ 2 * s
        · right; exact List.drop_of_length_le h2
        · left; simp; omega
      obtain ⟨m', e3, i3⟩ := mergeLoop_ok (0 + min s rest.length + s) hmin (by simp)
      have hp : PInv lt cmp lim h0 t e m'.h m'.right m'.head m'.tail (out ++ mrg lt (rest.take s) ((rest.drop s).take s)) (rest.drop (2 * s)) :=
        { lim := i3.lim, nd := i3.nd, ok := i3.ok, ne := i3.ne, cmp := i3.cmp, head := i3.head, tail := i3.tail, sout := i3.sout, sl := ⟨_, rfl⟩, ls := rfl, sr := i3.sr, rs := by simp, rs' := by simp, frm := i3.frm }
      obtain ⟨h', l', hd', t', e4, i4⟩ := passLoop_ok hs k (merges := merges + 1) hp (by simp; omega)
      refine ⟨h', l', hd', t', ?_, ?_⟩
      · simp only [passLoop]
        rw [if_pos hlt]
        simp only [e1, e3, e4, bind, Except.bind, List.length_drop]
        rw [mergesF, if_neg (by omega)]; congr 2; omega
      · rw [passF, if_neg hr, ← List.append_assoc]; exact i4

theorem sortLoop_ok {lim : Nat} {h0 : FLinks} (ho : StrictWeak lt) (l0 : List Nat) (hne : l0 ≠ []) : ∀ (k s : Nat) (h : FLinks) (l : List Nat), 0 < s → h.lim = lim → Line h t e l → (∀ x, x ∉ t :: l → h.nx x = h0.nx x) →
    (∀ x ∈ l, ∀ y ∈ l, cmp x y = .ok (lt x y)) → Blocks lt s l → l.Perm l0 → (∀ c, l.filter (equivBy lt c) = l0.filter (equivBy lt c)) → l0.length ≤ lim → l0.length < s * 2 ^ k → 0 < k →
    ∃ h' l', sortLoop cmp t e k s h = .ok h' ∧ h'.lim = lim ∧ Line h' t e l' ∧ IsStableSort lt l0 l' ∧ (∀ x, x ∉ t :: l0 → h'.nx x = h0.nx x)
  | 0, _, _, _, _, _, _, _, _, _, _, _, _, _, hk => by omega
  | k + 1, s, h, l, hs, hlim, c, hfrm, hcmp, hb, hp, hst, hll, hk, _ => by
    have htv := c.tv
    have hlen : l.length = l0.length := hp.length_eq
    have hp0 : PInv lt cmp lim h0 t e h (h.nx t) t t [] l :=
      { lim := hlim, nd := by simpa using c.nd, ok := by simpa using c.ok, ne := by simpa using c.ne, cmp := by simpa using hcmp, head := by simp, tail := by simp, sout := by simp, sl := ⟨_, rfl⟩, ls := rfl, sr := c.first, rs := by simp, rs' := by simp, frm := by simpa using hfrm }
    obtain ⟨h', left', hd', tl', e1, i1⟩ := passLoop_ok hs (lim + 1) (merges := 0) hp0 (by omega)
    simp only [List.nil_append] at i1
    set l1 := passF lt s (lim + 1) l with hl1
    have hp1 : l1.Perm l := passF_perm lt hs _ _ (by omega)
    have hb1 : Blocks lt (2 * s) l1 := passF_blocks ho hs _ _ (by omega) hb
    have hst1 : ∀ a, l1.filter (equivBy lt a) = l0.filter (equivBy lt a) := fun a => (passF_stable ho hs a _ _ (by omega) hb).trans (hst a)
    have hne1 : l1 ≠ [] := by
      intro x; have := (hp1.trans hp).length_eq; rw [x] at this
      exact hne (List.length_eq_zero_iff.1 (by simpa using this.symm))
    have c1 : Line h' t e l1 := ⟨i1.sout hne1, by simpa using i1.nd, by simpa using i1.ok, by simpa using i1.ne⟩
    simp only [sortLoop, next_ok htv, hlim, e1, bind, Except.bind, Nat.zero_add]
    by_cases hm : mergesF s (lim + 1) l.length ≤ 1
    · refine ⟨h', l1, by rw [if_pos hm], i1.lim, c1, ⟨?_, hp1.trans hp, hst1⟩, fun x hx => i1.frm x (fun z => hx ((List.Perm.cons t (hp1.trans hp)).mem_iff.1 (by simpa using z)))⟩
      have h2 := mergesF_le hs (lim + 1) l.length (by omega) hm
      have h3 := hb1 0
      rw [Nat.zero_mul, List.drop_zero, List.take_of_length_le (by rw [hp1.length_eq]; exact h2)] at h3
      exact h3
    · rw [if_neg hm]
      have hk0 : 0 < k := by
        rcases Nat.eq_zero_or_pos k with h0 | h0
        · subst h0; exact absurd (mergesF_small hs (lim + 1) l.length (by rw [hlen]; simp at hk; omega)) hm
        · exact h0
      refine sortLoop_ok ho l0 hne k (s * 2) h' l1 (by omega) i1.lim c1 (by simpa using i1.frm) ?_ (by rw [Nat.mul_comm]; exact hb1) (hp1.trans hp) hst1 hll ?_ hk0
      · intro x hx y hy; exact hcmp x (hp1.mem_iff.1 hx) y (hp1.mem_iff.1 hy)
      · rw [Nat.pow_succ] at hk; rw [Nat.mul_assoc, Nat.mul_comm 2]; exact hk

/-- The pointer-level sort relinks the list into the stable sort of its nodes. -/
theorem sortLinks_ok (ho : StrictWeak lt) {h : FLinks} {l : List Nat} (c : Line h t e l) (hne : l ≠ []) (hcmp : ∀ x ∈ l, ∀ y ∈ l, cmp x y = .ok (lt x y)) (hl : l.length ≤ h.lim) :
    ∃ h' l', sortLinks cmp t e h = .ok h' ∧ h'.lim = h.lim ∧ Line h' t e l' ∧ IsStableSort lt l l' ∧ (∀ x, x ∉ t :: l → h'.nx x = h.nx x) := by
  refine sortLoop_ok ho l hne (h.lim + 1) 1 h l Nat.one_pos rfl c (fun _ _ => rfl) hcmp ?_ (List.Perm.refl _) (fun _ => rfl) hl ?_ (Nat.succ_pos _)
  · intro k
    rcases hx : (l.drop (k * 1)).take 1 with _ | ⟨a, _ | ⟨b, r⟩⟩
    · exact List.Pairwise.nil
    · exact List.pairwise_singleton _ _
    · have h1 := congrArg List.length hx; have h2 := List.length_take_le 1 (l.drop (k * 1)); rw [h1] at h2; simp at h2
  · rw [Nat.one_mul]
    exact Nat.lt_of_lt_of_le (Nat.lt_succ_of_le hl) (Nat.le_of_lt Nat.lt_two_pow_self)

end Etl.FLinks
