import Verif.List.Model

/-!
# Lemmas about the list model
-/
namespace Etl.DList
open Links
variable {α : Type}

theorem mem_items {cap n : Nat} : n ∈ items cap ↔ 2 ≤ n ∧ n ≤ cap + 1 := by
  simp only [items, List.mem_range'_1]; omega
theorem nodup_items (cap : Nat) : (items cap).Nodup := List.nodup_range'
theorem length_items (cap : Nat) : (items cap).length = cap := by simp [items]

/-- The pool: `U` are the nodes in use. -/
structure Pl (s : St α) (U : List Nat) : Prop where
  lim : s.h.lim = s.cap + 1
  part : (U ++ s.free).Perm (items s.cap)
  used : ∀ n ∈ U, s.val n ≠ .raw
  raw : ∀ n ∈ s.free, s.val n = .raw

structure Inv (s : St α) (ns : List Nat) : Prop where
  circ : Circle s.h T ns
  pl : Pl s ns

/-- `s` and `s'` are of the same list object. -/
def Same (s s' : St α) : Prop := s'.cap = s.cap ∧ s'.check = s.check ∧ s'.dbg = s.dbg ∧ s'.triv = s.triv
theorem Same.refl (s : St α) : Same s s := ⟨rfl, rfl, rfl, rfl⟩
theorem Same.trans {a b c : St α} (h : Same a b) (h' : Same b c) : Same a c :=
  ⟨h'.1.trans h.1, h'.2.1.trans h.2.1, h'.2.2.1.trans h.2.2.1, h'.2.2.2.trans h.2.2.2⟩

theorem Pl.perm {s : St α} {U V : List Nat} (h : Pl s U) (p : U.Perm V) : Pl s V :=
  ⟨h.lim, (p.symm.append_right _).trans h.part, fun n hn => h.used n (p.mem_iff.2 hn), h.raw⟩

theorem Pl.nd {s : St α} {U : List Nat} (h : Pl s U) : (U ++ s.free).Nodup := h.part.nodup_iff.2 (nodup_items _)
theorem Pl.len {s : St α} {U : List Nat} (h : Pl s U) : U.length + s.free.length = s.cap := by
  have := h.part.length_eq; rw [List.length_append, length_items] at this; exact this
theorem Pl.size {s : St α} {U : List Nat} (h : Pl s U) : size s = U.length := by have := h.len; unfold DList.size; omega
theorem Pl.bd {s : St α} {U : List Nat} (h : Pl s U) {n : Nat} (hn : n ∈ U ++ s.free) : 2 ≤ n ∧ n ≤ s.cap + 1 := mem_items.1 (h.part.mem_iff.1 hn)
theorem Pl.valid {s : St α} {U : List Nat} (h : Pl s U) {n : Nat} (hn : n ∈ U ++ s.free) : s.h.valid n := by
  have := h.bd hn; unfold Links.valid; rw [h.lim]; omega
theorem Pl.neT {s : St α} {U : List Nat} (h : Pl s U) {n : Nat} (hn : n ∈ U ++ s.free) : n ≠ T := by
  have := h.bd hn; unfold T; omega
theorem Pl.full_iff {s : St α} {U : List Nat} (h : Pl s U) : full s = true ↔ s.free = [] := by
  have := h.len; have := h.size
  unfold full; rw [h.size]; simp only [beq_iff_eq]
  rw [← List.length_eq_zero_iff]; omega
theorem Pl.full_len {s : St α} {U : List Nat} (h : Pl s U) : full s = true ↔ U.length = s.cap := by
  unfold full; rw [h.size]; simp
theorem Tvalid {s : St α} {U : List Nat} (h : Pl s U) : s.h.valid T := by unfold Links.valid T; rw [h.lim]; omega

/-- changing only the links -/
theorem Pl.links {s : St α} {U : List Nat} (h : Pl s U) {k : Links} (hl : k.lim = s.h.lim) : Pl { s with h := k } U :=
  ⟨hl.trans h.lim, h.part, h.used, h.raw⟩

theorem destroyNode_ok {s : St α} {x : Nat} {U : List Nat} (h : Pl s (x :: U)) :
    ∃ s', destroyNode s x = .ok s' ∧ Pl s' U ∧ Same s s' ∧ (∀ y, y ≠ x → s'.val y = s.val y) ∧ s'.h.nx = s.h.nx ∧ s'.h.lim = s.h.lim ∧ (∀ y, y ≠ x → s'.h.pv y = s.h.pv y) := by
  have hx : x ∈ (x :: U) ++ s.free := by simp
  have hnd := h.nd
  have hxf : x ∉ s.free := fun y => (List.nodup_append.1 hnd).2.2 x (by simp) x y rfl
  have hxU : x ∉ U := (List.nodup_cons.1 (List.nodup_append.1 hnd).1).1
  have hu := h.used x (by simp)
  refine ⟨{ s with val := upd s.val x .raw, free := x :: s.free, h := { s.h with pv := upd s.h.pv x (s.free.headD 0) } }, ?_, ?_, ⟨rfl, rfl, rfl, rfl⟩, fun y hy => upd_other _ _ hy, rfl, rfl, fun y hy => upd_other _ _ hy⟩
  · unfold destroyNode
    rw [if_pos ⟨h.valid hx, h.neT hx, hxf⟩]
    cases hv : s.val x with
    | raw => exact absurd hv hu
    | moved => rfl
    | live v => rfl
  · refine ⟨h.lim, ?_, ?_, ?_⟩
    · refine List.Perm.trans ?_ h.part
      exact List.perm_middle
    · intro n hn
      have : n ≠ x := by rintro rfl; exact hxU hn
      simp only [upd_other _ _ this]; exact h.used n (by simp [hn])
    · intro n hn
      by_cases hnx : n = x
      · subst hnx; simp
      · simp only [upd_other _ _ hnx]; exact h.raw n (by simpa [hnx] using hn)

theorem allocate_ok {s : St α} {n : Nat} {f U : List Nat} (h : Pl s U) (hf : s.free = n :: f) (v : α) :
    ∃ s', allocate s v = .ok (some (n, s')) ∧ Pl s' (n :: U) ∧ Same s s' ∧ s'.h = s.h ∧ s'.val n = .live v ∧ (∀ y, y ≠ n → s'.val y = s.val y) ∧ n ∉ U ∧ n ≠ T := by
  have hn : n ∈ U ++ s.free := by simp [hf]
  have hnd := h.nd
  have hnU : n ∉ U := fun y => (List.nodup_append.1 hnd).2.2 n y n (by simp [hf]) rfl
  rw [hf] at hnd
  have hnf : n ∉ f := (List.nodup_cons.1 (List.nodup_append.1 hnd).2.1).1
  refine ⟨{ s with val := upd s.val n (.live v), free := f }, ?_, ?_, ⟨rfl, rfl, rfl, rfl⟩, rfl, by simp, fun y hy => upd_other _ _ hy, hnU, h.neT hn⟩
  · unfold allocate; rw [hf]; simp only [h.raw n (by simp [hf])]
  · refine ⟨h.lim, ?_, ?_, ?_⟩
    · refine List.Perm.trans ?_ h.part
      rw [hf]; exact List.perm_middle.symm
    · intro m hm
      by_cases hmn : m = n
      · subst hmn; simp
      · simp only [upd_other _ _ hmn]; exact h.used m (by simpa [hmn] using hm)
    · intro m hm
      have : m ≠ n := by rintro rfl; exact hnf hm
      simp only [upd_other _ _ this]; exact h.raw m (by simp [hf, hm])

theorem insertNode_ok {s : St α} {A B : List Nat} {n : Nat} (c : Circle s.h T (A ++ B)) (h : Pl s (n :: (A ++ B))) :
    ∃ s', insertNode s (nodeAt T (A ++ B) A.length) n = .ok s' ∧ Inv s' (A ++ n :: B) ∧ Same s s' ∧ s'.val = s.val ∧ s'.free = s.free := by
  have hnd := h.nd
  have hn : n ∈ (n :: (A ++ B)) ++ s.free := by simp
  have hnAB : n ∉ T :: (A ++ B) := by
    intro x; simp only [List.mem_cons] at x
    rcases x with x | x
    · exact h.neT hn x
    · exact (List.nodup_cons.1 (List.nodup_append.1 hnd).1).1 x
  have hnv := h.valid hn
  obtain ⟨h1, h2, h3⟩ := c.insert hnAB hnv
  refine ⟨{ s with h := (s.h.joined (s.h.pv (nodeAt T (A ++ B) A.length)) n).joined n (nodeAt T (A ++ B) A.length) }, ?_, ⟨h3, (h.perm List.perm_middle.symm).links rfl⟩, ⟨rfl, rfl, rfl, rfl⟩, rfl, rfl⟩
  simp only [insertNode, prev_ok h2, join_ok h1 hnv, bind, Except.bind]
  rw [join_ok (by simpa using hnv) (by simpa using h2)]

theorem addAt_ok {s : St α} {A B : List Nat} (i : Inv s (A ++ B)) (hf : s.free ≠ []) (v : α) :
    ∃ s' n, addAt s (nodeAt T (A ++ B) A.length) v = .ok (s', some n) ∧ Inv s' (A ++ n :: B) ∧ Same s s' ∧ (A ++ n :: B).map s'.val = A.map s.val ++ .live v :: B.map s.val ∧
      s'.free.length + 1 = s.free.length := by
  obtain ⟨n, f, hf'⟩ := List.exists_cons_of_ne_nil hf
  obtain ⟨s1, e1, p1, sm1, hh1, v1, v2, hnU, _⟩ := allocate_ok i.pl hf' v
  have c1 : Circle s1.h T (A ++ B) := by rw [hh1]; exact i.circ
  obtain ⟨s2, e2, i2, sm2, v3, f2⟩ := insertNode_ok c1 p1
  have hA : ∀ x ∈ A, x ≠ n := fun x hx e => hnU (by rw [← e]; simp [hx])
  have hB : ∀ x ∈ B, x ≠ n := fun x hx e => hnU (by rw [← e]; simp [hx])
  refine ⟨s2, n, ?_, i2, sm1.trans sm2, ?_, ?_⟩
  · simp only [addAt, e1, e2, bind, Except.bind]
  · rw [v3, List.map_append, List.map_cons, v1]
    congr 1
    · exact List.map_congr_left (fun x hx => v2 x (hA x hx))
    · congr 1; exact List.map_congr_left (fun x hx => v2 x (hB x hx))
  · have h1 := i.pl.len; have h2 := i2.pl.len; rw [(sm1.trans sm2).1] at h2; simp at h1 h2; omega

theorem addAt_full {s : St α} (hf : s.free = []) (p : Nat) (v : α) : addAt s p v = .ok (s, none) := by
  simp [addAt, allocate, hf, bind, Except.bind]

theorem Inv.valid {s : St α} {ns : List Nat} (i : Inv s ns) {x : Nat} (hx : x ∈ ns) : s.h.valid x := i.circ.ok x (by simp [hx])
theorem Inv.neT {s : St α} {ns : List Nat} (i : Inv s ns) {x : Nat} (hx : x ∈ ns) : x ≠ T := by
  rintro rfl; exact (List.nodup_cons.1 i.circ.nd).1 hx
theorem Inv.nodup {s : St α} {ns : List Nat} (i : Inv s ns) : ns.Nodup := (List.nodup_cons.1 i.circ.nd).2
theorem Inv.len {s : St α} {ns : List Nat} (i : Inv s ns) : ns.length ≤ s.cap := by have := i.pl.len; omega

theorem nodeAt_mid (T : Nat) (A : List Nat) (x : Nat) (B : List Nat) : nodeAt T (A ++ x :: B) A.length = x := by simp [nodeAt]
theorem head_nodeAt (T : Nat) (B : List Nat) (h : B ++ [T] ≠ []) : (B ++ [T]).head h = nodeAt T B 0 := by cases B <;> simp [nodeAt]
theorem nodeAt_append (T : Nat) (A B : List Nat) (k : Nat) : nodeAt T (A ++ B) (A.length + k) = nodeAt T B k := by
  simp only [nodeAt]; rw [List.getElem?_append_right (by omega)]; simp

theorem Inv.read {s : St α} {ns : List Nat} (i : Inv s ns) {x : Nat} (hx : x ∈ ns) {v : α} (hv : s.val x = .live v) : DList.read s x = .ok v := by
  unfold DList.read; rw [if_pos ⟨i.valid hx, i.neT hx⟩, hv]

theorem Inv.nx_mid {s : St α} {A B : List Nat} {x : Nat} (i : Inv s (A ++ x :: B)) : s.h.nx x = nodeAt T B 0 := by
  rw [i.circ.next, head_nodeAt]

theorem Inv.pv_mid {s : St α} {A B : List Nat} {x : Nat} (i : Inv s (A ++ x :: B)) : s.h.pv x = (T :: A).getLast (by simp) := by
  have := i.circ.pv_at (i := A.length) (by simp)
  rw [nodeAt_mid] at this
  rw [this]
  rcases List.eq_nil_or_concat A with rfl | ⟨l, a, rfl⟩
  · simp
  · simp only [List.concat_eq_append]
    have : (T :: (l ++ [a])).getLast (by simp) = a := getLast_cons_concat _ _ _ _
    rw [this]; simp [nodeAt]

theorem removeNode_ok {s : St α} {A B : List Nat} {x : Nat} (i : Inv s (A ++ x :: B)) :
    ∃ s', removeNode s x = .ok s' ∧ Inv s' (A ++ B) ∧ Same s s' ∧ (∀ y ∈ A ++ B, s'.val y = s.val y) ∧ s'.free.length = s.free.length + 1 := by
  have hxv := i.valid (x := x) (by simp)
  have c := i.circ
  have e : A ++ x :: B = A ++ [x] ++ B := by simp
  rw [e] at c
  obtain ⟨h1, h2, h3⟩ := c.cut
  have hnx := i.nx_mid; have hpv := i.pv_mid
  rw [← head_nodeAt T B (by simp)] at hnx
  have hx : x ∉ T :: (A ++ B) := by
    intro y
    have h5 := List.nodup_cons.1 ((List.perm_middle (a := x) (l₁ := A) (l₂ := B)).nodup_iff.1 i.nodup)
    rcases List.mem_cons.1 y with y | y
    · exact i.neT (by simp) y
    · exact h5.1 y
  have pl1 : Pl { s with h := s.h.joined ((T :: A).getLast (by simp)) ((B ++ [T]).head (by simp)) } (x :: (A ++ B)) := (i.pl.perm List.perm_middle).links rfl
  obtain ⟨s', e1, p1, sm, v1, n1, l1, q1⟩ := destroyNode_ok pl1
  refine ⟨s', ?_, ⟨⟨?_, h3.nd, ?_⟩, p1⟩, sm, ?_, ?_⟩
  · simp only [removeNode, prev_ok hxv, next_ok hxv, hpv, hnx, join_ok h1 h2, bind, Except.bind, e1]
  · refine h3.ch.frame (fun y _ => by rw [n1]) (fun y hy => q1 y ?_)
    rintro rfl
    exact hx (by simp only [List.cons_append, List.tail_cons, List.mem_append, List.mem_cons, List.not_mem_nil] at hy ⊢; tauto)
  · intro y hy; have := h3.ok y hy; unfold Links.valid at this ⊢; rw [l1]; exact this
  · intro y hy; exact v1 y (by rintro rfl; exact hx (List.mem_cons_of_mem _ hy))
  · have h1 := i.pl.len; have h2 := p1.len; rw [sm.1] at h2; simp at h1 h2; omega

theorem erase_ok {s : St α} {A B : List Nat} {x : Nat} (i : Inv s (A ++ x :: B)) :
    ∃ s', erase s x = .ok (s', nodeAt T B 0) ∧ Inv s' (A ++ B) ∧ Same s s' ∧ (∀ y ∈ A ++ B, s'.val y = s.val y) := by
  obtain ⟨s', e1, i1, sm, v1, _⟩ := removeNode_ok i
  refine ⟨s', ?_, i1, sm, v1⟩
  have hxv := i.valid (x := x) (by simp)
  have hq := i.circ.pv_at (i := A.length + 1) (by simp)
  have e2 : nodeAt T (A ++ x :: B) (A.length + 1) = nodeAt T B 0 := by
    rw [nodeAt_append]; simp [nodeAt]
  rw [e2] at hq
  simp only [Nat.add_one_ne_zero, if_false, Nat.add_sub_cancel, nodeAt_mid] at hq
  have hqv : s.h.valid (nodeAt T B 0) := by
    cases B with
    | nil => exact i.circ.tv
    | cons b B => exact i.valid (by simp [nodeAt])
  simp only [erase, next_ok hxv, i.nx_mid, prev_ok hqv, hq, e1, bind, Except.bind]

theorem eraseLoop_ok : ∀ (k : Nat) {s : St α} {ns M : List Nat} {last : Nat}, Circle s.h T ns → Pl s (M ++ ns) → Fw s.h (M ++ [last]) → last ∈ T :: ns → M.length < k →
    ∃ s', eraseLoop s ((M ++ [last]).head (by simp)) last k = .ok s' ∧ Inv s' ns ∧ Same s s' ∧ (∀ y ∈ ns, s'.val y = s.val y)
  | 0, _, _, _, _, _, _, _, _, hk => by omega
  | k + 1, s, ns, [], last, c, p, _, _, _ => ⟨s, by simp [eraseLoop], ⟨c, p⟩, Same.refl s, fun _ _ => rfl⟩
  | k + 1, s, ns, x :: M, last, c, p, f, hl, hk => by
    have hx : x ∈ (x :: M ++ ns) ++ s.free := by simp
    have hxv := p.valid hx
    have hnd := p.nd
    have hxM : x ∉ M ++ ns := (List.nodup_cons.1 (List.nodup_append.1 hnd).1).1
    have hne : x ≠ last := by
      rintro rfl
      rcases List.mem_cons.1 hl with h | h
      · exact p.neT hx h
      · exact hxM (by simp [h])
    obtain ⟨s1, e1, p1, sm1, v1, n1, l1, q1⟩ := destroyNode_ok (U := M ++ ns) p
    have c1 : Circle s1.h T ns := by
      refine ⟨c.ch.frame (fun y _ => by rw [n1]) (fun y hy => q1 y ?_), c.nd, fun y hy => ?_⟩
      · rintro rfl
        simp only [List.cons_append, List.tail_cons, List.mem_append, List.mem_cons, List.not_mem_nil, or_false] at hy
        rcases hy with hy | hy
        · exact hxM (by simp [hy])
        · exact p.neT hx hy
      · have := c.ok y hy; unfold Links.valid at this ⊢; rw [l1]; exact this
    have f1 : Fw s1.h (M ++ [last]) := (Fw.tail (a := x) (by simpa using f)).frame (fun y _ => by rw [n1])
    obtain ⟨s2, e2, i2, sm2, v2⟩ := eraseLoop_ok k c1 p1 f1 hl (by simp at hk; omega)
    refine ⟨s2, ?_, i2, sm1.trans sm2, fun y hy => (v2 y hy).trans (v1 y (by rintro rfl; exact hxM (by simp [hy])))⟩
    have hnx : s.h.nx x = (M ++ [last]).head (by simp) := by
      cases M with
      | nil => exact f.1
      | cons b M => exact f.1
    show eraseLoop s x last (k + 1) = _
    unfold eraseLoop
    rw [if_pos hne]
    simp only [next_ok hxv, hnx, e1, e2, bind, Except.bind]

theorem eraseRange_ok {s : St α} {A M B : List Nat} (i : Inv s (A ++ M ++ B)) :
    ∃ s', eraseRange s (nodeAt T (A ++ M ++ B) A.length) (nodeAt T (A ++ M ++ B) (A.length + M.length)) = .ok s' ∧ Inv s' (A ++ B) ∧ Same s s' ∧ (∀ y ∈ A ++ B, s'.val y = s.val y) := by
  have hlast : nodeAt T (A ++ M ++ B) (A.length + M.length) = (B ++ [T]).head (by simp) := by
    have : A.length + M.length = (A ++ M).length + 0 := by simp
    rw [this, nodeAt_append, head_nodeAt]
  have hfirst : nodeAt T (A ++ M ++ B) A.length = (M ++ [(B ++ [T]).head (by simp)]).head (by simp) := by
    rw [List.append_assoc]
    have := nodeAt_append T A (M ++ B) 0
    rw [Nat.add_zero] at this
    rw [this]
    cases M with
    | nil => simp [head_nodeAt]
    | cons m M => simp [nodeAt]
  obtain ⟨h1, h2, h3⟩ := i.circ.cut
  have hpv := i.circ.pv_at (i := A.length) (by simp)
  have hpv' : s.h.pv (nodeAt T (A ++ M ++ B) A.length) = (T :: A).getLast (by simp) := by
    rw [hpv]
    rcases List.eq_nil_or_concat A with rfl | ⟨l, a, rfl⟩
    · simp
    · simp only [List.concat_eq_append]
      have : (T :: (l ++ [a])).getLast (by simp) = a := getLast_cons_concat _ _ _ _
      rw [this]; simp [nodeAt]
  have hfv : s.h.valid (nodeAt T (A ++ M ++ B) A.length) := by
    by_cases hx : A.length < (A ++ M ++ B).length
    · rw [nodeAt_lt hx]; exact i.valid (List.getElem_mem _)
    · rw [nodeAt_len (by omega)]; exact i.circ.tv
  have pl1 : Pl { s with h := s.h.joined ((T :: A).getLast (by simp)) ((B ++ [T]).head (by simp)) } (M ++ (A ++ B)) := by
    refine (i.pl.perm ?_).links rfl
    rw [List.append_assoc]
    exact (List.perm_append_comm_assoc A M B)
  have hnd := i.nodup
  have f1 : Fw (s.h.joined ((T :: A).getLast (by simp)) ((B ++ [T]).head (by simp))) (M ++ [(B ++ [T]).head (by simp)]) := by
    have hch := i.circ.ch.fw
    obtain ⟨q, S, e⟩ : ∃ q S, B ++ [T] = q :: S := ⟨(B ++ [T]).head (by simp), (B ++ [T]).tail, (List.cons_head_tail _).symm⟩
    have hw : T :: (A ++ M ++ B) ++ [T] = (T :: A) ++ ((M ++ [q]) ++ S) := by
      have : T :: (A ++ M ++ B) ++ [T] = (T :: A) ++ (M ++ (B ++ [T])) := by simp
      rw [this, e]; simp
    rw [hw] at hch
    have hf := hch.right.left
    simp only [e, List.head_cons]
    refine hf.join_frame ?_
    rw [List.dropLast_concat]
    intro hx
    have hm : (T :: A).getLast (by simp) ∈ T :: A := List.getLast_mem _
    rcases List.mem_cons.1 hm with hm | hm
    · exact i.neT (by rw [hm] at hx; simp [hx] : T ∈ A ++ M ++ B) rfl
    · rw [List.append_assoc] at hnd
      exact (List.nodup_append.1 hnd).2.2 _ hm _ (by simp [hx]) rfl
  obtain ⟨s', e1, i1, sm, v1⟩ := eraseLoop_ok (s.cap + 1) (s := { s with h := s.h.joined ((T :: A).getLast (by simp)) ((B ++ [T]).head (by simp)) }) h3 pl1 f1
    (by have hm : (B ++ [T]).head (by simp) ∈ B ++ [T] := List.head_mem _
        simp only [List.mem_append, List.mem_cons, List.not_mem_nil, or_false] at hm ⊢; tauto)
    (by have := i.len; simp at this; omega)
  refine ⟨s', ?_, i1, sm, v1⟩
  rw [hlast]
  simp only [eraseRange, prev_ok hfv, hpv', join_ok h1 h2, bind, Except.bind]
  rw [hfirst]; exact e1

theorem clearLoop_ok : ∀ (k : Nat) {s : St α} {M : List Nat}, Pl s M → Fw s.h (M ++ [T]) → M.length < k →
    ∃ s', clearLoop s ((M ++ [T]).head (by simp)) k = .ok s' ∧ Pl s' [] ∧ Same s s'
  | 0, _, _, _, _, hk => by omega
  | k + 1, s, [], p, _, _ => ⟨s, by simp [clearLoop], p, Same.refl s⟩
  | k + 1, s, x :: M, p, f, hk => by
    have hx : x ∈ (x :: M) ++ s.free := by simp
    have hxv := p.valid hx
    obtain ⟨s1, e1, p1, sm1, v1, n1, l1, q1⟩ := destroyNode_ok p
    have f1 : Fw s1.h (M ++ [T]) := (Fw.tail (a := x) (by simpa using f)).frame (fun y _ => by rw [n1])
    obtain ⟨s2, e2, p2, sm2⟩ := clearLoop_ok k p1 f1 (by simp at hk; omega)
    refine ⟨s2, ?_, p2, sm1.trans sm2⟩
    have hnx : s.h.nx x = (M ++ [T]).head (by simp) := by
      cases M with
      | nil => exact f.1
      | cons b M => exact f.1
    have hxv1 : s1.h.valid x := by unfold Links.valid at hxv ⊢; rw [l1]; exact hxv
    show clearLoop s x (k + 1) = _
    unfold clearLoop
    rw [if_pos (p.neT hx)]
    simp only [e1, next_ok hxv1, n1, hnx, e2, bind, Except.bind]

theorem empty_ok {s : St α} {ns : List Nat} (i : Inv s ns) : empty s = .ok (decide (ns = [])) := by
  simp only [empty, next_ok i.circ.tv, i.circ.first, bind, Except.bind]
  cases ns with
  | nil => simp [nodeAt]
  | cons a l =>
    have := i.neT (x := a) (by simp)
    simp [nodeAt, this]

theorem initialise_ok {s : St α} {ns : List Nat} (i : Inv s ns) :
    ∃ s', initialise s = .ok s' ∧ Inv s' [] ∧ Same s s' := by
  have hfin : ∀ s1 : St α, releaseAll s = .ok s1 → Pl s1 [] → Same s s1 → ∃ s', initialise s = .ok s' ∧ Inv s' [] ∧ Same s s' := by
    intro s1 e1 p1 sm1
    have htv : s1.h.valid T := Tvalid p1
    refine ⟨{ s1 with h := s1.h.joined T T }, by simp only [initialise, e1, join_ok htv htv, bind, Except.bind], ⟨⟨?_, by simp, by simpa using htv⟩, p1.links rfl⟩, sm1⟩
    exact ⟨by simp [joined], by simp [joined], trivial⟩
  by_cases h0 : ns = []
  · subst h0
    exact hfin s (by simp [releaseAll, empty_ok i, bind, Except.bind]) i.pl (Same.refl s)
  · by_cases ht : s.triv = true
    · refine hfin { s with val := fun _ => .raw, free := items s.cap } ?_ ?_ ⟨rfl, rfl, rfl, rfl⟩
      · simp [releaseAll, empty_ok i, h0, ht, bind, Except.bind]
      · exact ⟨i.pl.lim, by simp, by simp, by simp⟩
    · obtain ⟨s1, e1, p1, sm1⟩ := clearLoop_ok (s.cap + 1) i.pl (by simpa using i.circ.ch.fw.tail) (by have := i.len; omega)
      refine hfin s1 ?_ p1 sm1
      rw [head_nodeAt] at e1
      simp [releaseAll, empty_ok i, h0, ht, next_ok i.circ.tv, i.circ.first, bind, Except.bind, e1]

theorem fwd_ok {s : St α} {ns : List Nat} (i : Inv s ns) : ∀ (k j : Nat), j + k ≤ ns.length → fwd s.h (nodeAt T ns j) k = .ok (nodeAt T ns (j + k))
  | 0, j, _ => rfl
  | k + 1, j, h => by
    have hj : j < ns.length := by omega
    have hv := i.valid (List.getElem_mem hj)
    have := fwd_ok i k (j + 1) (by omega)
    simp only [fwd, nodeAt_lt hj, next_ok hv, i.circ.nx_at hj, bind, Except.bind, this]
    congr 2; omega

theorem iter_ok {s : St α} {ns : List Nat} (i : Inv s ns) {k : Nat} (hk : k ≤ ns.length) : iter s k = .ok (nodeAt T ns k) := by
  simp only [iter, next_ok i.circ.tv, i.circ.first, bind, Except.bind]
  rw [fwd_ok i k 0 (by omega), Nat.zero_add]

theorem nodeAt_inj {s : St α} {ns : List Nat} (i : Inv s ns) {j k : Nat} (hj : j ≤ ns.length) (hk : k ≤ ns.length) : nodeAt T ns j = nodeAt T ns k ↔ j = k := by
  constructor
  · intro e
    by_cases h1 : j < ns.length <;> by_cases h2 : k < ns.length
    · rw [nodeAt_lt h1, nodeAt_lt h2] at e; exact (List.getElem_inj i.nodup).1 e
    · rw [nodeAt_lt h1, nodeAt_len (by omega)] at e; exact absurd e (i.neT (List.getElem_mem h1))
    · rw [nodeAt_lt h2, nodeAt_len (by omega)] at e; exact absurd e.symm (i.neT (List.getElem_mem h2))
    · omega
  · rintro rfl; rfl

theorem posOf_ok {s : St α} {ns : List Nat} (i : Inv s ns) {p : Nat} (hp : p ≤ ns.length) : ∀ (k j : Nat), j ≤ p → p - j < k → posOf s (nodeAt T ns p) (nodeAt T ns j) k = .ok (p - j)
  | 0, _, _, h => by omega
  | k + 1, j, hj, h => by
    unfold posOf
    by_cases e : j = p
    · subst e; simp
    · rw [if_neg (fun x => e ((nodeAt_inj i (by omega) hp).1 x))]
      have hjl : j < ns.length := by omega
      have hv := i.valid (List.getElem_mem hjl)
      have := posOf_ok i hp k (j + 1) (by omega) (by omega)
      simp only [nodeAt_lt hjl, next_ok hv, i.circ.nx_at hjl, this, bind, Except.bind]
      congr 1; omega

theorem position_ok {s : St α} {ns : List Nat} (i : Inv s ns) {p : Nat} (hp : p ≤ ns.length) : position s (nodeAt T ns p) = .ok p := by
  simp only [position, next_ok i.circ.tv, i.circ.first, bind, Except.bind]
  rw [posOf_ok i hp _ 0 (by omega) (by have := i.len; omega)]; rfl

theorem back_ok {s : St α} {ns : List Nat} (i : Inv s ns) : ∀ (k j : Nat), k ≤ j → j ≤ ns.length → back s.h (nodeAt T ns j) k = .ok (nodeAt T ns (j - k))
  | 0, j, _, _ => rfl
  | k + 1, j, h, hj => by
    have hv : s.h.valid (nodeAt T ns j) := by
      by_cases hx : j < ns.length
      · rw [nodeAt_lt hx]; exact i.valid (List.getElem_mem _)
      · rw [nodeAt_len (by omega)]; exact i.circ.tv
    have := back_ok i k (j - 1) (by omega) (by omega)
    simp only [back, prev_ok hv, i.circ.pv_at hj, bind, Except.bind]
    rw [if_neg (by omega), this]; congr 2; omega

end Etl.DList
