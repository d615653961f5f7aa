import Verif.SharedList.Model
import Batteries.Tactic.SeqFocus
import Mathlib.Tactic.ByContra

/-!
# Lemmas about lists that share a pool: one list in focus, the nodes `R` belong to the others
-/
namespace Etl.SList
open Links
variable {α : Type}

theorem mem_items {k cap n : Nat} : n ∈ items k cap ↔ k + 1 ≤ n ∧ n ≤ k + cap := by
  simp only [items, List.mem_range'_1]; omega
theorem nodup_items (k cap : Nat) : (items k cap).Nodup := List.nodup_range'
theorem length_items (k cap : Nat) : (items k cap).length = cap := by simp [items]

/-- The pool: `U` are the nodes in use. -/
structure Pl (s : St α) (U : List Nat) : Prop where
  lim : s.h.lim = s.k + s.cap
  part : (U ++ s.free).Perm (items s.k s.cap)
  used : ∀ n ∈ U, s.val n ≠ .raw
  raw : ∀ n ∈ s.free, s.val n = .raw

/-- The list with terminal node `t` has the nodes `ns`; the other lists have the nodes `R`. -/
structure Foc (s : St α) (t : Nat) (ns R : List Nat) : Prop where
  circ : Circle s.h t ns
  pl : Pl s (ns ++ R)
  tk : t ≤ s.k

/-- Same pool and options; the nodes `R` and the terminal nodes other than `t` are untouched. -/
structure Same (t : Nat) (R : List Nat) (s s' : St α) : Prop where
  cap : s'.cap = s.cap
  k : s'.k = s.k
  check : s'.check = s.check
  dbg : s'.dbg = s.dbg
  lim : s'.h.lim = s.h.lim
  oth : ∀ x, x ∈ R ∨ (x ≤ s.k ∧ x ≠ t) → s'.h.nx x = s.h.nx x ∧ s'.h.pv x = s.h.pv x ∧ s'.val x = s.val x

theorem Same.refl {t : Nat} {R : List Nat} (s : St α) : Same t R s s := ⟨rfl, rfl, rfl, rfl, rfl, fun _ _ => ⟨rfl, rfl, rfl⟩⟩
theorem Same.trans {t : Nat} {R : List Nat} {a b c : St α} (h : Same t R a b) (h' : Same t R b c) : Same t R a c :=
  ⟨h'.cap.trans h.cap, h'.k.trans h.k, h'.check.trans h.check, h'.dbg.trans h.dbg, h'.lim.trans h.lim, fun x hx => by
    obtain ⟨a1, a2, a3⟩ := h.oth x hx
    obtain ⟨b1, b2, b3⟩ := h'.oth x (by rw [h.k]; exact hx)
    exact ⟨b1.trans a1, b2.trans a2, b3.trans a3⟩⟩

/-- writes to node `y` only -/
theorem Same.mk' {t : Nat} {R : List Nat} {s s' : St α} (h1 : s'.cap = s.cap) (h2 : s'.k = s.k) (h3 : s'.check = s.check) (h4 : s'.dbg = s.dbg) (h5 : s'.h.lim = s.h.lim)
    (h6 : ∀ x, x ∈ R ∨ (x ≤ s.k ∧ x ≠ t) → s'.h.nx x = s.h.nx x ∧ s'.h.pv x = s.h.pv x ∧ s'.val x = s.val x) : Same t R s s' := ⟨h1, h2, h3, h4, h5, h6⟩

theorem Pl.perm {s : St α} {U V : List Nat} (h : Pl s U) (p : U.Perm V) : Pl s V :=
  ⟨h.lim, (p.symm.append_right _).trans h.part, fun n hn => h.used n (p.mem_iff.2 hn), h.raw⟩
theorem Pl.nd {s : St α} {U : List Nat} (h : Pl s U) : (U ++ s.free).Nodup := h.part.nodup_iff.2 (nodup_items _ _)
theorem Pl.len {s : St α} {U : List Nat} (h : Pl s U) : U.length + s.free.length = s.cap := by
  have := h.part.length_eq; rw [List.length_append, length_items] at this; exact this
theorem Pl.bd {s : St α} {U : List Nat} (h : Pl s U) {n : Nat} (hn : n ∈ U ++ s.free) : s.k + 1 ≤ n ∧ n ≤ s.k + s.cap := mem_items.1 (h.part.mem_iff.1 hn)
theorem Pl.valid {s : St α} {U : List Nat} (h : Pl s U) {n : Nat} (hn : n ∈ U ++ s.free) : s.h.valid n := by
  have := h.bd hn; unfold Links.valid; rw [h.lim]; omega
theorem Pl.full_iff {s : St α} {U : List Nat} (h : Pl s U) : full s = true ↔ s.free = [] := by
  have := h.len
  unfold full; simp only [beq_iff_eq]
  rw [← List.length_eq_zero_iff]; omega
theorem Pl.full_len {s : St α} {U : List Nat} (h : Pl s U) : full s = true ↔ U.length = s.cap := by
  have := h.len
  unfold full; simp only [beq_iff_eq]; omega
/-- changing only the links -/
theorem Pl.links {s : St α} {U : List Nat} (h : Pl s U) {k : Links} (hl : k.lim = s.h.lim) : Pl { s with h := k } U :=
  ⟨hl.trans h.lim, h.part, h.used, h.raw⟩

theorem destroyNode_ok {s : St α} {x : Nat} {U : List Nat} (h : Pl s (x :: U)) :
    ∃ s', destroyNode s x = .ok s' ∧ Pl s' U ∧ s'.cap = s.cap ∧ s'.k = s.k ∧ s'.check = s.check ∧ s'.dbg = s.dbg ∧
      (∀ y, y ≠ x → s'.val y = s.val y) ∧ s'.h.nx = s.h.nx ∧ s'.h.lim = s.h.lim ∧ (∀ y, y ≠ x → s'.h.pv y = s.h.pv y) := by
  have hx : x ∈ (x :: U) ++ s.free := by simp
  have hnd := h.nd
  have hxf : x ∉ s.free := fun y => (List.nodup_append.1 hnd).2.2 x (by simp) x y rfl
  have hxU : x ∉ U := (List.nodup_cons.1 (List.nodup_append.1 hnd).1).1
  have hu := h.used x (by simp)
  refine ⟨{ s with val := upd s.val x .raw, free := x :: s.free, h := { s.h with pv := upd s.h.pv x (s.free.headD 0) } }, ?_, ?_, rfl, rfl, rfl, rfl, fun y hy => upd_other _ _ hy, rfl, rfl, fun y hy => upd_other _ _ hy⟩
  · unfold destroyNode
    rw [if_pos ⟨h.valid hx, (h.bd hx).1, hxf⟩]
    cases hv : s.val x with
    | raw => exact absurd hv hu
    | moved => rfl
    | live v => rfl
  · refine ⟨h.lim, ?_, ?_, ?_⟩
    · refine List.Perm.trans ?_ h.part
      exact List.perm_middle
    · intro n hn
      have : n ≠ x := by rintro rfl; exact hxU hn
      simp only [upd_other _ _ this]; exact h.used n (by simp [hn])
    · intro n hn
      by_cases hnx : n = x
      · subst hnx; simp
      · simp only [upd_other _ _ hnx]; exact h.raw n (by simpa [hnx] using hn)

theorem allocate_ok {s : St α} {n : Nat} {f U : List Nat} (h : Pl s U) (hf : s.free = n :: f) (v : α) :
    ∃ s', allocate s v = .ok (some (n, s')) ∧ Pl s' (n :: U) ∧ s'.cap = s.cap ∧ s'.k = s.k ∧ s'.check = s.check ∧ s'.dbg = s.dbg ∧
      s'.h = s.h ∧ s'.val n = .live v ∧ (∀ y, y ≠ n → s'.val y = s.val y) ∧ n ∉ U := by
  have hn : n ∈ U ++ s.free := by simp [hf]
  have hnd := h.nd
  have hnU : n ∉ U := fun y => (List.nodup_append.1 hnd).2.2 n y n (by simp [hf]) rfl
  rw [hf] at hnd
  have hnf : n ∉ f := (List.nodup_cons.1 (List.nodup_append.1 hnd).2.1).1
  refine ⟨{ s with val := upd s.val n (.live v), free := f }, ?_, ?_, rfl, rfl, rfl, rfl, rfl, by simp, fun y hy => upd_other _ _ hy, hnU⟩
  · unfold allocate; rw [hf]; simp only [h.raw n (by simp [hf])]
  · refine ⟨h.lim, ?_, ?_, ?_⟩
    · refine List.Perm.trans ?_ h.part
      rw [hf]; exact List.perm_middle.symm
    · intro m hm
      by_cases hmn : m = n
      · subst hmn; simp
      · simp only [upd_other _ _ hmn]; exact h.used m (by simpa [hmn] using hm)
    · intro m hm
      have : m ≠ n := by rintro rfl; exact hnf hm
      simp only [upd_other _ _ this]; exact h.raw m (by simp [hf, hm])

section
variable {s : St α} {t : Nat} {R : List Nat}

/-- a node of the other lists or another terminal node is not one of mine -/
theorem Foc.oth_ne {ns : List Nat} (i : Foc s t ns R) {x : Nat} (hx : x ∈ R ∨ (x ≤ s.k ∧ x ≠ t)) : x ∉ t :: ns ∧ x ∉ s.free := by
  have hnd := i.pl.nd
  rcases hx with hx | ⟨hx, hxt⟩
  · have hb := i.pl.bd (n := x) (by simp [hx])
    have := i.tk
    refine ⟨?_, ?_⟩
    · intro h
      rcases List.mem_cons.1 h with h | h
      · omega
      · exact (List.nodup_append.1 (List.nodup_append.1 hnd).1).2.2 x h x hx rfl
    · intro h
      exact (List.nodup_append.1 hnd).2.2 x (by simp [hx]) x h rfl
  · refine ⟨?_, ?_⟩
    · intro h
      rcases List.mem_cons.1 h with h | h
      · exact hxt h
      · have := i.pl.bd (n := x) (by simp [h]); omega
    · intro h
      have := i.pl.bd (n := x) (by simp [h]); omega

theorem Foc.valid {ns : List Nat} (i : Foc s t ns R) {x : Nat} (hx : x ∈ ns) : s.h.valid x := i.circ.ok x (by simp [hx])
theorem Foc.neT {ns : List Nat} (i : Foc s t ns R) {x : Nat} (hx : x ∈ ns) : x ≠ t := by
  rintro rfl; exact (List.nodup_cons.1 i.circ.nd).1 hx
theorem Foc.nodup {ns : List Nat} (i : Foc s t ns R) : ns.Nodup := (List.nodup_cons.1 i.circ.nd).2
theorem Foc.len {ns : List Nat} (i : Foc s t ns R) : ns.length + R.length ≤ s.cap := by have := i.pl.len; rw [List.length_append] at this; omega
theorem Foc.bk {ns : List Nat} (i : Foc s t ns R) {x : Nat} (hx : x ∈ ns) : s.k < x := (i.pl.bd (n := x) (by simp [hx])).1

theorem insertNode_ok {A B : List Nat} {n : Nat} (c : Circle s.h t (A ++ B)) (h : Pl s (n :: (A ++ B ++ R))) (ht : t ≤ s.k) :
    ∃ s', insertNode s (nodeAt t (A ++ B) A.length) n = .ok s' ∧ Foc s' t (A ++ n :: B) R ∧ Same t R s s' ∧ s'.val = s.val ∧ s'.free = s.free := by
  have hnd := h.nd
  have hn : n ∈ (n :: (A ++ B ++ R)) ++ s.free := by simp
  have hbn := h.bd hn
  have hnU : n ∉ A ++ B ++ R := (List.nodup_cons.1 (List.nodup_append.1 hnd).1).1
  have hnAB : n ∉ t :: (A ++ B) := by
    intro x
    rcases List.mem_cons.1 x with x | x
    · omega
    · exact hnU (by simp only [List.mem_append] at x ⊢; tauto)
  have hnv := h.valid hn
  obtain ⟨h1, h2, h3⟩ := c.insert hnAB hnv
  have hpl : Pl { s with h := (s.h.joined (s.h.pv (nodeAt t (A ++ B) A.length)) n).joined n (nodeAt t (A ++ B) A.length) } ((A ++ n :: B) ++ R) := by
    refine (h.perm ?_).links rfl
    rw [List.append_assoc, List.append_assoc, List.cons_append]
    exact List.perm_middle.symm
  have hmem : ∀ i, nodeAt t (A ++ B) i ∈ t :: (A ++ B) := by
    intro i
    by_cases hx : i < (A ++ B).length
    · rw [nodeAt_lt hx]; exact List.mem_cons_of_mem _ (List.getElem_mem hx)
    · rw [nodeAt_len (by omega)]; simp
  have hpm : s.h.pv (nodeAt t (A ++ B) A.length) ∈ t :: (A ++ B) := by
    rw [c.pv_at (by simp)]
    split_ifs
    · simp
    · exact hmem _
  refine ⟨{ s with h := (s.h.joined (s.h.pv (nodeAt t (A ++ B) A.length)) n).joined n (nodeAt t (A ++ B) A.length) }, ?_, ⟨h3, hpl, ht⟩, ⟨rfl, rfl, rfl, rfl, rfl, ?_⟩, rfl, rfl⟩
  · simp only [insertNode, prev_ok h2, join_ok h1 hnv, bind, Except.bind]
    rw [join_ok (by simpa using hnv) (by simpa using h2)]
  · intro x hx
    have hxAB : x ∉ t :: (A ++ B) := by
      intro hm
      rcases hx with hx | ⟨hx, hxt⟩
      · rcases List.mem_cons.1 hm with hm | hm
        · have := h.bd (n := x) (by simp [hx]); omega
        · exact (List.nodup_append.1 (List.nodup_cons.1 (List.nodup_append.1 hnd).1).2).2.2 x hm x hx rfl
      · rcases List.mem_cons.1 hm with hm | hm
        · exact hxt hm
        · have := h.bd (n := x) (by simp only [List.mem_append, List.mem_cons] at hm ⊢; tauto); omega
    have hxn : x ≠ n := by
      rintro rfl
      rcases hx with hx | ⟨hx, _⟩
      · exact hnU (by simp [hx])
      · omega
    have e1 : x ≠ s.h.pv (nodeAt t (A ++ B) A.length) := fun e => hxAB (e ▸ hpm)
    have e2 : x ≠ nodeAt t (A ++ B) A.length := fun e => hxAB (e ▸ hmem _)
    refine ⟨?_, ?_, rfl⟩
    · simp only [joined, upd_other _ _ hxn, upd_other _ _ e1]
    · simp only [joined, upd_other _ _ e2, upd_other _ _ hxn]

theorem nodeAt_mid (t : Nat) (A : List Nat) (x : Nat) (B : List Nat) : nodeAt t (A ++ x :: B) A.length = x := by simp [nodeAt]
theorem head_nodeAt (t : Nat) (B : List Nat) (h : B ++ [t] ≠ []) : (B ++ [t]).head h = nodeAt t B 0 := by cases B <;> simp [nodeAt]
theorem nodeAt_append (t : Nat) (A B : List Nat) (k : Nat) : nodeAt t (A ++ B) (A.length + k) = nodeAt t B k := by
  simp only [nodeAt]; rw [List.getElem?_append_right (by omega)]; simp
theorem nodeAt_app0 (t : Nat) (A B : List Nat) : nodeAt t (A ++ B) A.length = nodeAt t B 0 := by
  have := nodeAt_append t A B 0; simpa using this

/-- `insert_node(position, allocate_data_node(v))` with a free item. -/
theorem addAt_ok {A B : List Nat} (i : Foc s t (A ++ B) R) (hf : s.free ≠ []) (v : α) :
    ∃ s' n, addAt s (nodeAt t B 0) v = .ok (s', some n) ∧ Foc s' t (A ++ n :: B) R ∧ Same t R s s' ∧ s'.val n = .live v ∧ (∀ y ∈ A ++ B, s'.val y = s.val y) ∧
      s'.free.length + 1 = s.free.length := by
  obtain ⟨n, f, hf'⟩ := List.exists_cons_of_ne_nil hf
  obtain ⟨s1, e1, p1, k1, k2, k3, k4, hh1, v1, v2, hnU⟩ := allocate_ok i.pl hf' v
  have c1 : Circle s1.h t (A ++ B) := by rw [hh1]; exact i.circ
  obtain ⟨s2, e2, i2, sm2, v3, f2⟩ := insertNode_ok c1 p1 (by rw [k2]; exact i.tk)
  have sm1 : Same t R s s1 := ⟨k1, k2, k3, k4, by rw [hh1], fun x hx => ⟨by rw [hh1], by rw [hh1], v2 x (by
    rintro rfl; exact (i.oth_ne hx).2 (by simp [hf']))⟩⟩
  have hm : ∀ x ∈ A ++ B, x ≠ n := fun x hx e => hnU (by rw [← e]; exact List.mem_append_left _ hx)
  rw [nodeAt_app0] at e2
  refine ⟨s2, n, ?_, i2, sm1.trans sm2, by rw [v3]; exact v1, fun y hy => by rw [v3]; exact v2 y (hm y hy), ?_⟩
  · simp only [addAt, e1, e2, bind, Except.bind]
  · have h1 := i.pl.len; have h2 := i2.pl.len; rw [(sm1.trans sm2).cap] at h2; simp at h1 h2; omega

theorem addAt_full (hf : s.free = []) (p : Nat) (v : α) : addAt s p v = .ok (s, none) := by
  simp [addAt, allocate, hf, bind, Except.bind]

theorem Foc.read {ns : List Nat} (i : Foc s t ns R) {x : Nat} (hx : x ∈ ns) {v : α} (hv : s.val x = .live v) : SList.read s x = .ok v := by
  unfold SList.read; rw [if_pos ⟨i.valid hx, i.bk hx⟩, hv]

theorem Foc.nx_mid {A B : List Nat} {x : Nat} (i : Foc s t (A ++ x :: B) R) : s.h.nx x = nodeAt t B 0 := by
  rw [i.circ.next, head_nodeAt]

theorem getLast_eq_pv {A B : List Nat} (c : Circle s.h t (A ++ B)) : s.h.pv (nodeAt t B 0) = (t :: A).getLast (by simp) := by
  have := c.pv_at (i := A.length) (by simp)
  rw [nodeAt_app0] at this
  rw [this]
  rcases List.eq_nil_or_concat A with rfl | ⟨l, a, rfl⟩
  · simp
  · simp only [List.concat_eq_append]
    have : (t :: (l ++ [a])).getLast (by simp) = a := getLast_cons_concat _ _ _ _
    rw [this]; simp [nodeAt]

theorem Foc.valid_at {A B : List Nat} (i : Foc s t (A ++ B) R) : s.h.valid (nodeAt t B 0) := by
  cases B with
  | nil => exact i.circ.tv
  | cons b B => exact i.valid (by simp [nodeAt])

/-- A circle survives changes elsewhere. -/
theorem circle_frame {h h' : Links} {t : Nat} {ns : List Nat} (c : Circle h t ns) (hl : h'.lim = h.lim) (hf : ∀ x ∈ t :: ns, h'.nx x = h.nx x ∧ h'.pv x = h.pv x) : Circle h' t ns := by
  refine ⟨c.ch.frame (fun y hy => (hf y ?_).1) (fun y hy => (hf y ?_).2), c.nd, fun y hy => ?_⟩
  · rw [List.dropLast_concat] at hy; exact hy
  · simp only [List.cons_append, List.tail_cons, List.mem_append, List.mem_cons, List.not_mem_nil, or_false] at hy ⊢; tauto
  · have := c.ok y hy; unfold Links.valid at this ⊢; rw [hl]; exact this

/-- Cutting `M` out of the list. -/
theorem cut_ok {A M B : List Nat} (i : Foc s t (A ++ M ++ B) R) :
    let p := (t :: A).getLast (by simp)
    let q := nodeAt t B 0
    s.h.valid p ∧ s.h.valid q ∧ Circle (s.h.joined p q) t (A ++ B) ∧ Pl { s with h := s.h.joined p q } (M ++ (A ++ B ++ R)) ∧ Same t R s { s with h := s.h.joined p q } ∧
      Fw (s.h.joined p q) (M ++ [q]) := by
  obtain ⟨h1, h2, h3⟩ := i.circ.cut
  have hq := head_nodeAt t B (by simp)
  simp only [hq] at h2 h3
  have hpm : (t :: A).getLast (by simp) ∈ t :: A := List.getLast_mem _
  have hqm : nodeAt t B 0 ∈ B ++ [t] := by rw [← hq]; exact List.head_mem _
  refine ⟨h1, h2, h3, ?_, ⟨rfl, rfl, rfl, rfl, rfl, ?_⟩, ?_⟩
  · refine (i.pl.perm ?_).links rfl
    simp only [List.append_assoc]
    exact List.perm_append_comm_assoc A M (B ++ R)
  · intro x hx
    have hno := (i.oth_ne hx).1
    have e1 : x ≠ (t :: A).getLast (by simp) := by
      intro e; rw [← e] at hpm; exact hno (by simp only [List.mem_cons, List.mem_append] at hpm ⊢; tauto)
    have e2 : x ≠ nodeAt t B 0 := by
      intro e; rw [← e] at hqm; exact hno (by simp only [List.mem_cons, List.mem_append, List.not_mem_nil, or_false] at hqm ⊢; tauto)
    exact ⟨upd_other _ _ e1, upd_other _ _ e2, rfl⟩
  · have hnd := i.nodup
    have hch := i.circ.ch.fw
    obtain ⟨q, S, e⟩ : ∃ q S, B ++ [t] = q :: S := ⟨(B ++ [t]).head (by simp), (B ++ [t]).tail, (List.cons_head_tail _).symm⟩
    have hw : t :: (A ++ M ++ B) ++ [t] = (t :: A) ++ ((M ++ [q]) ++ S) := by
      have : t :: (A ++ M ++ B) ++ [t] = (t :: A) ++ (M ++ (B ++ [t])) := by simp
      rw [this, e]; simp
    rw [hw] at hch
    have hf := hch.right.left
    simp only [← hq, e, List.head_cons]
    refine hf.join_frame ?_
    rw [List.dropLast_concat]
    intro hx
    rcases List.mem_cons.1 hpm with hm | hm
    · exact i.neT (by rw [hm] at hx; simp [hx] : t ∈ A ++ M ++ B) rfl
    · rw [List.append_assoc] at hnd
      exact (List.nodup_append.1 hnd).2.2 _ hm _ (by simp [hx]) rfl

/-- Destroying a node outside the circle. -/
theorem destroy_foc {ns M : List Nat} {x : Nat} (c : Circle s.h t ns) (p : Pl s (x :: M ++ (ns ++ R))) (ht : t ≤ s.k) :
    ∃ s', destroyNode s x = .ok s' ∧ Circle s'.h t ns ∧ Pl s' (M ++ (ns ++ R)) ∧ Same t R s s' ∧ (∀ y ∈ ns, s'.val y = s.val y) ∧ s'.h.nx = s.h.nx := by
  obtain ⟨s1, e1, p1, k1, k2, k3, k4, v1, n1, l1, q1⟩ := destroyNode_ok (U := M ++ (ns ++ R)) p
  have hnd := p.nd
  have hx : x ∉ M ++ (ns ++ R) := (List.nodup_cons.1 (List.nodup_append.1 hnd).1).1
  have hb := p.bd (n := x) (by simp)
  refine ⟨s1, e1, circle_frame c l1 (fun y hy => ⟨by rw [n1], q1 y ?_⟩), p1, ⟨k1, k2, k3, k4, l1, fun y hy => ?_⟩, fun y hy => v1 y ?_, n1⟩
  · rintro rfl
    rcases List.mem_cons.1 hy with hy | hy
    · omega
    · exact hx (by simp [hy])
  · have : y ≠ x := by
      rintro rfl
      rcases hy with hy | ⟨hy, _⟩
      · exact hx (by simp [hy])
      · omega
    exact ⟨by rw [n1], q1 y this, v1 y this⟩
  · rintro rfl; exact hx (by simp [hy])

theorem removeNode_ok {A B : List Nat} {x : Nat} (i : Foc s t (A ++ x :: B) R) :
    ∃ s', removeNode s x = .ok s' ∧ Foc s' t (A ++ B) R ∧ Same t R s s' ∧ (∀ y ∈ A ++ B, s'.val y = s.val y) := by
  have i' : Foc s t (A ++ [x] ++ B) R := by simpa using i
  obtain ⟨h1, h2, h3, h4, h5, _⟩ := cut_ok i'
  have hxv := i.valid (x := x) (by simp)
  have hpv := getLast_eq_pv i.circ
  have hx0 : nodeAt t (x :: B) 0 = x := by simp [nodeAt]
  rw [hx0] at hpv
  obtain ⟨s', e1, c1, p1, sm, v1, n1⟩ := destroy_foc (s := { s with h := s.h.joined ((t :: A).getLast (by simp)) (nodeAt t B 0) }) (M := []) h3 h4 i.tk
  refine ⟨s', ?_, ⟨c1, by simpa using p1, by rw [sm.k]; exact i.tk⟩, h5.trans sm, v1⟩
  simp only [removeNode, prev_ok hxv, next_ok hxv, hpv, i.nx_mid, join_ok h1 h2, bind, Except.bind, e1]

theorem erase_ok {A B : List Nat} {x : Nat} (i : Foc s t (A ++ x :: B) R) :
    ∃ s', erase s x = .ok (s', nodeAt t B 0) ∧ Foc s' t (A ++ B) R ∧ Same t R s s' ∧ (∀ y ∈ A ++ B, s'.val y = s.val y) := by
  obtain ⟨s', e1, i1, sm, v1⟩ := removeNode_ok i
  refine ⟨s', ?_, i1, sm, v1⟩
  have hxv := i.valid (x := x) (by simp)
  have i2 : Foc s t ((A ++ [x]) ++ B) R := by simpa using i
  have hq := getLast_eq_pv i2.circ
  rw [show (t :: (A ++ [x])).getLast (by simp) = x from getLast_cons_concat _ _ _ _] at hq
  simp only [erase, next_ok hxv, i.nx_mid, prev_ok i2.valid_at, hq, e1, bind, Except.bind]

theorem eraseLoop_ok : ∀ (f : Nat) {s : St α} {ns M : List Nat} {last : Nat}, Circle s.h t ns → Pl s (M ++ (ns ++ R)) → t ≤ s.k → Fw s.h (M ++ [last]) → last ∈ t :: ns → M.length < f →
    ∃ s', eraseLoop s ((M ++ [last]).head (by simp)) last f = .ok s' ∧ Foc s' t ns R ∧ Same t R s s' ∧ (∀ y ∈ ns, s'.val y = s.val y)
  | 0, _, _, _, _, _, _, _, _, _, hk => by omega
  | f + 1, s, ns, [], last, c, p, ht, _, _, _ => ⟨s, by simp [eraseLoop], ⟨c, p, ht⟩, Same.refl s, fun _ _ => rfl⟩
  | f + 1, s, ns, x :: M, last, c, p, ht, fw, hl, hk => by
    have hx : x ∈ (x :: M ++ (ns ++ R)) ++ s.free := by simp
    have hxv := p.valid hx
    have hxM : x ∉ M ++ (ns ++ R) := (List.nodup_cons.1 (List.nodup_append.1 p.nd).1).1
    have hne : x ≠ last := by
      rintro rfl
      rcases List.mem_cons.1 hl with h | h
      · have := (p.bd hx).1; omega
      · exact hxM (by simp [h])
    obtain ⟨s1, e1, c1, p1, sm1, v1, n1⟩ := destroy_foc c p ht
    have f1 : Fw s1.h (M ++ [last]) := (Fw.tail (a := x) (by simpa using fw)).frame (fun y _ => by rw [n1])
    obtain ⟨s2, e2, i2, sm2, v2⟩ := eraseLoop_ok f c1 p1 (by rw [sm1.k]; exact ht) f1 hl (by simp at hk; omega)
    refine ⟨s2, ?_, i2, sm1.trans sm2, fun y hy => (v2 y hy).trans (v1 y hy)⟩
    have hnx : s.h.nx x = (M ++ [last]).head (by simp) := by
      cases M with
      | nil => exact fw.1
      | cons b M => exact fw.1
    show eraseLoop s x last (f + 1) = _
    unfold eraseLoop
    rw [if_pos hne]
    simp only [next_ok hxv, hnx, e1, e2, bind, Except.bind]

theorem eraseRange_ok {A M B : List Nat} (i : Foc s t (A ++ M ++ B) R) :
    ∃ s', eraseRange s (nodeAt t (M ++ B) 0) (nodeAt t B 0) = .ok s' ∧ Foc s' t (A ++ B) R ∧ Same t R s s' ∧ (∀ y ∈ A ++ B, s'.val y = s.val y) := by
  obtain ⟨h1, h2, h3, h4, h5, h6⟩ := cut_ok i
  have i' : Foc s t (A ++ (M ++ B)) R := by simpa using i
  have hpv := getLast_eq_pv i'.circ
  have hfirst : nodeAt t (M ++ B) 0 = (M ++ [nodeAt t B 0]).head (by simp) := by cases M <;> simp [nodeAt]
  have hlast : nodeAt t B 0 ∈ t :: (A ++ B) := by cases B <;> simp [nodeAt]
  obtain ⟨s', e1, i1, sm, v1⟩ := eraseLoop_ok (s.cap + 1) (s := { s with h := s.h.joined ((t :: A).getLast (by simp)) (nodeAt t B 0) }) h3 h4 i.tk h6 hlast
    (by have := i.len; simp at this; omega)
  refine ⟨s', ?_, i1, h5.trans sm, v1⟩
  simp only [eraseRange, prev_ok i'.valid_at, hpv, join_ok h1 h2, bind, Except.bind]
  rw [hfirst]; exact e1

theorem clearLoop_ok : ∀ (f : Nat) {s : St α} {M : List Nat}, Pl s (M ++ R) → t ≤ s.k → Fw s.h (M ++ [t]) → M.length < f →
    ∃ s', clearLoop s t ((M ++ [t]).head (by simp)) f = .ok s' ∧ Pl s' R ∧ Same t R s s'
  | 0, _, _, _, _, _, hk => by omega
  | f + 1, s, [], p, _, _, _ => ⟨s, by simp [clearLoop], p, Same.refl s⟩
  | f + 1, s, x :: M, p, ht, fw, hk => by
    have hx : x ∈ (x :: M ++ R) ++ s.free := by simp
    have hxv := p.valid hx
    have hb := p.bd hx
    have hxM : x ∉ M ++ R := (List.nodup_cons.1 (List.nodup_append.1 p.nd).1).1
    obtain ⟨s1, e1, p1, k1, k2, k3, k4, v1, n1, l1, q1⟩ := destroyNode_ok (U := M ++ R) p
    have f1 : Fw s1.h (M ++ [t]) := (Fw.tail (a := x) (by simpa using fw)).frame (fun y _ => by rw [n1])
    have sm1 : Same t R s s1 := ⟨k1, k2, k3, k4, l1, fun y hy => by
      have : y ≠ x := by
        rintro rfl
        rcases hy with hy | ⟨hy, _⟩
        · exact hxM (by simp [hy])
        · omega
      exact ⟨by rw [n1], q1 y this, v1 y this⟩⟩
    obtain ⟨s2, e2, p2, sm2⟩ := clearLoop_ok f p1 (by rw [k2]; exact ht) f1 (by simp at hk; omega)
    refine ⟨s2, ?_, p2, sm1.trans sm2⟩
    have hnx : s.h.nx x = (M ++ [t]).head (by simp) := by
      cases M with
      | nil => exact fw.1
      | cons b M => exact fw.1
    have hxv1 : s1.h.valid x := by unfold Links.valid at hxv ⊢; rw [l1]; exact hxv
    show clearLoop s t x (f + 1) = _
    unfold clearLoop
    rw [if_pos (by omega)]
    simp only [e1, next_ok hxv1, n1, hnx, e2, bind, Except.bind]

end

section
variable {s : St α} {j : Nat} {R : List Nat}

theorem empty_ok {ns : List Nat} (i : Foc s (term j) ns R) : empty s j = .ok (decide (ns = [])) := by
  simp only [empty, next_ok i.circ.tv, i.circ.first, bind, Except.bind]
  cases ns with
  | nil => simp [nodeAt]
  | cons a l =>
    have := i.neT (x := a) (by simp)
    simp only [term] at this
    simp [nodeAt, this]

theorem initialise_ok {ns : List Nat} (i : Foc s (term j) ns R) :
    ∃ s', initialise s j = .ok s' ∧ Foc s' (term j) [] R ∧ Same (term j) R s s' := by
  have htk := i.tk
  have hfin : ∀ s1 : St α, ((do if ← empty s j then .ok s else clearLoop s (term j) (← s.h.next (term j)) (s.cap + 1) : Res (St α)) = .ok s1) → Pl s1 R → Same (term j) R s s1 →
      ∃ s', initialise s j = .ok s' ∧ Foc s' (term j) [] R ∧ Same (term j) R s s' := by
    intro s1 e1 p1 sm1
    have htv : s1.h.valid (term j) := by unfold Links.valid; rw [p1.lim, sm1.k]; simp only [term] at htk ⊢; omega
    refine ⟨{ s1 with h := s1.h.joined (term j) (term j) }, ?_, ⟨⟨?_, by simp, by simpa using htv⟩, p1.links rfl, by show term j ≤ s1.k; rw [sm1.k]; exact htk⟩, sm1.trans ⟨rfl, rfl, rfl, rfl, rfl, fun x hx => ?_⟩⟩
    · unfold initialise
      show ((do if ← empty s j then .ok s else clearLoop s (term j) (← s.h.next (term j)) (s.cap + 1) : Res (St α)) >>= fun s => _) = _
      rw [e1]
      show (s1.h.join (term j) (term j) >>= fun h => .ok { s1 with h := h }) = _
      rw [join_ok htv htv]; rfl
    · exact ⟨by simp [joined], by simp [joined], trivial⟩
    · have : x ≠ term j := by
        rcases hx with hx | hx
        · have h1 := p1.bd (n := x) (by simp [hx]); rw [sm1.k] at h1
          omega
        · exact hx.2
      exact ⟨upd_other _ _ this, upd_other _ _ this, rfl⟩
  by_cases h0 : ns = []
  · subst h0
    exact hfin s (by simp [empty_ok i, bind, Except.bind]) (by simpa using i.pl) (Same.refl s)
  · obtain ⟨s1, e1, p1, sm1⟩ := clearLoop_ok (s.cap + 1) i.pl i.tk (by simpa using i.circ.ch.fw.tail) (by have := i.len; omega)
    refine hfin s1 ?_ p1 sm1
    rw [head_nodeAt] at e1
    simp [empty_ok i, h0, next_ok i.circ.tv, i.circ.first, bind, Except.bind, e1]

end

section
variable {s : St α} {t : Nat} {R : List Nat}

theorem fwd_ok {ns : List Nat} (i : Foc s t ns R) : ∀ (k j : Nat), j + k ≤ ns.length → fwd s.h (nodeAt t ns j) k = .ok (nodeAt t ns (j + k))
  | 0, j, _ => rfl
  | k + 1, j, h => by
    have hj : j < ns.length := by omega
    have hv := i.valid (List.getElem_mem hj)
    have := fwd_ok i k (j + 1) (by omega)
    simp only [fwd, nodeAt_lt hj, next_ok hv, i.circ.nx_at hj, bind, Except.bind, this]
    congr 2; omega

theorem nodeAt_inj {ns : List Nat} (i : Foc s t ns R) {j k : Nat} (hj : j ≤ ns.length) (hk : k ≤ ns.length) : nodeAt t ns j = nodeAt t ns k ↔ j = k := by
  constructor
  · intro e
    by_cases h1 : j < ns.length <;> by_cases h2 : k < ns.length
    · rw [nodeAt_lt h1, nodeAt_lt h2] at e; exact (List.getElem_inj i.nodup).1 e
    · rw [nodeAt_lt h1, nodeAt_len (by omega)] at e; exact absurd e (i.neT (List.getElem_mem h1))
    · rw [nodeAt_lt h2, nodeAt_len (by omega)] at e; exact absurd e.symm (i.neT (List.getElem_mem h2))
    · omega
  · rintro rfl; rfl

theorem posOf_ok {ns : List Nat} (i : Foc s t ns R) {p : Nat} (hp : p ≤ ns.length) : ∀ (k j : Nat), j ≤ p → p - j < k → posOf s.h (nodeAt t ns p) (nodeAt t ns j) k = .ok (p - j)
  | 0, _, _, h => by omega
  | k + 1, j, hj, h => by
    unfold posOf
    by_cases e : j = p
    · subst e; simp
    · rw [if_neg (fun x => e ((nodeAt_inj i (by omega) hp).1 x))]
      have hjl : j < ns.length := by omega
      have hv := i.valid (List.getElem_mem hjl)
      have := posOf_ok i hp k (j + 1) (by omega) (by omega)
      simp only [nodeAt_lt hjl, next_ok hv, i.circ.nx_at hjl, this, bind, Except.bind]
      congr 1; omega

theorem back_ok {ns : List Nat} (i : Foc s t ns R) : ∀ (k j : Nat), k ≤ j → j ≤ ns.length → back s.h (nodeAt t ns j) k = .ok (nodeAt t ns (j - k))
  | 0, j, _, _ => rfl
  | k + 1, j, h, hj => by
    have hv : s.h.valid (nodeAt t ns j) := by
      by_cases hx : j < ns.length
      · rw [nodeAt_lt hx]; exact i.valid (List.getElem_mem _)
      · rw [nodeAt_len (by omega)]; exact i.circ.tv
    have := back_ok i k (j - 1) (by omega) (by omega)
    simp only [back, prev_ok hv, i.circ.pv_at hj, bind, Except.bind]
    rw [if_neg (by omega), this]; congr 2; omega

theorem countLoop_ok {ns : List Nat} (i : Foc s t ns R) : ∀ (f j c : Nat), j ≤ ns.length → ns.length - j < f → countLoop s.h t (nodeAt t ns j) c f = .ok (c + (ns.length - j))
  | 0, _, _, _, h => by omega
  | f + 1, j, c, hj, h => by
    unfold countLoop
    by_cases e : j < ns.length
    · have hv := i.valid (List.getElem_mem e)
      have hne := i.neT (List.getElem_mem e)
      have := countLoop_ok i f (j + 1) (c + 1) (by omega) (by omega)
      rw [nodeAt_lt e, if_pos hne]
      simp only [next_ok hv, i.circ.nx_at e, this, bind, Except.bind]
      congr 1; omega
    · rw [nodeAt_len (by omega), if_neg (by simp)]; congr 1; omega
end

section
variable {s : St α} {j : Nat} {R : List Nat}
theorem iter_ok {ns : List Nat} (i : Foc s (term j) ns R) {p : Nat} (hp : p ≤ ns.length) : iter s j p = .ok (nodeAt (term j) ns p) := by
  simp only [iter, next_ok i.circ.tv, i.circ.first, bind, Except.bind]
  rw [fwd_ok i p 0 (by omega), Nat.zero_add]
theorem position_ok {ns : List Nat} (i : Foc s (term j) ns R) {p : Nat} (hp : p ≤ ns.length) : position s j (nodeAt (term j) ns p) = .ok p := by
  simp only [position, next_ok i.circ.tv, i.circ.first, bind, Except.bind]
  rw [posOf_ok i hp _ 0 (by omega) (by have := i.len; omega)]; rfl
theorem size_ok {ns : List Nat} (i : Foc s (term j) ns R) : size s j = .ok ns.length := by
  simp only [size, next_ok i.circ.tv, i.circ.first, bind, Except.bind]
  rw [countLoop_ok i _ 0 0 (by omega) (by have := i.len; omega)]; simp
end

/-- cells that hold the values `l` -/
abbrev Vals (s : St α) (ns : List Nat) (l : List α) : Prop := ns.map s.val = l.map Cell.live

theorem Vals.len {s : St α} {ns : List Nat} {l : List α} (h : Vals s ns l) : ns.length = l.length := by
  have := congrArg List.length h; simpa using this
theorem Vals.congr {s s' : St α} {ns : List Nat} {l : List α} (h : Vals s ns l) (he : ∀ y ∈ ns, s'.val y = s.val y) : Vals s' ns l := by
  rw [Vals, List.map_congr_left he]; exact h
theorem Vals.split {s : St α} {ns : List Nat} {la lb : List α} (h : Vals s ns (la ++ lb)) : ∃ A B, ns = A ++ B ∧ Vals s A la ∧ Vals s B lb := by
  rw [Vals, List.map_append] at h
  obtain ⟨A, B, rfl, h1, h2⟩ := List.map_eq_append_iff.1 h
  exact ⟨A, B, rfl, h1, h2⟩
theorem Vals.cons_split {s : St α} {ns : List Nat} {v : α} {l : List α} (h : Vals s ns (v :: l)) : ∃ x N, ns = x :: N ∧ s.val x = .live v ∧ Vals s N l := by
  rw [Vals, List.map_cons] at h
  obtain ⟨x, N, rfl, h1, h2⟩ := List.map_eq_cons_iff.1 h
  exact ⟨x, N, rfl, h1, h2⟩
theorem Vals.nil_split {s : St α} {ns : List Nat} (h : Vals s ns ([] : List α)) : ns = [] := by simpa [Vals] using h
theorem Vals.append {s : St α} {A B : List Nat} {la lb : List α} (h1 : Vals s A la) (h2 : Vals s B lb) : Vals s (A ++ B) (la ++ lb) := by
  rw [Vals, List.map_append, List.map_append, h1, h2]
theorem Vals.app_split {s : St α} {A B : List Nat} {l : List α} (h : Vals s (A ++ B) l) : Vals s A (l.take A.length) ∧ Vals s B (l.drop A.length) := by
  rw [Vals, List.map_append] at h
  have h1 : A.map s.val = (l.map Cell.live).take A.length := by rw [← h]; simp
  have h2 : B.map s.val = (l.map Cell.live).drop A.length := by rw [← h]; simp
  exact ⟨by rw [Vals, h1, List.map_take], by rw [Vals, h2, List.map_drop]⟩

section
variable {t : Nat} {R : List Nat}

theorem insertAll_ok : ∀ (vs : List α) {s : St α} {A B : List Nat}, Foc s t (A ++ B) R →
    ∃ s' N, insertAll s (nodeAt t B 0) vs = .ok (s', if vs.length ≤ s.free.length then .ok else .err .full) ∧ Foc s' t (A ++ N ++ B) R ∧ Same t R s s' ∧
      Vals s' N (vs.take s.free.length) ∧ (∀ y ∈ A ++ B, s'.val y = s.val y)
  | [], s, A, B, i => ⟨s, [], by simp [insertAll], by simpa using i, Same.refl s, by simp [Vals], fun _ _ => rfl⟩
  | v :: vs, s, A, B, i => by
    by_cases hc : s.free = []
    · refine ⟨s, [], ?_, by simpa using i, Same.refl s, by simp [Vals, hc], fun _ _ => rfl⟩
      unfold insertAll
      rw [i.pl.full_iff.2 hc, if_pos rfl, hc]; simp
    · obtain ⟨s1, n, e1, i1, sm1, v1, v2, hlen⟩ := addAt_ok i hc v
      have i1' : Foc s1 t ((A ++ [n]) ++ B) R := by simpa using i1
      obtain ⟨s2, N, e2, i2, sm2, v3, v4⟩ := insertAll_ok vs i1'
      refine ⟨s2, n :: N, ?_, by simpa using i2, sm1.trans sm2, ?_, fun y hy => ?_⟩
      · unfold insertAll
        have hf : full s = false := by
          cases hf : full s with
          | false => rfl
          | true => exact absurd (i.pl.full_iff.1 hf) hc
        rw [hf]
        simp only [e1, e2, bind, Except.bind, List.length_cons, Bool.false_eq_true, if_false]
        congr 2
        have : (vs.length ≤ s1.free.length) ↔ (vs.length + 1 ≤ s.free.length) := by omega
        simp only [this]
      · rw [← hlen, List.take_succ_cons, Vals, List.map_cons, List.map_cons, v3, v4 n (by simp), v1]
      · rw [v4 y (by simp at hy ⊢; tauto)]; exact v2 y hy

theorem removeLoop_ok (f : α → Bool) : ∀ (k : Nat) {s : St α} {A B : List Nat} {vb : List α}, Foc s t (A ++ B) R → Vals s B vb → vb.length < k →
    ∃ s' B', removeLoop f s t (nodeAt t B 0) k = .ok s' ∧ Foc s' t (A ++ B') R ∧ Same t R s s' ∧ Vals s' B' (vb.filter (fun x => !f x)) ∧ (∀ y ∈ A, s'.val y = s.val y)
  | 0, _, _, _, _, _, _, h => by omega
  | k + 1, s, A, B, [], i, hv, _ => by
    have hB := hv.nil_split; subst hB
    exact ⟨s, [], by simp [removeLoop, nodeAt], i, Same.refl s, by simp [Vals], fun _ _ => rfl⟩
  | k + 1, s, A, B, v :: vb, i, hv, hk => by
    obtain ⟨x, N, rfl, hx, hN⟩ := hv.cons_split
    have hxT : x ≠ t := i.neT (by simp)
    have hr := i.read (x := x) (by simp) hx
    by_cases hf : f v = true
    · obtain ⟨s1, e1, i1, sm1, v1⟩ := erase_ok i
      obtain ⟨s2, B', e2, i2, sm2, v2, v3⟩ := removeLoop_ok f k i1 (hN.congr (fun y hy => v1 y (by simp [hy]))) (by simp at hk; omega)
      refine ⟨s2, B', ?_, i2, sm1.trans sm2, ?_, fun y hy => (v3 y hy).trans (v1 y (by simp [hy]))⟩
      · show removeLoop f s t x (k + 1) = _
        unfold removeLoop
        rw [if_pos hxT]
        simp only [hr, hf, e1, e2, bind, Except.bind, if_true]
      · simpa [hf] using v2
    · have i1 : Foc s t ((A ++ [x]) ++ N) R := by simpa using i
      obtain ⟨s2, B', e2, i2, sm2, v2, v3⟩ := removeLoop_ok f k i1 hN (by simp at hk; omega)
      have hf' : f v = false := by simpa using hf
      refine ⟨s2, x :: B', ?_, by simpa using i2, sm2, ?_, fun y hy => v3 y (by simp [hy])⟩
      · show removeLoop f s t x (k + 1) = _
        unfold removeLoop
        rw [if_pos hxT]
        simp only [hr, hf', next_ok (i.valid (x := x) (by simp)), i.nx_mid, e2, bind, Except.bind]
        simp
      · rw [List.filter_cons, hf']
        simp only [Bool.not_false, if_true]
        rw [Vals, List.map_cons, List.map_cons, v2, v3 x (by simp), hx]
end

theorem appendAll_eq (j : Nat) : ∀ (vs : List α) {s : St α} {A R : List Nat}, Foc s (term j) A R →
    ∃ s' N, appendAll s j vs = .ok (s', if vs.length ≤ s.free.length then .ok else .err .noAlloc) ∧ Foc s' (term j) (A ++ N) R ∧ Same (term j) R s s' ∧
      Vals s' N (vs.take s.free.length) ∧ (∀ y ∈ A, s'.val y = s.val y)
  | [], s, A, R, i => ⟨s, [], by simp [appendAll], by simpa using i, Same.refl s, by simp [Vals], fun _ _ => rfl⟩
  | v :: vs, s, A, R, i => by
    by_cases hc : s.free = []
    · refine ⟨s, [], ?_, by simpa using i, Same.refl s, by simp [Vals, hc], fun _ _ => rfl⟩
      unfold appendAll
      simp only [allocate, hc, bind, Except.bind]; simp
    · have i0 : Foc s (term j) (A ++ []) R := by simpa using i
      obtain ⟨s1, n, e1, i1, sm1, v1, v2, hlen⟩ := addAt_ok i0 hc v
      obtain ⟨s2, N, e2, i2, sm2, v3, v4⟩ := appendAll_eq j vs i1
      refine ⟨s2, n :: N, ?_, by simpa using i2, sm1.trans sm2, ?_, fun y hy => ?_⟩
      · unfold appendAll
        have hT : nodeAt (term j) ([] : List Nat) 0 = term j := rfl
        rw [hT] at e1
        simp only [addAt, bind, Except.bind] at e1
        cases ha : allocate s v with
        | error u => rw [ha] at e1; cases e1
        | ok o =>
          rw [ha] at e1
          cases o with
          | none => simp at e1
          | some q =>
            obtain ⟨m, sa⟩ := q
            simp only [insertNode, bind, Except.bind] at e1
            simp only [bind, Except.bind]
            cases h1 : sa.h.prev (term j) with
            | error u => rw [h1] at e1; cases e1
            | ok p =>
              rw [h1] at e1; simp only at e1 ⊢
              cases h2 : sa.h.join p m with
              | error u => rw [h2] at e1; cases e1
              | ok k =>
                rw [h2] at e1; simp only at e1 ⊢
                cases h3 : k.join m (term j) with
                | error u => rw [h3] at e1; cases e1
                | ok k' =>
                  rw [h3] at e1; simp only at e1 ⊢
                  simp only [Except.ok.injEq, Prod.mk.injEq] at e1
                  rw [e1.1, e2]
                  have : (vs.length ≤ s1.free.length) ↔ ((v :: vs).length ≤ s.free.length) := by simp; omega
                  simp only [this]
      · rw [← hlen, List.take_succ_cons, Vals, List.map_cons, List.map_cons, v3, v4 n (by simp), v1]
      · rw [v4 y (by simp [hy])]; exact v2 y (by simpa using hy)

end Etl.SList
