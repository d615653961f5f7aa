import Verif.IntrusiveList.Ops

/-!
# Splice and merge of intrusive lists
-/
namespace Etl.IList
open Links
variable {h h' : Links} {sz sz' : Nat → Nat} {ts : List Nat} {L : Nat → List Nat} {t u : Nat} {s : St}

theorem linkSplice3_eq {p q f e : Nat} (hp : h.valid p) (hf : h.valid f) (he : h.valid e) (hq : h.valid q) (hpq : h.nx p = q) (hpe : p ≠ e) (hqf : q ≠ f) :
    linkSplice3 h p f e = .ok ((h.joined p f).joined e q) := by
  unfold linkSplice3
  rw [if_pos ⟨hp, hf, he⟩]
  simp only [bind, Except.bind, upd_same, hpq, ne_eq, valid_ne hq, not_false_eq_true, if_true]
  rw [if_pos (show ({ h with nx := upd h.nx e q, pv := upd h.pv f p } : Links).valid q from hq)]
  simp only [joined]
  congr 2
  funext x
  simp only [upd]; split_ifs <;> simp_all

theorem linkSplice3_one {p n : Nat} (hpn : p ≠ n) : linkSplice3 h p n n = linkSplice h p n := by
  unfold linkSplice3 linkSplice
  simp only [and_self, upd_same, upd_other _ _ hpn]

theorem splice_ok (g : SysOf s ts L) (ht : t ∈ ts) (hu : u ∈ ts) (htu : u ≠ t) {A B : List Nat} (e : L t = A ++ B) :
    ∃ s', splice s t (nodeAt t B 0) u = .ok s' ∧ Same s s' ∧ SysOf s' ts (upd (upd L t (A ++ L u ++ B)) u []) := by
  have c := g.circ t ht; rw [e] at c
  have cu := g.circ u hu
  unfold splice
  rw [if_neg htu]
  simp only [empty_ok cu, bind, Except.bind]
  by_cases h0 : L u = []
  · refine ⟨s, by simp [h0], Same.refl s, ?_⟩
    have : upd (upd L t (A ++ L u ++ B)) u [] = L := by
      funext v; by_cases hv : v = u
      · subst hv; simp [h0]
      · rw [upd_other _ _ hv]
        by_cases hv2 : v = t
        · subst hv2; simp [e, h0]
        · rw [upd_other _ _ hv2]
    rw [this]; exact g
  · have hne : L u ≠ [] := h0
    have hchU : Ch s.h (L u) := by
      have := cu.ch
      rw [List.cons_append] at this
      exact this.tail.left
    have hdis : ∀ a ∈ t :: (A ++ B), ∀ b ∈ L u, a ≠ b := by
      intro a ha b hb e'; subst e'
      exact g.dis t ht u hu (Ne.symm htu) a (by rw [e]; exact ha) (by simp [hb])
    have ndU := (List.nodup_cons.1 cu.nd)
    obtain ⟨v1, v2, v3, v4, c1⟩ := c.insertSeg (N := L u) (f := nodeAt u (L u) 0) (e := (u :: L u).getLast (by simp)) hne
      (by rw [nodeAt_lt (List.length_pos_iff.2 hne), List.head_eq_getElem]) (by rw [List.getLast_cons hne]) hchU (List.nodup_append.2 ⟨c.nd, ndU.2, hdis⟩) (fun x hx => cu.ok x (by simp [hx]))
    rw [nodeAt_app, Circle.pv_mid c] at c1
    rw [nodeAt_app] at v2
    rw [nodeAt_app, Circle.pv_mid c] at v1
    have hm1 := last_mem t A
    have hm2 := at_mem t B
    have hf : nodeAt u (L u) 0 ∈ L u := by
      cases hx : L u with
      | nil => exact absurd hx hne
      | cons a l => simp [nodeAt]
    have hl : (u :: L u).getLast (by simp) ∈ L u := by rw [List.getLast_cons hne]; exact List.getLast_mem _
    have o1 : Only s.h ((s.h.joined ((t :: A).getLast (by simp)) (nodeAt u (L u) 0)).joined ((u :: L u).getLast (by simp)) (nodeAt t B 0)) (t :: (A ++ L u ++ B)) := by
      refine (Only.join (last_sub t A _ ?_) ?_).trans (Only.join ?_ ?_)
      · intro x hx; simp at hx ⊢; tauto
      · simp only [List.mem_cons, List.mem_append]; tauto
      · simp only [List.mem_cons, List.mem_append]; tauto
      · simp only [List.mem_cons, List.mem_append] at hm2 ⊢; tauto
    have hu1 : (t :: (A ++ L u ++ B)).Nodup := c1.nd
    have hut : u ∉ t :: (A ++ L u ++ B) := by
      intro z
      have hz : u ∉ t :: (A ++ B) := by have := g.dis u hu t ht htu u (by simp); rw [e] at this; exact this
      apply ndU.1
      simp only [List.mem_cons, List.mem_append] at z hz; tauto
    have hlast : s.h.pv u = (u :: L u).getLast (by simp) := cu.last
    refine ⟨{ s with h := ((s.h.joined ((t :: A).getLast (by simp)) (nodeAt u (L u) 0)).joined ((u :: L u).getLast (by simp)) (nodeAt t B 0)).joined u u, sz := upd (upd s.sz t (s.sz t + s.sz u)) u 0 }, ?_, ⟨rfl, rfl, rfl⟩, ?_⟩
    · simp only [h0, decide_false, Bool.false_eq_true, if_false, next_ok cu.tv, cu.first, prev_ok cu.tv, hlast, prev_ok v2, Circle.pv_mid c, join_ok v1 v3]
      rw [join_ok (by simpa using v4) (by simpa using v2)]
      simp only [initialise]
      rw [join_ok (by simpa using cu.tv) (by simpa using cu.tv)]
      rfl
    · have oj : ∀ k : Links, Only k (k.joined u u) [u] := fun k => Only.join (by simp) (by simp)
      have c2 := Circle.frame c1 (oj _) (fun x hx => by simp only [List.mem_singleton]; rintro rfl; exact hut hx)
      refine g.two ht hu (Ne.symm htu) c2 (init_circle (by simpa using cu.tv)) ?_ ((o1.mono ?_).trans ((oj _).mono (by simp))) ?_ (by simp) ?_
      · rw [e, List.append_nil, List.append_assoc, List.append_assoc]
        exact List.Perm.append_left A List.perm_append_comm
      · intro x hx; rw [e]; simp only [List.mem_cons, List.mem_append] at hx ⊢; tauto
      · show upd (upd s.sz t (s.sz t + s.sz u)) u 0 t = _
        rw [upd_other _ _ (Ne.symm htu), upd_same, g.size t ht, g.size u hu, e]; simp; omega
      · intro v hv1 hv2; show upd (upd s.sz t (s.sz t + s.sz u)) u 0 v = _; rw [upd_other _ _ hv2, upd_other _ _ hv1]

/-- Moving one node between two lists at the pointer level. -/
theorem moveNode (g : SysOf s ts L) (ht : t ∈ ts) (hu : u ∈ ts) (htu : u ≠ t) {A B C D : List Nat} {x : Nat} (e : L t = A ++ B) (e' : L u = C ++ x :: D) :
    ∃ h1 h2, unlink s.h x = .ok h1 ∧ Circle h1 t (A ++ B) ∧ linkSplice h1 ((t :: A).getLast (by simp)) x = .ok h2 ∧ h2.lim = s.h.lim ∧
      ∀ sz', sz' t = s.sz t + 1 → sz' u = s.sz u - 1 → (∀ v, v ≠ t → v ≠ u → sz' v = s.sz v) → Sys h2 sz' ts (upd (upd L t (A ++ x :: B)) u (C ++ D)) := by
  have c := g.circ t ht; rw [e] at c
  have cu := g.circ u hu; rw [e'] at cu
  obtain ⟨h1, e1, c1, _, _, o1⟩ := unlink_ok cu
  have d1 : ∀ y ∈ t :: (A ++ B), y ∉ u :: (C ++ x :: D) := by
    have := g.dis t ht u hu (Ne.symm htu); rw [e, e'] at this; exact this
  have c2 := Circle.frame c o1 d1
  have hx : x ∉ t :: (A ++ B) := fun z => d1 x z (by simp)
  obtain ⟨h2, e2, c3, o2⟩ := linkSplice_ok c2 hx (o1.valid.2 (cu.ok x (by simp)))
  have hx2 : x ∉ u :: (C ++ D) := by
    have := cu.nd
    intro z
    have h5 := List.nodup_cons.1 ((List.perm_middle (a := x) (l₁ := C) (l₂ := D)).nodup_iff.1 (List.nodup_cons.1 this).2)
    rcases List.mem_cons.1 z with y | y
    · exact Circle.ne cu (x := x) (by simp) y
    · exact h5.1 y
  have c4 : Circle h2 u (C ++ D) := by
    refine Circle.frame c1 o2 ?_
    intro y hy hz
    by_cases hyx : y = x
    · subst hyx; exact hx2 hy
    · refine d1 y ?_ ?_
      · simp only [List.mem_cons, List.mem_append] at hz ⊢; tauto
      · simp only [List.mem_cons, List.mem_append] at hy ⊢; tauto
  refine ⟨h1, h2, e1, c2, e2, o2.lim.trans o1.lim, fun sz' k1 k2 k3 => ?_⟩
  refine g.two ht hu (Ne.symm htu) c3 c4 ?_ (Only.trans (o1.mono ?_) (o2.mono ?_)) ?_ ?_ k3
  · rw [e, e']
    have : (A ++ x :: B ++ (C ++ D)).Perm (x :: (A ++ B ++ (C ++ D))) := by
      rw [List.append_assoc, List.append_assoc]; exact List.perm_middle
    have h2 : (A ++ B ++ (C ++ x :: D)).Perm (x :: (A ++ B ++ (C ++ D))) := by
      rw [← List.append_assoc, ← List.append_assoc]; exact List.perm_middle
    exact this.trans h2.symm
  · rw [e, e']; intro y hy; simp only [List.mem_cons, List.mem_append] at hy ⊢; tauto
  · rw [e, e']; intro y hy; simp only [List.mem_cons, List.mem_append] at hy ⊢; tauto
  · rw [k1, g.size t ht, e]; simp; omega
  · rw [k2, g.size u hu, e']; simp

/-- Moving one node within a list at the pointer level: `x` goes from between `P` and `Q` to between `A` and `B`. -/
theorem moveSelf (g : SysOf s ts L) (ht : t ∈ ts) {P Q A B : List Nat} {x : Nat} (e : L t = P ++ x :: Q) (e' : P ++ Q = A ++ B) :
    ∃ h1 h2, unlink s.h x = .ok h1 ∧ Circle h1 t (A ++ B) ∧ linkSplice h1 ((t :: A).getLast (by simp)) x = .ok h2 ∧ h2.lim = s.h.lim ∧
      Sys h2 s.sz ts (upd L t (A ++ x :: B)) := by
  have c := g.circ t ht; rw [e] at c
  obtain ⟨h1, e1, c1, _, _, o1⟩ := unlink_ok c
  have hx2 : x ∉ t :: (P ++ Q) := by
    intro z
    have h5 := List.nodup_cons.1 ((List.perm_middle (a := x) (l₁ := P) (l₂ := Q)).nodup_iff.1 (List.nodup_cons.1 c.nd).2)
    rcases List.mem_cons.1 z with y | y
    · exact Circle.ne c (x := x) (by simp) y
    · exact h5.1 y
  have c1' : Circle h1 t (A ++ B) := by rw [← e']; exact c1
  obtain ⟨h2, e2, c3, o2⟩ := linkSplice_ok c1' (by rw [← e']; exact hx2) (o1.valid.2 (c.ok x (by simp)))
  have pm : (A ++ x :: B).Perm (L t) := by
    rw [e]; exact List.perm_middle.trans ((e' ▸ List.Perm.refl _ : (x :: (A ++ B)).Perm (x :: (P ++ Q))).trans List.perm_middle.symm)
  refine ⟨h1, h2, e1, c1', e2, o2.lim.trans o1.lim, ?_⟩
  refine g.one ht (N := []) c3 (Only.trans (o1.mono ?_) (o2.mono ?_)) (by simp) (fun y hy => by simpa using pm.mem_iff.1 hy) ?_ ?_ (fun _ _ => rfl)
  · rw [e]; simp
  · intro y hy
    rcases List.mem_cons.1 hy with hy | hy
    · simp [hy]
    · have := pm.mem_iff.1 hy; simp [this]
  · intro y hy hz; exfalso; exact hz (pm.mem_iff.2 (by simpa using hy))
  · rw [pm.length_eq]; exact g.size t ht

/-! ### merge -/

/-- The merge loop: list `t` holds `A ++ B`, the unread part of `u` is `Y`. -/
structure MI (h0 h : Links) (t u : Nat) (S A B Y : List Nat) : Prop where
  circ : Circle h t (A ++ B)
  ch : Ch h (Y ++ [u])
  nd : (t :: (A ++ B) ++ (Y ++ [u])).Nodup
  ok : ∀ y ∈ Y ++ [u], h.valid y
  sub : ∀ x ∈ t :: (A ++ B) ++ (Y ++ [u]), x ∈ S
  only : Only h0 h S

variable {lt : Nat → Nat → Bool} {S : List Nat} {h0 : Links}

theorem mergeSkip_ok {y : Nat} : ∀ (k : Nat) {A B : List Nat} {h : Links}, Circle h t (A ++ B) → B.length < k →
    ∃ B1 B2, B = B1 ++ B2 ∧ mergeSkip lt h t y (nodeAt t B 0) k = .ok (nodeAt t B2 0) ∧ (∀ Y, mrg lt B (y :: Y) = B1 ++ mrg lt B2 (y :: Y)) ∧
      (∀ b B3, B2 = b :: B3 → lt y b = true)
  | 0, _, _, _, _, hk => by omega
  | k + 1, A, [], h, c, _ => ⟨[], [], rfl, by simp [mergeSkip, nodeAt], by simp, by simp⟩
  | k + 1, A, b :: B, h, c, hk => by
    have hb : b ≠ t := Circle.ne c (by simp)
    cases hyb : lt y b with
    | true =>
      refine ⟨[], b :: B, rfl, ?_, by simp, ?_⟩
      · show mergeSkip lt h t y b (k + 1) = .ok b
        unfold mergeSkip
        rw [if_pos hb]; simp [hyb]
      · intro b' B3 e; simp at e; rw [← e.1]; exact hyb
    | false =>
      obtain ⟨B1, B2, e1, e2, e3, e4⟩ := mergeSkip_ok (y := y) k (A := A ++ [b]) (B := B) (h := h) (by simpa using c) (by simp at hk; omega)
      refine ⟨b :: B1, B2, by simp [e1], ?_, ?_, e4⟩
      · show mergeSkip lt h t y b (k + 1) = _
        unfold mergeSkip
        rw [if_pos hb]
        simp only [hyb, Bool.not_false, if_true, next_ok (c.ok b (by simp)), Circle.nx_mid c, bind, Except.bind]; exact e2
      · intro Y; rw [mrg_cons_left _ _ hyb, e3]; simp

theorem mergeIns_ok {x : Nat} : ∀ (k : Nat) {h : Links} {A B Y : List Nat}, MI h0 h t u S A (x :: B) Y → Y.length < k →
    ∃ h' A' Y', mergeIns lt h u x (nodeAt u Y 0) k = .ok (h', nodeAt u Y' 0) ∧ MI h0 h' t u S A' (x :: B) Y' ∧ Y'.length ≤ Y.length ∧
      A ++ mrg lt (x :: B) Y = A' ++ mrg lt (x :: B) Y' ∧ (∀ y Y2, Y = y :: Y2 → lt y x = true → Y'.length < Y.length)
  | 0, _, _, _, _, _, hk => by omega
  | k + 1, h, A, B, [], m, _ => ⟨h, A, [], by simp [mergeIns, nodeAt], m, by simp, rfl, by simp⟩
  | k + 1, h, A, B, y :: Y, m, hk => by
    have nd1 := List.nodup_append.1 m.nd
    have hyu : y ≠ u := by
      rintro rfl; exact (List.nodup_cons.1 (show (y :: (Y ++ [y])).Nodup from nd1.2.1)).1 (by simp)
    have hnx : h.nx y = nodeAt u Y 0 := by
      have := m.ch
      cases Y with
      | nil => exact this.1
      | cons b Y => exact this.1
    cases hyx : lt y x with
    | false =>
      refine ⟨h, A, y :: Y, ?_, m, Nat.le_refl _, rfl, ?_⟩
      · show mergeIns lt h u x y (k + 1) = .ok (h, y)
        unfold mergeIns
        rw [if_pos hyu]; simp [hyx]
      · intro y' Y2 e he; simp at e; rw [← e.1, hyx] at he; exact absurd he (by simp)
    | true =>
      have hyn : y ∉ t :: (A ++ x :: B) := fun z => nd1.2.2 y z y (by simp) rfl
      obtain ⟨h1, e1, c1, o1⟩ := linkSplice_ok m.circ hyn (m.ok y (by simp))
      have hYout : ∀ z ∈ Y ++ [u], z ∉ t :: (A ++ y :: x :: B) := by
        intro z hz hw
        by_cases hzy : z = y
        · subst hzy; exact (List.nodup_cons.1 (show (z :: (Y ++ [u])).Nodup from nd1.2.1)).1 hz
        · exact nd1.2.2 z (by simp only [List.mem_cons, List.mem_append] at hw ⊢; tauto) z (List.mem_cons_of_mem _ hz) rfl
      have pm : (t :: (A ++ [y] ++ x :: B) ++ (Y ++ [u])).Perm (t :: (A ++ x :: B) ++ (y :: Y ++ [u])) := by
        simp only [List.cons_append, List.append_assoc, List.nil_append]
        refine List.Perm.cons t (List.Perm.append_left A ?_)
        exact (List.perm_middle (a := y) (l₁ := x :: B) (l₂ := Y ++ [u])).symm
      have m1 : MI h0 h1 t u S (A ++ [y]) (x :: B) Y :=
        { circ := by simpa using c1
          ch := (Ch.tail (a := y) m.ch).frame (fun z hz => (o1.out z (hYout z (List.dropLast_subset _ hz))).1) (fun z hz => (o1.out z (hYout z (List.mem_of_mem_tail hz))).2)
          nd := pm.nodup_iff.2 m.nd
          ok := fun z hz => o1.valid.2 (m.ok z (List.mem_cons_of_mem _ hz))
          sub := fun z hz => m.sub z (pm.mem_iff.1 hz)
          only := m.only.trans (o1.mono (fun z hz => m.sub z (pm.mem_iff.1 (by simp only [List.mem_cons, List.mem_append] at hz ⊢; tauto)))) }
      obtain ⟨h2, A', Y', e2, m2, hl, e3, _⟩ := mergeIns_ok k m1 (by simp at hk; omega)
      refine ⟨h2, A', Y', ?_, m2, by simp; omega, ?_, fun _ _ _ _ => by simp; omega⟩
      · show mergeIns lt h u x y (k + 1) = _
        have hpx : h.pv x = (t :: A).getLast (by simp) := Circle.pv_mid (B := x :: B) m.circ
        unfold mergeIns
        rw [if_pos hyu]
        simp only [hyx, if_true, next_ok (m.ok y (by simp)), hnx, prev_ok (m.circ.ok x (by simp)), hpx, e1, bind, Except.bind]; exact e2
      · rw [mrg_cons_right _ _ hyx, ← e3]; simp

theorem mergeLoop_ok : ∀ (k : Nat) {h : Links} {A B Y : List Nat}, MI h0 h t u S A B Y → Y.length + (if B = [] then 0 else 1) < k → Y.length < h0.lim →
    ∃ h' A' B' Y', mergeLoop lt h t u (nodeAt t B 0) (nodeAt u Y 0) k = .ok (h', nodeAt t B' 0, nodeAt u Y' 0) ∧ MI h0 h' t u S A' B' Y' ∧ (B' = [] ∨ Y' = []) ∧
      A ++ mrg lt B Y = A' ++ mrg lt B' Y'
  | 0, _, _, _, _, _, hk, _ => by omega
  | k + 1, h, A, [], Y, m, hk, _ => ⟨h, A, [], Y, by simp [mergeLoop, nodeAt], m, Or.inl rfl, rfl⟩
  | k + 1, h, A, b :: B, [], m, hk, _ => ⟨h, A, b :: B, [], by simp [mergeLoop, nodeAt], m, Or.inr rfl, rfl⟩
  | k + 1, h, A, b :: B, y :: Y, m, hk, hY => by
    have hb : b ≠ t := Circle.ne m.circ (by simp)
    have nd1 := List.nodup_append.1 m.nd
    have hyu : y ≠ u := by
      rintro rfl; exact (List.nodup_cons.1 (show (y :: (Y ++ [y])).Nodup from nd1.2.1)).1 (by simp)
    have hlen := Circle.len m.circ
    have hl0 := m.only.lim
    obtain ⟨B1, B2, e1, e2, e3, e4⟩ := mergeSkip_ok (lt := lt) (y := y) (h.lim + 1) (A := A) (B := b :: B) (h := h) m.circ (by simp at hlen ⊢; omega)
    have m1 : MI h0 h t u S (A ++ B1) B2 (y :: Y) :=
      { circ := by have := m.circ; rw [e1] at this; simpa using this
        ch := m.ch
        nd := by have := m.nd; rw [e1] at this; simpa using this
        ok := m.ok
        sub := by have := m.sub; rw [e1] at this; simpa using this
        only := m.only }
    have hstart : mergeLoop lt h t u b y (k + 1) = (do
        let x ← mergeSkip lt h t y b (h.lim + 1)
        if x ≠ t then do
          let (h, y) ← mergeIns lt h u x y (h.lim + 1)
          mergeLoop lt h t u x y k
        else mergeLoop lt h t u x y k) := by
      rw [mergeLoop]; rw [if_pos ⟨hb, hyu⟩]
    have hsk : mergeSkip lt h t y b (h.lim + 1) = .ok (nodeAt t B2 0) := e2
    cases B2 with
    | nil =>
      obtain ⟨h', A', B', Y', f1, f2, f3, f4⟩ := mergeLoop_ok k (B := []) m1 (by simp at hk ⊢; omega) hY
      refine ⟨h', A', B', Y', ?_, f2, f3, ?_⟩
      · show mergeLoop lt h t u b y (k + 1) = _
        rw [hstart, hsk]
        simp only [bind, Except.bind]
        rw [if_neg (by simp [nodeAt])]; exact f1
      · rw [e3, ← f4]; simp
    | cons x B2 =>
      have hxt : x ≠ t := Circle.ne m1.circ (by simp)
      obtain ⟨h1, A1, Y1, g1, g2, g3, g4, g5⟩ := mergeIns_ok (lt := lt) (h.lim + 1) m1 (by simp at hY ⊢; omega)
      have hlt := g5 y Y rfl (e4 x B2 rfl)
      obtain ⟨h', A', B', Y', f1, f2, f3, f4⟩ := mergeLoop_ok k g2 (by simp at hk hlt ⊢; omega) (by omega)
      refine ⟨h', A', B', Y', ?_, f2, f3, ?_⟩
      · show mergeLoop lt h t u b y (k + 1) = _
        rw [hstart, hsk]
        simp only [bind, Except.bind]
        have hx0 : nodeAt t (x :: B2) 0 = x := rfl
        have hy0 : nodeAt u (y :: Y) 0 = y := rfl
        rw [hy0] at g1
        rw [hx0, if_pos hxt, g1]
        exact f1
      · rw [e3, ← f4, ← g4]; simp

theorem isSorted_iff (ho : StrictWeak lt) : ∀ (l : List Nat), isSorted lt l = true ↔ SortedBy lt l
  | [] => by simp [isSorted, SortedBy]
  | [a] => by simp [isSorted, SortedBy]
  | a :: b :: l => by
    have ih := isSorted_iff ho (b :: l)
    simp only [isSorted, Bool.and_eq_true, Bool.not_eq_true', ih]
    constructor
    · rintro ⟨h1, h2⟩
      refine List.pairwise_cons.2 ⟨?_, h2⟩
      intro c hc
      rcases List.mem_cons.1 hc with rfl | hc
      · exact h1
      · exact ho.le_trans h1 ((List.pairwise_cons.1 h2).1 c hc)
    · intro h; have := List.pairwise_cons.1 h
      exact ⟨this.1 b (by simp), this.2⟩

theorem merge_ok (ho : StrictWeak lt) (g : SysOf s ts L) (ht : t ∈ ts) (hu : u ∈ ts) (htu : t ≠ u) (hne : L u ≠ []) (h1 : SortedBy lt (L t)) (h2 : SortedBy lt (L u)) :
    ∃ s', merge s t u lt = .ok (s', .ok) ∧ Same s s' ∧ SysOf s' ts (upd (upd L t (isort lt (L t ++ L u))) u []) := by
  have c := g.circ t ht
  have cu := g.circ u hu
  have hlt := Circle.len c
  have hlu := Circle.len cu
  have ndU := List.nodup_cons.1 cu.nd
  have nd0 : (t :: L t ++ (L u ++ [u])).Nodup := by
    refine List.nodup_append.2 ⟨c.nd, List.nodup_append.2 ⟨ndU.2, by simp, ?_⟩, ?_⟩
    · intro a ha b hb e'; simp at hb; subst hb; subst e'; exact ndU.1 ha
    · intro a ha b hb e'; subst e'; exact g.dis t ht u hu htu a ha (by simp at hb ⊢; tauto)
  have m0 : MI s.h s.h t u (t :: u :: (L t ++ L u)) [] (L t) (L u) :=
    { circ := c
      ch := by have := cu.ch; rw [List.cons_append] at this; exact this.tail
      nd := nd0
      ok := fun y hy => cu.ok y (by simp at hy ⊢; tauto)
      sub := fun x hx => by simp only [List.nil_append, List.mem_cons, List.mem_append, List.not_mem_nil] at hx ⊢; tauto
      only := Only.refl _ _ }
  obtain ⟨h', A', B', Y', e1, m1, hend, heq⟩ := mergeLoop_ok (lt := lt) (s.h.lim + 2) m0 (by split_ifs <;> omega) (by omega)
  rw [List.nil_append, mrg_eq_isort ho h1 h2] at heq
  have hrest : ∃ h3, (if nodeAt t B' 0 = t ∧ nodeAt u Y' 0 ≠ u then (do linkSplice3 h' (← h'.prev t) (nodeAt u Y' 0) (← h'.prev u)) else Except.ok h' : Res Links) = .ok h3 ∧
      Circle h3 t (isort lt (L t ++ L u)) ∧ Only s.h h3 (t :: u :: (L t ++ L u)) := by
    have nd1 := List.nodup_append.1 m1.nd
    by_cases hY : Y' = []
    · subst hY
      refine ⟨h', by simp [nodeAt], ?_, m1.only⟩
      rw [heq, mrg_nil_right]; exact m1.circ
    · have hB : B' = [] := by tauto
      subst hB
      obtain ⟨y, Y, rfl⟩ := List.exists_cons_of_ne_nil hY
      have hyu : y ≠ u := by
        rintro rfl; exact (List.nodup_cons.1 (show (y :: (Y ++ [y])).Nodup from nd1.2.1)).1 (by simp)
      have hlast : h'.pv u = (y :: Y).getLast (by simp) := by
        obtain ⟨P, z, ez⟩ : ∃ P z, y :: Y = P ++ [z] := ⟨(y :: Y).dropLast, (y :: Y).getLast (by simp), (List.dropLast_concat_getLast (by simp)).symm⟩
        have hc := m1.ch
        rw [ez, List.append_assoc, List.singleton_append, ch_append] at hc
        rw [hc.2.1.2]; simp [ez]
      have hdis : ∀ x ∈ y :: Y, x ∉ t :: (A' ++ []) := fun x hx hz => nd1.2.2 x hz x (List.mem_append_left _ hx) rfl
      obtain ⟨v1, v2, v3, v4, c2⟩ := m1.circ.insertSeg (N := y :: Y) (f := y) (e := (y :: Y).getLast (by simp)) (by simp) rfl rfl m1.ch.left
        (m1.nd.sublist (by simp)) (fun x hx => m1.ok x (List.mem_append_left _ hx))
      rw [nodeAt_app, Circle.pv_mid m1.circ] at c2
      rw [nodeAt_app, Circle.pv_mid m1.circ] at v1
      rw [nodeAt_app] at v2
      have ht0 : nodeAt t [] 0 = t := rfl
      rw [ht0] at c2 v2
      have hpt : h'.pv t = (t :: A').getLast (by simp) := Circle.pv_mid (B := []) m1.circ
      have hpn : h'.nx ((t :: A').getLast (by simp)) = t := Circle.nx_last (B := []) m1.circ
      have hpA := last_mem t A'
      have hlm : (y :: Y).getLast (by simp) ∈ y :: Y := List.getLast_mem _
      have huv := m1.ok u (by simp)
      refine ⟨(h'.joined ((t :: A').getLast (by simp)) y).joined ((y :: Y).getLast (by simp)) t, ?_, ?_, ?_⟩
      · rw [if_pos ⟨rfl, hyu⟩]
        simp only [prev_ok v2, prev_ok huv, hpt, hlast, bind, Except.bind]
        refine linkSplice3_eq v1 v3 v4 v2 hpn ?_ ?_
        · intro z; rw [← z] at hlm; exact hdis _ hlm (by rw [List.append_nil]; exact hpA)
        · rintro rfl; exact hdis _ (List.mem_cons_self ..) (by simp)
      · rw [heq, mrg_nil_left]; simpa using c2
      · have sub := m1.sub
        refine m1.only.trans ((Only.join (S := t :: u :: (L t ++ L u)) ?_ ?_).trans (Only.join ?_ ?_))
        · exact sub _ (by rw [List.append_nil]; exact List.mem_append_left _ hpA)
        · exact sub _ (by simp)
        · exact sub _ (List.mem_append_right _ (List.mem_append_left _ hlm))
        · simp
  obtain ⟨h3, e3, c3, o3⟩ := hrest
  have huv3 : h3.valid u := o3.valid.2 cu.tv
  have pm := isort_perm lt (L t ++ L u)
  have hut : u ∉ t :: isort lt (L t ++ L u) := by
    intro z
    rcases List.mem_cons.1 z with z | z
    · exact htu z.symm
    · rcases List.mem_append.1 (pm.mem_iff.1 z) with z | z
      · exact g.dis t ht u hu htu u (by simp [z]) (by simp)
      · exact ndU.1 z
  have oj : Only h3 (h3.joined u u) [u] := Only.join (by simp) (by simp)
  have w1 := c.walk (s.h.lim + 1) 0 (by omega) (by omega)
  have w2 := cu.walk (s.h.lim + 1) 0 (by omega) (by omega)
  rw [List.drop_zero] at w1 w2
  refine ⟨{ s with h := h3.joined u u, sz := upd (upd s.sz t (s.sz t + s.sz u)) u 0 }, ?_, ⟨rfl, rfl, o3.lim⟩, ?_⟩
  · unfold merge
    rw [if_neg htu]
    simp only [empty_ok cu, hne, decide_false, Bool.false_eq_true, if_false, next_ok cu.tv, next_ok c.tv, c.first, cu.first, w1, w2, (isSorted_iff ho _).2 h1, (isSorted_iff ho _).2 h2, Bool.and_true, Bool.not_true, Bool.and_false, e1, bind, Except.bind]
    simp only [bind, Except.bind] at e3
    simp only [e3, initialise, join_ok huv3 huv3, bind, Except.bind]
  · refine g.two ht hu htu (Circle.frame c3 oj (fun x hx => by simp only [List.mem_singleton]; rintro rfl; exact hut hx)) (init_circle huv3) (by simpa using pm) (o3.trans (oj.mono (by simp))) ?_ (by simp) ?_
    · show upd (upd s.sz t (s.sz t + s.sz u)) u 0 t = _
      rw [upd_other _ _ htu, upd_same, pm.length_eq, g.size t ht, g.size u hu]; simp
    · intro v hv1 hv2; show upd (upd s.sz t (s.sz t + s.sz u)) u 0 v = _; rw [upd_other _ _ hv2, upd_other _ _ hv1]

end Etl.IList
