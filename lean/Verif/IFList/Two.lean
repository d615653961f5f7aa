import Verif.IFList.Ops

/-!
# Splice and merge of intrusive forward lists
-/
namespace Etl.IFList
open FLinks
variable {h h' : FLinks} {sz sz' : Nat → Nat} {ts : List Nat} {L : Nat → List Nat} {t u : Nat} {s : St}

theorem lastLoop_ok {h : FLinks} {e : Nat} : ∀ (k : Nat) {M : List Nat} {p : Nat}, Seg h.nx p (p :: M) e → e ∉ p :: M → (∀ x ∈ p :: M, h.valid x) → M.length < k → lastLoop h e p k = .ok (lst p M)
  | 0, _, _, _, _, _, hk => by omega
  | k + 1, [], p, hs, _, hv, _ => by
    have : h.nx p = e := hs.2
    simp [lastLoop, next_ok (hv p (by simp)), this, bind, Except.bind]
  | k + 1, x :: M, p, hs, hl, hv, hk => by
    obtain ⟨_, e1, hs⟩ := hs
    rw [lastLoop, next_ok (hv p (by simp))]
    simp only [bind, Except.bind, e1]
    rw [if_pos (fun y => hl (by simp [y])), lastLoop_ok k (p := x) ⟨rfl, hs⟩ (fun y => hl (List.mem_cons_of_mem _ y)) (fun y hy => hv y (List.mem_cons_of_mem _ hy)) (by simpa using hk)]
    rfl

theorem last_split {M : List Nat} (hM : M ≠ []) (p : Nat) : M = M.dropLast ++ [lst p M] := by
  rcases List.eq_nil_or_concat M with rfl | ⟨l, a, rfl⟩
  · exact absurd rfl hM
  · simp

theorem lst_ne {M : List Nat} (hM : M ≠ []) (p q : Nat) : lst p M = lst q M := by
  rcases List.eq_nil_or_concat M with rfl | ⟨l, a, rfl⟩
  · exact absurd rfl hM
  · simp

theorem Sys.apart (g : Sys h sz ts L) (ht : t ∈ ts) (hu : u ∈ ts) (htu : t ≠ u) : (t :: L t ++ L u).Nodup := by
  refine List.nodup_append.2 ⟨(g.line t ht).nd, (List.nodup_cons.1 (g.line u hu).nd).2, ?_⟩
  intro a ha b hb e; subst e; exact g.dis t ht u hu htu a ha (by simp [hb])

theorem splice_ok (g : SysOf s ts L) (ht : t ∈ ts) (hu : u ∈ ts) (htu : u ≠ t) {A B : List Nat} (e : L t = A ++ B) :
    ∃ s', splice s t (lst t A) u = .ok s' ∧ Same s s' ∧ SysOf s' ts (upd (upd L t (A ++ L u ++ B)) u []) := by
  have c := g.line t ht; rw [e] at c
  have cu := g.line u hu
  unfold splice
  rw [if_neg htu, empty_ok g hu]
  by_cases h0 : L u = []
  · refine ⟨s, by simp [h0], Same.refl s, ?_⟩
    have : upd (upd L t (A ++ L u ++ B)) u [] = L := by
      rw [h0, List.append_nil, ← e, upd_self rfl, upd_self h0]
    rw [this]; exact g
  · have nd := g.apart ht hu (Ne.symm htu); rw [e] at nd
    have hMn : ∀ x ∈ L u, x ∉ t :: (A ++ B) := fun x hx hy => (List.nodup_append.1 nd).2.2 x hy x hx rfl
    have hlm : lst t A ∈ t :: A := lst_mem t A
    have hlm2 : lst t A ∈ t :: (A ++ B) := by simp only [List.mem_cons, List.mem_append] at hlm ⊢; tauto
    have hlu : lst t A ∉ L u := fun z => hMn _ z hlm2
    have hlE : lst t A ≠ E := fun z => c.ne (z ▸ hlm2)
    have hsp := last_split h0 (lst t A)
    have hlast : lst (lst t A) (L u) ∈ L u := lst_mem_of_ne h0
    have hlastd : lst (lst t A) (L u) ∉ (L u).dropLast := by
      have := (List.nodup_append.1 nd).2.1
      rw [hsp] at this
      exact fun hx => (List.nodup_append.1 this).2.2 _ hx _ (by simp) rfl
    have vA := c.mid.1
    have nA : s.h.nx (lst t A) = hd E B := c.nx_lst
    have lenu := Line.len cu
    obtain ⟨h1, hh1⟩ : ∃ h1, h1 = s.h.linked (lst t A) (s.h.nx u) := ⟨_, rfl⟩
    have s1 : Seg h1.nx (lst t A) (lst t A :: L u) E := by
      rw [hh1]; exact ⟨rfl, by simp only [linked_nx, upd_same]; exact cu.first.upd hlu⟩
    have vl : ∀ x ∈ lst t A :: L u, h1.valid x := by
      intro x hx
      rw [hh1]
      rcases List.mem_cons.1 hx with rfl | hx
      · exact vA
      · exact cu.ok x (by simp [hx])
    have hE1 : E ∉ lst t A :: L u := by
      intro z
      rcases List.mem_cons.1 z with z | z
      · exact hlE z.symm
      · exact cu.ne (by simp [z])
    have hll := lastLoop_ok (s.h.lim + 1) s1 hE1 vl (by omega)
    obtain ⟨h2, hh2⟩ : ∃ h2, h2 = h1.linked (lst (lst t A) (L u)) (hd E B) := ⟨_, rfl⟩
    have vlast : h1.valid (lst (lst t A) (L u)) := vl _ (by simp [hlast])
    have vu : h2.valid u := by rw [hh2, hh1]; exact cu.tv
    have uout : u ∉ t :: (A ++ L u ++ B) := by
      intro z
      have h3 := g.dis u hu t ht htu u (by simp)
      have h4 := (List.nodup_cons.1 cu.nd).1
      rw [e] at h3; simp only [List.mem_cons, List.mem_append] at z h3; tauto
    have o2 : Only s.h h2 (t :: (A ++ L u ++ B)) := by
      rw [hh2, hh1]
      refine (Only.link ?_).trans (Only.link ?_)
      · simp only [List.mem_cons, List.mem_append] at hlm ⊢; tauto
      · simp only [List.mem_cons, List.mem_append]; tauto
    have c2 : Line h2 t E (A ++ L u ++ B) := by
      refine c.ins o2.lim ?_ ?_ (List.nodup_append.1 nd).2.1 (fun x hx => ⟨hMn x hx, cu.ok x (by simp [hx]), Line.neE cu hx⟩)
      · intro x hx hxl
        have h3 : x ≠ lst (lst t A) (L u) := by rintro rfl; exact hMn _ hlast hx
        rw [hh2, hh1]; simp only [linked_nx, upd_other _ _ h3, upd_other _ _ hxl]
      · have h3 : lst t A ≠ lst (lst t A) (L u) := by intro z; rw [← z] at hlast; exact hlu hlast
        rw [nA]
        have h4 : h2.nx (lst t A) = s.h.nx u := by rw [hh2, hh1]; simp only [linked_nx, upd_other _ _ h3, upd_same]
        rw [h4, hh2, linked_nx]
        have h5 : Seg h1.nx (s.h.nx u) ((L u).dropLast ++ [lst (lst t A) (L u)]) E := by
          rw [← hsp]
          have := s1.2; rw [hh1] at this ⊢; simpa using this
        have h6 := h5.relink (b := hd E B) hlastd
        rw [← hsp] at h6; exact h6
    refine ⟨{ s with h := h2.linked u E, sz := upd (upd s.sz t (s.sz t + s.sz u)) u 0 }, ?_, ⟨rfl, rfl, o2.lim⟩, ?_⟩
    · simp only [h0, decide_false, Bool.false_eq_true, if_false, next_ok cu.tv, next_ok vA, nA, join_ok vA, bind, Except.bind]
      rw [← hh1]
      simp only [hll, join_ok vlast, initialise, bind, Except.bind]
      rw [← hh2, join_ok vu]
    · have c3 : Line (h2.linked u E) t E (A ++ L u ++ B) := Line.frm c2 (Only.link (S := [u]) (by simp)) (fun x hx => by
        simp only [List.mem_singleton]; rintro rfl; exact uout hx)
      refine g.two ht hu (Ne.symm htu) c3 (init_line vu (g.tne hu)) ?_ ((o2.mono ?_).trans (Only.link (by simp))) ?_ (by simp) ?_
      · rw [e, List.append_nil, List.append_assoc, List.append_assoc]
        exact List.Perm.append_left A List.perm_append_comm
      · intro x hx; rw [e]; simp only [List.mem_cons, List.mem_append] at hx ⊢; tauto
      · show upd (upd s.sz t (s.sz t + s.sz u)) u 0 t = _
        rw [upd_other _ _ (Ne.symm htu), upd_same, g.size t ht, g.size u hu, e]; simp; omega
      · intro v hv1 hv2; show upd (upd s.sz t (s.sz t + s.sz u)) u 0 v = _; rw [upd_other _ _ hv2, upd_other _ _ hv1]

theorem FLinks.ext' {a b : FLinks} (h1 : a.lim = b.lim) (h2 : ∀ x, a.nx x = b.nx x) : a = b := by
  cases a; cases b; simp only [FLinks.mk.injEq] at *; exact ⟨h1, funext h2⟩

/-- The pointer work of `splice_after(position, other, begin_, end_)`: what happens on the way. -/
theorem spliceRange_steps {h : FLinks} {u : Nat} {C M D : List Nat} (c : Line h u E (C ++ M ++ D)) (hM : M ≠ []) {pos : Nat} (vp : h.valid pos) (hp : pos ∉ M) :
    lastLoop h (hd E D) (lst u C) (h.lim + 1) = .ok (lst u (C ++ M)) ∧ distance h (lst u C) (hd E D) (h.lim + 1) = .ok (M.length + 1) ∧ h.next (lst u C) = .ok (h.nx (lst u C)) ∧
    ∃ h1, unlinkAfter2 h (lst u C) (lst u (C ++ M)) = .ok h1 ∧
      linkSplice3 h1 pos (h.nx (lst u C)) (lst u (C ++ M)) =
        .ok (((h.linked (lst u C) (h.nx (lst u (C ++ M)))).linked (lst u (C ++ M)) ((h.linked (lst u C) (h.nx (lst u (C ++ M)))).nx pos)).linked pos (h.nx (lst u C))) := by
  obtain ⟨b1, b2, b3, b4, b5, b6, b7⟩ := Line.between c
  have hlen := Line.len c
  have hv : ∀ x ∈ lst u C :: M, h.valid x := by
    intro x hx
    rcases List.mem_cons.1 hx with rfl | hx
    · exact b6
    · exact b4 x hx
  have hll : lst (lst u C) M = lst u (C ++ M) := (lst_append _ _ _).symm
  have hm : lst u (C ++ M) ∈ M := by rw [← hll]; exact lst_mem_of_ne hM
  have hne : lst u C ≠ lst u (C ++ M) := by intro z; rw [← z] at hm; exact b5 hm
  have hpl : pos ≠ lst u (C ++ M) := by rintro rfl; exact hp hm
  have vl := b4 _ hm
  refine ⟨?_, ?_, next_ok b6, clearLink (h.linked (lst u C) (h.nx (lst u (C ++ M)))) (lst u (C ++ M)), ?_, ?_⟩
  · rw [← hll]; exact lastLoop_ok (h.lim + 1) ⟨rfl, b1⟩ b2 hv (by simp at hlen; omega)
  · exact distance_ok (h.lim + 1) (M := lst u C :: M) ⟨rfl, b1⟩ b2 hv (by simp at hlen ⊢; omega)
  · rw [unlinkAfter2, if_pos hne]; simp only [next_ok vl, join_ok b6, bind, Except.bind]
  · have vp1 : (clearLink (h.linked (lst u C) (h.nx (lst u (C ++ M)))) (lst u (C ++ M))).valid pos := vp
    have vl1 : (clearLink (h.linked (lst u C) (h.nx (lst u (C ++ M)))) (lst u (C ++ M))).valid (lst u (C ++ M)) := vl
    simp only [linkSplice3, next_ok vp1, join_ok vl1, bind, Except.bind]
    rw [join_ok (by exact vp1)]
    congr 1
    refine FLinks.ext' rfl (fun x => ?_)
    simp only [clearLink, linked_nx]
    have h1 : upd (upd h.nx (lst u C) (h.nx (lst u (C ++ M)))) (lst u (C ++ M)) 0 pos = upd h.nx (lst u C) (h.nx (lst u (C ++ M))) pos := upd_other _ _ hpl
    rw [h1]
    by_cases hx : x = pos
    · subst hx; simp
    · rw [upd_other _ _ hx, upd_other _ _ hx]
      by_cases hx2 : x = lst u (C ++ M)
      · rw [hx2, upd_same, upd_same]
      · rw [upd_other _ _ hx2, upd_other _ _ hx2, upd_other _ _ hx2]

theorem spliceRange_two (g : SysOf s ts L) (ht : t ∈ ts) (hu : u ∈ ts) (htu : u ≠ t) {A B C M D : List Nat} (e : L t = A ++ B) (e' : L u = C ++ M ++ D) (hM : M ≠ []) :
    ∃ s', spliceRange s t (lst t A) u (lst u C) (hd E D) = .ok s' ∧ Same s s' ∧ SysOf s' ts (upd (upd L t (A ++ M ++ B)) u (C ++ D)) := by
  have c := g.line t ht; rw [e] at c
  have cu := g.line u hu; rw [e'] at cu
  have hdis : ∀ x ∈ t :: (A ++ B), x ∉ u :: (C ++ M ++ D) := by
    have := g.dis t ht u hu (Ne.symm htu); rw [e, e'] at this; exact this
  have hlm : lst t A ∈ t :: A := lst_mem t A
  have hlm2 : lst t A ∈ t :: (A ++ B) := by simp only [List.mem_cons, List.mem_append] at hlm ⊢; tauto
  have hlM : lst t A ∉ M := fun z => hdis _ hlm2 (by simp [z])
  obtain ⟨k1, k2, k3, h1, k4, k5⟩ := spliceRange_steps cu hM c.mid.1 hlM
  obtain ⟨b1, b2, b3, b4, b5, b6, b7⟩ := Line.between cu
  have hll : lst (lst u C) M = lst u (C ++ M) := (lst_append _ _ _).symm
  have hm : lst u (C ++ M) ∈ M := by rw [← hll]; exact lst_mem_of_ne hM
  have hne : lst u C ≠ lst u (C ++ M) := by intro z; rw [← z] at hm; exact b5 hm
  have hpl : lst t A ≠ lst u (C ++ M) := by intro z; rw [z] at hlM; exact hlM hm
  have hum : lst u C ∈ u :: C := lst_mem u C
  have hpu : lst t A ≠ lst u C := by
    intro z; exact hdis _ hlm2 (by rw [z]; simp only [List.mem_cons, List.mem_append] at hum ⊢; tauto)
  have n1 : s.h.nx (lst t A) = hd E B := c.nx_lst
  have n2 : s.h.nx (lst u (C ++ M)) = hd E D := cu.nx_lst
  have hsp := last_split hM (lst u C)
  rw [hll] at hsp
  have hlastd : lst u (C ++ M) ∉ M.dropLast := by
    rw [hsp] at b3
    exact fun hx => (List.nodup_append.1 b3).2.2 _ hx _ (by simp) rfl
  obtain ⟨h2, hh2⟩ : ∃ h2, h2 = ((s.h.linked (lst u C) (s.h.nx (lst u (C ++ M)))).linked (lst u (C ++ M)) ((s.h.linked (lst u C) (s.h.nx (lst u (C ++ M)))).nx (lst t A))).linked (lst t A) (s.h.nx (lst u C)) := ⟨_, rfl⟩
  rw [← hh2] at k5
  rw [linked_nx, upd_other _ _ hpu, n1, n2] at hh2
  have v1 : ∀ x, x ≠ lst t A → x ≠ lst u (C ++ M) → x ≠ lst u C → h2.nx x = s.h.nx x := by
    intro x h3 h4 h5; rw [hh2]; simp only [linked_nx, upd_other _ _ h3, upd_other _ _ h4, upd_other _ _ h5]
  have v2 : h2.nx (lst t A) = s.h.nx (lst u C) := by rw [hh2]; simp
  have v3 : h2.nx (lst u (C ++ M)) = hd E B := by rw [hh2]; simp only [linked_nx, upd_other _ _ (Ne.symm hpl), upd_same]
  have v4 : h2.nx (lst u C) = hd E D := by rw [hh2]; simp only [linked_nx, upd_other _ _ (Ne.symm hpu), upd_other _ _ hne, upd_same]
  have o2 : Only s.h h2 (lst t A :: lst u (C ++ M) :: [lst u C]) := ⟨by rw [hh2]; rfl, fun x hx => by
    simp only [List.mem_cons, List.not_mem_nil, or_false, not_or] at hx; exact v1 x hx.1 hx.2.1 hx.2.2⟩
  have hMt : ∀ x ∈ M, x ∉ t :: (A ++ B) := fun x hx hy => hdis x hy (by simp [hx])
  have ct : Line h2 t E (A ++ M ++ B) := by
    refine c.ins o2.lim ?_ ?_ b3 (fun x hx => ⟨hMt x hx, b4 x hx, Line.neE cu (by simp [hx])⟩)
    · intro x hx hxl
      refine v1 x hxl ?_ ?_
      · rintro rfl; exact hMt _ hm hx
      · rintro rfl; exact hdis _ hx (by simp only [List.mem_cons, List.mem_append] at hum ⊢; tauto)
    · rw [v2, n1]
      have h5 : Seg (upd s.h.nx (lst u (C ++ M)) (hd E B)) (s.h.nx (lst u C)) M (hd E B) := by
        have h4 := b1; rw [hsp] at h4
        have := h4.relink (b := hd E B) hlastd
        rw [← hsp] at this; exact this
      refine h5.frame (fun x hx => ?_)
      by_cases hx2 : x = lst u (C ++ M)
      · rw [hx2, v3, upd_same]
      · rw [upd_other _ _ hx2]
        refine v1 x ?_ hx2 ?_
        · rintro rfl; exact hlM hx
        · rintro rfl; exact b5 hx
  have cu2 : Line h2 u E (C ++ D) := by
    refine cu.cut' o2.lim ?_ v4
    intro x hx hxl
    refine v1 x ?_ ?_ hxl
    · rintro rfl; exact hdis _ hlm2 (by simp only [List.mem_cons, List.mem_append] at hx ⊢; tauto)
    · rintro rfl; exact b7 _ hm hx
  have hne0 : L u ≠ [] := by rw [e']; intro z; simp only [List.append_eq_nil_iff] at z; exact hM z.1.2
  refine ⟨{ s with h := h2, sz := upd (upd s.sz t (s.sz t + M.length)) u (upd s.sz t (s.sz t + M.length) u - M.length) }, ?_, ⟨rfl, rfl, o2.lim⟩, ?_⟩
  · unfold spliceRange
    rw [empty_ok g hu]
    simp only [hne0, decide_false, Bool.false_eq_true, if_false, ne_eq, htu, not_false_eq_true, if_true, k1, k2, k3, k4, k5, bind, Except.bind, Nat.add_sub_cancel]
  · refine g.two ht hu (Ne.symm htu) ct cu2 ?_ (o2.mono ?_) ?_ ?_ ?_
    · rw [e, e']
      have p1 : (A ++ M ++ B ++ (C ++ D)).Perm (M ++ (A ++ B ++ (C ++ D))) := by
        rw [show A ++ M ++ B ++ (C ++ D) = (A ++ M) ++ (B ++ (C ++ D)) by simp, show M ++ (A ++ B ++ (C ++ D)) = (M ++ A) ++ (B ++ (C ++ D)) by simp]
        exact List.Perm.append_right _ List.perm_append_comm
      have p2 : (A ++ B ++ (C ++ M ++ D)).Perm (M ++ (A ++ B ++ (C ++ D))) := by
        rw [show A ++ B ++ (C ++ M ++ D) = (A ++ B ++ C) ++ M ++ D by simp, show M ++ (A ++ B ++ (C ++ D)) = M ++ (A ++ B ++ C) ++ D by simp]
        exact List.Perm.append_right _ List.perm_append_comm
      exact p1.trans p2.symm
    · intro x hx
      rw [e, e']
      simp only [List.mem_cons, List.mem_append, List.not_mem_nil, or_false] at hx hlm hum ⊢
      rcases hx with rfl | rfl | rfl
      · tauto
      · tauto
      · tauto
    · show upd _ _ _ _ = _
      rw [upd_other _ _ (Ne.symm htu), upd_same, g.size t ht, e]; simp; omega
    · show upd _ _ _ _ = _
      rw [upd_same, upd_other _ _ htu, g.size u hu, e']; simp; omega
    · intro v hv1 hv2; show upd _ _ _ _ = _; rw [upd_other _ _ hv2, upd_other _ _ hv1]

theorem spliceRange_self (g : SysOf s ts L) (ht : t ∈ ts) {X M B P Q : List Nat} (e : L t = X ++ M ++ B) (hM : M ≠ []) (hPQ : X ++ B = P ++ Q) :
    ∃ s', spliceRange s t (lst t P) t (lst t X) (hd E B) = .ok s' ∧ Same s s' ∧ SysOf s' ts (upd L t (P ++ M ++ Q)) := by
  have c := g.line t ht; rw [e] at c
  obtain ⟨_, _, vP, c2⟩ := c.move hM hPQ rfl rfl
  obtain ⟨b1, b2, b3, b4, b5, b6, b7⟩ := Line.between c
  have hlP : lst t P ∈ t :: P := lst_mem t P
  have hlP2 : lst t P ∈ t :: (X ++ B) := by rw [hPQ]; simp only [List.mem_cons, List.mem_append] at hlP ⊢; tauto
  obtain ⟨k1, k2, k3, h1, k4, k5⟩ := spliceRange_steps c hM vP (fun z => b7 _ z hlP2)
  have hne0 : L t ≠ [] := by rw [e]; intro z; simp only [List.append_eq_nil_iff] at z; exact hM z.1.2
  have hll : lst (lst t X) M = lst t (X ++ M) := (lst_append _ _ _).symm
  have hm : lst t (X ++ M) ∈ M := by rw [← hll]; exact lst_mem_of_ne hM
  have hlX : lst t X ∈ t :: X := lst_mem t X
  suffices hh : ∀ h2, h2 = ((s.h.linked (lst t X) (s.h.nx (lst t (X ++ M)))).linked (lst t (X ++ M)) ((s.h.linked (lst t X) (s.h.nx (lst t (X ++ M)))).nx (lst t P))).linked (lst t P) (s.h.nx (lst t X)) →
      spliceRange s t (lst t P) t (lst t X) (hd E B) = .ok { s with h := h2 } ∧ Same s { s with h := h2 } ∧ SysOf { s with h := h2 } ts (upd L t (P ++ M ++ Q)) from ⟨_, hh _ rfl⟩
  rintro h2 rfl
  refine ⟨?_, ⟨rfl, rfl, ?_⟩, ?_⟩
  · unfold spliceRange
    rw [empty_ok g ht]
    simp only [hne0, decide_false, Bool.false_eq_true, if_false, ne_eq, not_true, k1, k3, k4, k5, bind, Except.bind]
  · rfl
  · have pm : (P ++ M ++ Q).Perm (L t) := by
      rw [e]
      have p1 : (P ++ M ++ Q).Perm (M ++ (P ++ Q)) := by rw [← List.append_assoc]; exact List.Perm.append_right _ List.perm_append_comm
      have p2 : (X ++ M ++ B).Perm (M ++ (X ++ B)) := by rw [← List.append_assoc]; exact List.Perm.append_right _ List.perm_append_comm
      rw [hPQ] at p2; exact p1.trans p2.symm
    refine g.one ht (N := []) c2 ?_ (by simp) (fun x hx => by simpa using pm.mem_iff.1 hx) ?_ ?_ (fun _ _ => rfl)
    · rw [e]
      refine ((Only.link ?_).trans (Only.link ?_)).trans (Only.link ?_)
      · simp only [List.mem_cons, List.mem_append] at hlX ⊢; tauto
      · simp [hm]
      · simp only [List.mem_cons, List.mem_append] at hlP2 ⊢; tauto
    · intro x hx hy; exfalso; exact hy (pm.mem_iff.2 (by simpa using hx))
    · rw [pm.length_eq]; exact g.size t ht

/-! ### merge -/

/-- The merge loop: list `t` holds `A ++ B`, the unread part of the other list is `Y`. -/
structure MI (h0 h : FLinks) (t : Nat) (S A B Y : List Nat) : Prop where
  line : Line h t E (A ++ B)
  seg : Seg h.nx (hd E Y) Y E
  nd : (t :: (A ++ B) ++ Y).Nodup
  ok : ∀ y ∈ Y, h.valid y ∧ y ≠ E
  sub : ∀ x ∈ t :: (A ++ B) ++ Y, x ∈ S
  only : Only h0 h S

variable {lt : Nat → Nat → Bool} {S : List Nat} {h0 : FLinks}

theorem mergeSkip_ok {y : Nat} : ∀ (k : Nat) {A B : List Nat} {h : FLinks}, Line h t E (A ++ B) → B.length < k →
    ∃ B1 B2, B = B1 ++ B2 ∧ mergeSkip lt h y (lst t A) (hd E B) k = .ok (lst t (A ++ B1), hd E B2) ∧ (∀ Y, mrg lt B (y :: Y) = B1 ++ mrg lt B2 (y :: Y)) ∧
      (∀ b B3, B2 = b :: B3 → lt y b = true)
  | 0, _, _, _, _, hk => by omega
  | k + 1, A, [], h, c, _ => ⟨[], [], rfl, by simp [mergeSkip], by simp, by simp⟩
  | k + 1, A, b :: B, h, c, hk => by
    have hb : b ≠ E := Line.neE c (by simp)
    cases hyb : lt y b with
    | true =>
      refine ⟨[], b :: B, rfl, ?_, by simp, ?_⟩
      · rw [hd_cons, mergeSkip, if_pos hb]; simp [hyb]
      · intro b' B3 e; simp at e; rw [← e.1]; exact hyb
    | false =>
      obtain ⟨B1, B2, e1, e2, e3, e4⟩ := mergeSkip_ok (y := y) k (A := A ++ [b]) (B := B) (h := h) (by simpa using c) (by simp at hk; omega)
      rw [lst_concat] at e2
      refine ⟨b :: B1, B2, by simp [e1], ?_, ?_, e4⟩
      · rw [hd_cons, mergeSkip, if_pos hb]
        simp only [hyb, Bool.not_false, if_true, next_ok (c.ok b (by simp)), Line.nx_mem c, bind, Except.bind, e2]
        simp
      · intro Y; rw [mrg_cons_left _ _ hyb, e3]; simp

/-- One element is taken over. -/
theorem MI.take {A B Y : List Nat} {y : Nat} (m : MI h0 h t S A B (y :: Y)) :
    ∃ h1, linkSplice h (lst t A) y = .ok h1 ∧ h.next y = .ok (hd E Y) ∧ h1.next (lst t A) = .ok y ∧ MI h0 h1 t S (A ++ [y]) B Y := by
  have nd1 := List.nodup_append.1 m.nd
  have hyn : y ∉ t :: (A ++ B) := fun z => nd1.2.2 y z y (by simp) rfl
  obtain ⟨h1, e1, c1, o1, f1⟩ := linkSplice_ok m.line hyn (m.ok y (by simp)).1 (m.ok y (by simp)).2
  have hnx : h.nx y = hd E Y := m.seg.2.hd
  have ndY := List.nodup_cons.1 nd1.2.1
  have hYout : ∀ z ∈ Y, z ∉ t :: (A ++ y :: B) := by
    intro z hz hw
    by_cases hzy : z = y
    · subst hzy; exact ndY.1 hz
    · exact nd1.2.2 z (by simp only [List.mem_cons, List.mem_append] at hw ⊢; tauto) z (List.mem_cons_of_mem _ hz) rfl
  have pm : (t :: (A ++ [y] ++ B) ++ Y).Perm (t :: (A ++ B) ++ (y :: Y)) := by
    simp only [List.cons_append, List.append_assoc, List.nil_append]
    refine List.Perm.cons t (List.Perm.append_left A ?_)
    exact (List.perm_middle (a := y) (l₁ := B) (l₂ := Y)).symm
  refine ⟨h1, e1, by rw [next_ok (m.ok y (by simp)).1, hnx], by rw [next_ok (o1.valid.2 m.line.mid.1), f1], ?_⟩
  exact
    { line := by simpa using c1
      seg := by
        have := m.seg.2; rw [hnx] at this
        exact this.frame (fun z hz => o1.out z (hYout z hz))
      nd := pm.nodup_iff.2 m.nd
      ok := fun z hz => ⟨o1.valid.2 (m.ok z (List.mem_cons_of_mem _ hz)).1, (m.ok z (List.mem_cons_of_mem _ hz)).2⟩
      sub := fun z hz => m.sub z (pm.mem_iff.1 hz)
      only := m.only.trans (o1.mono (fun z hz => m.sub z (pm.mem_iff.1 (by simp only [List.mem_cons, List.mem_append] at hz ⊢; tauto)))) }

theorem mergeIns_ok {x : Nat} : ∀ (k : Nat) {h : FLinks} {A B Y : List Nat}, MI h0 h t S A (x :: B) Y → Y.length < k →
    ∃ h' A' Y', mergeIns lt h (lst t A) x (hd E Y) k = .ok (h', lst t A', hd E Y') ∧ MI h0 h' t S A' (x :: B) Y' ∧ Y'.length ≤ Y.length ∧
      A ++ mrg lt (x :: B) Y = A' ++ mrg lt (x :: B) Y' ∧ (∀ y Y2, Y = y :: Y2 → lt y x = true → Y'.length < Y.length)
  | 0, _, _, _, _, _, hk => by omega
  | k + 1, h, A, B, [], m, _ => ⟨h, A, [], by simp [mergeIns], m, by simp, rfl, by simp⟩
  | k + 1, h, A, B, y :: Y, m, hk => by
    have hyE := (m.ok y (by simp)).2
    cases hyx : lt y x with
    | false =>
      refine ⟨h, A, y :: Y, ?_, m, Nat.le_refl _, rfl, ?_⟩
      · rw [hd_cons, mergeIns, if_pos hyE]; simp [hyx]
      · intro y' Y2 e h3; simp at e; rw [← e.1, hyx] at h3; exact absurd h3 (by simp)
    | true =>
      obtain ⟨h1, e1, e4, e5, m1⟩ := m.take
      obtain ⟨h2, A', Y', e2, m2, hl, e3, _⟩ := mergeIns_ok k m1 (by simp at hk; omega)
      rw [lst_concat] at e2
      refine ⟨h2, A', Y', ?_, m2, by simp; omega, ?_, fun _ _ _ _ => by simp; omega⟩
      · rw [hd_cons, mergeIns, if_pos hyE]
        simp only [hyx, if_true, e4, e1, e5, bind, Except.bind]; exact e2
      · rw [mrg_cons_right _ _ hyx, ← e3]; simp

theorem mergeLoop_ok : ∀ (k : Nat) {h : FLinks} {A B Y : List Nat}, MI h0 h t S A B Y → Y.length + (if B = [] then 0 else 1) < k → Y.length < h0.lim →
    ∃ h' A' B' Y', mergeLoop lt h (lst t A) (hd E B) (hd E Y) k = .ok (h', lst t A', hd E B', hd E Y') ∧ MI h0 h' t S A' B' Y' ∧ (B' = [] ∨ Y' = []) ∧
      A ++ mrg lt B Y = A' ++ mrg lt B' Y'
  | 0, _, _, _, _, _, hk, _ => by omega
  | k + 1, h, A, [], Y, m, hk, _ => by
    refine ⟨h, A, [], Y, ?_, m, Or.inl rfl, rfl⟩
    simp [mergeLoop, next_ok m.line.mid.1, m.line.nx_lst, bind, Except.bind]
  | k + 1, h, A, b :: B, [], m, hk, _ => by
    refine ⟨h, A, b :: B, [], ?_, m, Or.inr rfl, rfl⟩
    simp [mergeLoop, next_ok m.line.mid.1, bind, Except.bind]
  | k + 1, h, A, b :: B, y :: Y, m, hk, hY => by
    have hb : b ≠ E := Line.neE m.line (by simp)
    have hyE := (m.ok y (by simp)).2
    have hlen := Line.len m.line
    have hl0 := m.only.lim
    have hnl : h.nx (lst t A) = b := m.line.nx_lst
    obtain ⟨B1, B2, e1, e2, e3, e4⟩ := mergeSkip_ok (lt := lt) (y := y) (h.lim + 1) (A := A) (B := b :: B) (h := h) m.line (by simp at hlen ⊢; omega)
    have m1 : MI h0 h t S (A ++ B1) B2 (y :: Y) :=
      { line := by have := m.line; rw [e1] at this; simpa using this
        seg := m.seg
        nd := by have := m.nd; rw [e1] at this; simpa using this
        ok := m.ok
        sub := by have := m.sub; rw [e1] at this; simpa using this
        only := m.only }
    rw [hd_cons] at e2
    cases B2 with
    | nil =>
      obtain ⟨h', A', B', Y', f1, f2, f3, f4⟩ := mergeLoop_ok k (B := []) m1 (by simp at hk ⊢; omega) hY
      refine ⟨h', A', B', Y', ?_, f2, f3, ?_⟩
      · rw [mergeLoop]
        simp only [next_ok m.line.mid.1, hnl, hd_cons, hb, hyE, bind, Except.bind, ne_eq, not_false_eq_true, and_self, if_true, e2, hd_nil, not_true, if_false]; exact f1
      · rw [e3, ← f4]; simp
    | cons x B2 =>
      have hxE : x ≠ E := Line.neE m1.line (by simp)
      obtain ⟨h1, A1, Y1, g1, g2, g3, g4, g5⟩ := mergeIns_ok (lt := lt) (h.lim + 1) m1 (by simp at hY ⊢; omega)
      have hlt := g5 y Y rfl (e4 x B2 rfl)
      obtain ⟨h', A', B', Y', f1, f2, f3, f4⟩ := mergeLoop_ok k g2 (by simp at hk hlt ⊢; omega) (by omega)
      rw [hd_cons] at g1
      refine ⟨h', A', B', Y', ?_, f2, f3, ?_⟩
      · rw [mergeLoop]
        simp only [next_ok m.line.mid.1, hnl, hd_cons, hb, hyE, bind, Except.bind, ne_eq, not_false_eq_true, and_self, if_true, e2, hxE, g1]; exact f1
      · rw [e3, ← f4, ← g4]; simp

theorem mergeRest_ok : ∀ (k : Nat) {h : FLinks} {A Y : List Nat}, MI h0 h t S A [] Y → Y.length < k → ∃ h', mergeRest h (lst t A) (hd E Y) k = .ok h' ∧ MI h0 h' t S (A ++ Y) [] []
  | 0, _, _, _, _, hk => by omega
  | k + 1, h, A, [], m, _ => ⟨h, by simp [mergeRest], by simpa using m⟩
  | k + 1, h, A, y :: Y, m, hk => by
    have hyE := (m.ok y (by simp)).2
    obtain ⟨h1, e1, e4, e5, m1⟩ := m.take
    obtain ⟨h2, e2, m2⟩ := mergeRest_ok k m1 (by simp at hk; omega)
    rw [lst_concat] at e2
    refine ⟨h2, ?_, by simpa using m2⟩
    rw [hd_cons, mergeRest, if_pos hyE]
    simp only [e4, e1, e5, bind, Except.bind]; exact e2

theorem isSorted_iff (ho : StrictWeak lt) : ∀ (l : List Nat), isSorted lt l = true ↔ SortedBy lt l
  | [] => by simp [isSorted, SortedBy]
  | [a] => by simp [isSorted, SortedBy]
  | a :: b :: l => by
    have ih := isSorted_iff ho (b :: l)
    simp only [isSorted, Bool.and_eq_true, Bool.not_eq_true', ih]
    constructor
    · rintro ⟨h1, h2⟩
      refine List.pairwise_cons.2 ⟨?_, h2⟩
      intro c hc
      rcases List.mem_cons.1 hc with rfl | hc
      · exact h1
      · exact ho.le_trans h1 ((List.pairwise_cons.1 h2).1 c hc)
    · intro h; have := List.pairwise_cons.1 h
      exact ⟨this.1 b (by simp), this.2⟩

theorem merge_ok (ho : StrictWeak lt) (g : SysOf s ts L) (ht : t ∈ ts) (hu : u ∈ ts) (htu : t ≠ u) (hne : L u ≠ []) (h1 : SortedBy lt (L t)) (h2 : SortedBy lt (L u)) :
    ∃ s', merge s t u lt = .ok (s', .ok) ∧ Same s s' ∧ SysOf s' ts (upd (upd L t (isort lt (L t ++ L u))) u []) := by
  have c := g.line t ht
  have cu := g.line u hu
  have hlt := Line.len c
  have hlu := Line.len cu
  have ndU := List.nodup_cons.1 cu.nd
  have m0 : MI s.h s.h t (t :: (L t ++ L u)) [] (L t) (L u) :=
    { line := c
      seg := by have := cu.first; rw [this.hd] at this; exact this
      nd := g.apart ht hu htu
      ok := fun y hy => ⟨cu.ok y (by simp [hy]), Line.neE cu hy⟩
      sub := fun x hx => by simpa using hx
      only := Only.refl _ _ }
  obtain ⟨h', A', B', Y', e1, m1, hend, heq⟩ := mergeLoop_ok (lt := lt) (s.h.lim + 2) m0 (by split_ifs <;> omega) (by omega)
  rw [List.nil_append, mrg_eq_isort ho h1 h2] at heq
  have hlim' := m1.only.lim
  have hrest : ∃ h3, (if hd E B' = E then mergeRest h' (lst t A') (hd E Y') (s.h.lim + 1) else Except.ok h' : Res FLinks) = .ok h3 ∧
      Line h3 t E (isort lt (L t ++ L u)) ∧ Only s.h h3 (t :: (L t ++ L u)) := by
    cases B' with
    | nil =>
      have hY : Y'.length ≤ (L u).length + (L t).length := by
        have := congrArg List.length heq
        rw [(isort_perm lt _).length_eq, mrg_nil_left] at this
        simp at this; omega
      have hY' : Y'.length < s.h.lim + 1 := by
        have h3 : (t :: (A' ++ []) ++ Y').length ≤ s.h.lim := by
          have hsub : (t :: (A' ++ []) ++ Y') ⊆ List.range' 1 s.h.lim := by
            intro x hx
            have : h'.valid x := by
              rcases List.mem_append.1 hx with hx | hx
              · exact m1.line.ok x hx
              · exact (m1.ok x hx).1
            simp only [List.mem_range'_1]; unfold FLinks.valid at this; omega
          have := (List.subperm_of_subset m1.nd hsub).length_le
          simpa using this
        simp at h3; omega
      obtain ⟨h3, e3, m3⟩ := mergeRest_ok (s.h.lim + 1) m1 hY'
      refine ⟨h3, by rw [hd_nil, if_pos rfl]; exact e3, ?_, m3.only⟩
      rw [heq, mrg_nil_left]; simpa using m3.line
    | cons b B' =>
      have hY : Y' = [] := by simpa using hend
      subst hY
      have hb : b ≠ E := Line.neE m1.line (by simp)
      refine ⟨h', by rw [hd_cons, if_neg hb], ?_, m1.only⟩
      rw [heq, mrg_nil_right]; exact m1.line
  obtain ⟨h3, e3, c3, o3⟩ := hrest
  have huv3 : h3.valid u := o3.valid.2 cu.tv
  have pm := isort_perm lt (L t ++ L u)
  have hut : u ∉ t :: isort lt (L t ++ L u) := by
    intro z
    rcases List.mem_cons.1 z with z | z
    · exact htu z.symm
    · rcases List.mem_append.1 (pm.mem_iff.1 z) with z | z
      · exact g.dis t ht u hu htu u (by simp [z]) (by simp)
      · exact ndU.1 z
  have w1 := c.walk (k := s.h.lim + 1) (by omega)
  have w2 := cu.walk (k := s.h.lim + 1) (by omega)
  have f1 : s.h.nx t = hd E (L t) := c.first.hd
  have f2 : s.h.nx u = hd E (L u) := cu.first.hd
  refine ⟨{ s with h := h3.linked u E, sz := upd (upd s.sz t (s.sz t + s.sz u)) u 0 }, ?_, ⟨rfl, rfl, o3.lim⟩, ?_⟩
  · unfold merge
    rw [empty_ok g hu, if_neg (by simp [htu, hne])]
    rw [f1] at w1
    rw [f2] at w2
    rw [lst_nil] at e1
    simp only [next_ok cu.tv, next_ok c.tv, f1, f2, w1, w2, (isSorted_iff ho _).2 h1, (isSorted_iff ho _).2 h2, Bool.and_true, Bool.not_true, Bool.and_false, Bool.false_eq_true, if_false, e1, bind, Except.bind]
    simp only [e3, initialise, join_ok huv3, bind, Except.bind]
  · refine g.two ht hu htu (Line.frm c3 (Only.link (S := [u]) (by simp)) (fun x hx => by simp only [List.mem_singleton]; rintro rfl; exact hut hx)) (init_line huv3 (g.tne hu)) (by simpa using pm)
      ((o3.mono (by intro x hx; simp only [List.mem_cons] at hx ⊢; tauto)).trans (Only.link (by simp))) ?_ (by simp) ?_
    · show upd (upd s.sz t (s.sz t + s.sz u)) u 0 t = _
      rw [upd_other _ _ htu, upd_same, pm.length_eq, g.size t ht, g.size u hu]; simp
    · intro v hv1 hv2; show upd (upd s.sz t (s.sz t + s.sz u)) u 0 v = _; rw [upd_other _ _ hv2, upd_other _ _ hv1]

end Etl.IFList
