import Verif.Tree.Step2

/-! # Steps 2 and 3 of `remove_node` on the represented tree -/
namespace Etl.Tree
open T

theorem refOf_congr {h h' : TH} (hd : h'.dr = h.dr) (hl : h'.lim = h.lim) (p : Nat) : refOf h' p = refOf h p := by
  simp only [refOf, TH.locDir, TH.dirIx, TH.dir, TH.valid, hd, hl]

theorem lastD_congr {h h' : TH} (hd : h'.dr = h.dr) (hl : h'.lim = h.lim) {fs : List Frame} (hh : LastD h fs) : LastD h' fs := by
  unfold LastD at *; rw [refOf_congr hd hl]; exact hh

theorem lastn_append_cons (a : List Frame) (f : Frame) (b : List Frame) : lastn (a ++ f :: b) = lastn (f :: b) := by
  simp [lastn, List.getLast?_append, List.getLast?_cons]

theorem lastD_path {h : TH} {fs : List Frame} {t : T} (r : Rep h h.root (plug fs t)) (hd : DRep h fs) : LastD h fs := by
  rcases List.eq_nil_or_concat fs with rfl | ⟨a, b, rfl⟩
  · exact lastD_nil h
  · rw [List.concat_eq_append] at *
    exact lastD_snoc (r.valid_of_mem (mem_plug.2 (.inl (mem_pids_append.2 (.inr (mem_pids_cons.2 (.inl rfl))))))) (hd b (by simp))

/-- The loop over frames that do not hold the node to be removed. -/
theorem loop_ok {t : T} (ht : t ≠ .nil) {found fp : Nat} {rest : List Frame} (post : List Frame) : ∀ (h : TH) (fs0 : List Frame) (k : Nat),
    Rep h h.root (plug (fs0 ++ (post ++ rest)) t) → (plug (fs0 ++ (post ++ rest)) t).ids.Nodup → (plug (post ++ rest) t).Bal →
    LastD h fs0 → DRep h post → (∀ f ∈ post, f.n ≠ found) →
    ∃ h', rebalLoop h found fp (lastn fs0) (h.gl (endLoc .root fs0)) (post.length + k) =
        rebalLoop h' found fp (lastn (fs0 ++ post.flatMap step2)) (h'.gl (endLoc .root (fs0 ++ post.flatMap step2))) k ∧
      Rep h' h'.root (plug (fs0 ++ (post.flatMap step2 ++ rest)) t) ∧ h'.lim = h.lim ∧ h'.dr = h.dr ∧ LastD h' (fs0 ++ post.flatMap step2) := by
  induction post with
  | nil => intro h fs0 k r nd hb hl hd hf; exact ⟨h, by simp, by simpa using r, rfl, rfl, by simpa using hl⟩
  | cons f post ih =>
    intro h fs0 k r nd hb hl hd hf
    have hX : (plug (post ++ rest) t).height ≠ 0 := by
      have := len_le_height (post ++ rest) t
      cases t with
      | nil => exact absurd rfl ht
      | node a b c => simp only [height] at this; omega
    obtain ⟨h1, fp1, a1, a2, a3, a4, _⟩ := step_ok (rest := post ++ rest) r nd hb ht hl (hd f (List.mem_cons_self ..)) found fp (post.length + k)
    obtain ⟨rfl, a5⟩ := a4 (.inl (hf f (List.mem_cons_self ..)))
    obtain ⟨s1, s2, s3, l, g, s4, s5, s6⟩ := step2_shape hb hX
    have gd : g.d = f.d := s3 g (by rw [s4]; simp)
    have vg : h1.valid g.n := a2.valid_of_mem (mem_plug.2 (.inl (by
      rw [s4]; simp only [mem_pids_append, mem_pids_cons]; tauto)))
    have hL1 : LastD h1 (fs0 ++ step2 f) := by
      rw [s4, ← List.append_assoc]
      exact lastD_snoc vg (by rw [a5, s5, gd]; exact hd f (List.mem_cons_self ..))
    have hids : (plug (fs0 ++ step2 f ++ (post ++ rest)) t).ids = (plug (fs0 ++ (f :: post ++ rest)) t).ids := by
      rw [ids_plug, ids_plug]; simp only [bef_append, aft_append, s1, s2, bef, aft, List.cons_append, List.append_assoc]
    have hdr : DRep h1 post := by intro x hx; rw [a5]; exact hd x (List.mem_cons_of_mem _ hx)
    obtain ⟨h', i1, i2, i3, i4, i5⟩ := ih h1 (fs0 ++ step2 f) k (by rw [List.append_assoc]; exact a2) (by rw [hids]; exact nd)
      (bal_mk.1 hb).1 hL1 hdr (fun x hx => hf x (List.mem_cons_of_mem _ hx))
    refine ⟨h', ?_, ?_, by rw [i3, a3], by rw [i4, a5], ?_⟩
    · rw [List.flatMap_cons, ← List.append_assoc, ← i1, (rep_frame r).1, List.length_cons, show post.length + 1 + k = post.length + k + 1 by omega, a1]
      have e1 : lastn (fs0 ++ step2 f) = f.n := by rw [s4, ← List.append_assoc, lastn_snoc, s5]
      have e2 : h1.gl (endLoc .root (fs0 ++ step2 f)) = h1.ch f.n f.d := by rw [s4, ← List.append_assoc, endLoc_snoc, s5, gd]; rfl
      rw [e1, e2]
    · rw [List.flatMap_cons]; simpa using i2
    · rw [List.flatMap_cons]; simpa using i5

/-- The loop ends at the replacement node. -/
theorem loop_end {h : TH} {found fp bp : Nat} {fs : List Frame} {rd : Bool} {rn : Nat} {wr : Option Bool} {y : T} {k : Nat}
    (r : Rep h h.root (plug fs (mk rd rn wr .nil y))) (hd : h.dr rn = some rd) :
    rebalLoop h found fp bp (h.gl (endLoc .root fs)) (k + 1) = .ok (h, fp) := by
  obtain ⟨e, v, _, rx, _⟩ := rep_mk.1 ((rep_plug (L := .root)).1 r).2
  rw [e, rebalLoop, if_pos (by have := v.1; omega)]
  simp only [TH.dirIx, TH.dir, if_pos v, hd, bind, Except.bind, TH.child]
  rw [if_pos (show h.ch rn rd = 0 from rx)]

theorem lastn_flat {X : T} (hX : X.height ≠ 0) (pre post : List Frame) (hb : (plug post X).Bal) :
    lastn (pre ++ post.flatMap step2) = lastn (pre ++ post) := by
  rcases List.eq_nil_or_concat post with rfl | ⟨a, b, rfl⟩
  · rfl
  · rw [List.concat_eq_append, plug_append] at *
    obtain ⟨_, _, _, l, g, s4, s5, _⟩ := step2_shape (f := b) (bal_plug_sub hb) hX
    rw [List.flatMap_append, List.flatMap_cons, List.flatMap_nil, List.append_nil, s4, ← List.append_assoc, ← List.append_assoc,
      ← List.append_assoc, lastn_snoc, lastn_snoc, s5]

theorem dirs_flat {X : T} (hX : X.height ≠ 0) {e : Bool} (post : List Frame) (hb : (plug post X).Bal) (he : ∀ f ∈ post, f.d = e) :
    ∀ f ∈ post.flatMap step2, f.d = e := by
  induction post with
  | nil => simp
  | cons f post ih =>
    intro g hg
    rw [List.flatMap_cons, List.mem_append] at hg
    have hh : (plug post X).height ≠ 0 := by have := len_le_height post X; omega
    obtain ⟨_, _, s3, _⟩ := step2_shape hb hh
    rcases hg with hg | hg
    · rw [s3 g hg]; exact he f (List.mem_cons_self ..)
    · exact ih (bal_mk.1 hb).1 (fun x hx => he x (List.mem_cons_of_mem _ hx)) g hg

/-- Step 2 when the node to be removed is not on the rebalanced part of the path. -/
theorem rebal_out {h : TH} {pre post : List Frame} {found fp : Nat} {rd : Bool} {rn : Nat} {wr : Option Bool} {y : T} {k : Nat}
    (r : Rep h h.root (plug (pre ++ post) (mk rd rn wr .nil y))) (nd : (plug (pre ++ post) (mk rd rn wr .nil y)).ids.Nodup)
    (hb : (plug (pre ++ post) (mk rd rn wr .nil y)).Bal) (hd : DRep h (pre ++ post)) (hrn : h.dr rn = some rd)
    (hf : ∀ f ∈ post, f.n ≠ found) (hk : post.length < k) :
    ∃ h', rebalLoop h found fp (lastn pre) (h.gl (endLoc .root pre)) k = .ok (h', fp) ∧
      Rep h' h'.root (plug (pre ++ post.flatMap step2) (mk rd rn wr .nil y)) ∧ h'.lim = h.lim ∧ h'.dr = h.dr ∧
      LastD h' (pre ++ post.flatMap step2) := by
  have hL : LastD h pre := lastD_path (t := plug post (mk rd rn wr .nil y)) (by rw [← plug_append]; exact r) (hd.mono fun x hx => List.mem_append_left _ hx)
  obtain ⟨h', a1, a2, a3, a4, a5⟩ := loop_ok (t := mk rd rn wr .nil y) (by simp [mk]) (found := found) (fp := fp) (rest := []) post h pre (k - post.length)
    (by simpa using r) (by simpa using nd) (by rw [List.append_nil]; rw [plug_append] at hb; exact bal_plug_sub hb) hL
    (hd.mono fun x hx => List.mem_append_right _ hx) hf
  rw [List.append_nil] at a2
  refine ⟨h', ?_, a2, a3, a4, a5⟩
  rw [show post.length + (k - post.length) = k by omega] at a1
  rw [a1, show k - post.length = (k - post.length - 1) + 1 by omega]
  exact loop_end a2 (by rw [a4]; exact hrn)

/-- Step 2 when the node to be removed is on the rebalanced part of the path. -/
theorem rebal_in {h : TH} {pre P1 P2 : List Frame} {a : Frame} {rd : Bool} {rn : Nat} {wr : Option Bool} {y : T} {k : Nat}
    (r : Rep h h.root (plug (pre ++ (P1 ++ a :: P2)) (mk rd rn wr .nil y)))
    (nd : (plug (pre ++ (P1 ++ a :: P2)) (mk rd rn wr .nil y)).ids.Nodup)
    (hb : (plug (pre ++ (P1 ++ a :: P2)) (mk rd rn wr .nil y)).Bal) (hd : DRep h (pre ++ (P1 ++ a :: P2))) (hrn : h.dr rn = some rd)
    (hk : (P1 ++ a :: P2).length < k) :
    ∃ h' fp' A' a', rebalLoop h a.n (lastn (pre ++ P1)) (lastn pre) (h.gl (endLoc .root pre)) k = .ok (h', fp') ∧
      pre ++ (P1 ++ a :: P2).flatMap step2 = A' ++ a' :: P2.flatMap step2 ∧ a'.n = a.n ∧ a'.d = a.d ∧
      Rep h' h'.root (plug (pre ++ (P1 ++ a :: P2).flatMap step2) (mk rd rn wr .nil y)) ∧ h'.lim = h.lim ∧ h'.dr rn = some rd ∧
      refOf h' fp' = .ok (endLoc .root A') ∧ LastD h' (pre ++ (P1 ++ a :: P2).flatMap step2) := by
  have hX : (mk rd rn wr .nil y).height ≠ 0 := by rw [height_mk]; omega
  have hXn : mk rd rn wr .nil y ≠ .nil := by simp [mk]
  have hL : LastD h pre := lastD_path (t := plug (P1 ++ a :: P2) (mk rd rn wr .nil y)) (by rw [← plug_append]; exact r)
    (hd.mono fun x hx => List.mem_append_left _ hx)
  have hb1 : (plug (P1 ++ a :: P2) (mk rd rn wr .nil y)).Bal := by rw [plug_append] at hb; exact bal_plug_sub hb
  have hb2 : (plug (a :: P2) (mk rd rn wr .nil y)).Bal := by rw [plug_append] at hb1; exact bal_plug_sub hb1
  have hXa : (plug P2 (mk rd rn wr .nil y)).height ≠ 0 := by have := len_le_height P2 (mk rd rn wr .nil y); omega
  -- nodes of the path are distinct
  have nd1 : (plug (P1 ++ a :: P2) (mk rd rn wr .nil y)).ids.Nodup := by rw [plug_append] at nd; exact nodup_plug_sub nd
  have nd2 : (plug (a :: P2) (mk rd rn wr .nil y)).ids.Nodup := by rw [plug_append] at nd1; exact nodup_plug_sub nd1
  have hP1 : ∀ f ∈ P1, f.n ≠ a.n := fun f hf he => by
    have hm : f.n ∈ pids P1 := by obtain ⟨u, v, rfl⟩ := List.append_of_mem hf; rw [mem_pids_append, mem_pids_cons]; tauto
    rw [plug_append] at nd1
    exact nodup_plug_disj nd1 hm (he ▸ mem_plug.2 (.inl (mem_pids_cons.2 (.inl rfl))))
  obtain ⟨n1, n2, n3, n4, n5⟩ := nodup_fplug.1 nd2
  have hP2 : ∀ f ∈ P2, f.n ≠ a.n := fun f hf he => n1 (mem_plug.2 (.inl (by
    obtain ⟨u, v, rfl⟩ := List.append_of_mem hf; rw [mem_pids_append, mem_pids_cons, he]; tauto)))
  have hrna : rn ∉ a.sib.ids := n5 rn (mem_plug.2 (.inr (mem_mk.2 (.inl rfl))))
  have hP2s : ∀ f ∈ P2, f.n ∉ a.sib.ids := fun f hf => n5 f.n (mem_plug.2 (.inl (by
    obtain ⟨u, v, rfl⟩ := List.append_of_mem hf; rw [mem_pids_append, mem_pids_cons]; tauto)))
  -- the part above the node
  obtain ⟨h1, a1, a2, a3, a4, a5⟩ := loop_ok hXn (found := a.n) (fp := lastn (pre ++ P1)) (rest := a :: P2) P1 h pre ((P2.length + (k - (P1 ++ a :: P2).length)) + 1)
    r nd hb1 hL (hd.mono fun x hx => List.mem_append_right _ (List.mem_append_left _ hx)) hP1
  have hk1 : P1.length + ((P2.length + (k - (P1 ++ a :: P2).length)) + 1) = k := by simp at hk ⊢; omega
  rw [hk1] at a1
  have hid1 : (plug (pre ++ P1.flatMap step2 ++ a :: P2) (mk rd rn wr .nil y)).ids = (plug (pre ++ (P1 ++ a :: P2)) (mk rd rn wr .nil y)).ids := by
    obtain ⟨q1, q2⟩ := shape_all (X := plug (a :: P2) (mk rd rn wr .nil y)) (by have := len_le_height (a :: P2) (mk rd rn wr .nil y); omega) P1
      (by rw [← plug_append]; exact hb1)
    rw [ids_plug, ids_plug]; simp only [bef_append, aft_append, q1, q2, List.append_assoc]
  -- the node itself
  rw [← List.append_assoc] at a2
  have hda : h1.dr a.n = some a.d := by rw [a4]; exact hd a (by simp)
  obtain ⟨h2, fp2, b1, b2, b3, b4, b5⟩ := step_ok a2 (by rw [hid1]; exact nd) hb2 hXn a5 hda a.n (lastn (pre ++ P1)) (P2.length + (k - (P1 ++ a :: P2).length))
  rw [(rep_frame a2).1] at a1
  obtain ⟨s1, s2, s3, l, g, s4, s5, s6⟩ := step2_shape (f := a) hb2 hXa
  have gd : g.d = a.d := s3 g (by rw [s4]; simp)
  have hid2 : (plug (pre ++ P1.flatMap step2 ++ step2 a ++ (P2 ++ [])) (mk rd rn wr .nil y)).ids = (plug (pre ++ (P1 ++ a :: P2)) (mk rd rn wr .nil y)).ids := by
    rw [← hid1, ids_plug, ids_plug]; simp only [bef_append, aft_append, s1, s2, bef, aft, List.append_assoc, List.append_nil]
  -- `dir` after the step
  have hdr2 : (∀ x, x ∉ a.sib.ids → h2.dr x = h1.dr x) := by
    intro x hx
    rcases s6 with rfl | ⟨_, q, rfl, hq⟩
    · rw [(b4 (.inr ⟨g, by rw [s4]; rfl⟩)).2]
    · rw [(b5 rfl q g (by rw [s4]; rfl)).2, upd_other _ _ (show x ≠ q.n from fun hc => hx (by rw [hc]; exact hq))]
  have vg : h2.valid g.n := b2.valid_of_mem (mem_plug.2 (.inl (by rw [s4]; simp only [mem_pids_append, mem_pids_cons]; tauto)))
  have hL2 : LastD h2 (pre ++ P1.flatMap step2 ++ step2 a) := by
    rw [s4, ← List.append_assoc]
    exact lastD_snoc vg (by rw [s5, gd, hdr2 _ n2]; exact hda)
  have hD2 : DRep h2 P2 := by intro x hx; rw [hdr2 _ (hP2s x hx), a4]; exact hd x (by simp [hx])
  have e1 : lastn (pre ++ P1.flatMap step2 ++ step2 a) = a.n := by rw [s4, ← List.append_assoc, lastn_snoc, s5]
  have e2 : h2.gl (endLoc .root (pre ++ P1.flatMap step2 ++ step2 a)) = h2.ch a.n a.d := by
    rw [s4, ← List.append_assoc, endLoc_snoc, s5, gd]; rfl
  -- the part below
  obtain ⟨h3, c1, c2, c3, c4, c5⟩ := loop_ok hXn (found := a.n) (fp := fp2) (rest := []) P2 h2 (pre ++ P1.flatMap step2 ++ step2 a)
    (k - (P1 ++ a :: P2).length) (by rw [List.append_nil, List.append_assoc]; exact b2)
    (by rw [hid2]; exact nd) (by rw [List.append_nil]; exact (bal_mk.1 hb2).1) hL2 hD2 hP2
  rw [e1, e2] at c1
  have hfin : pre ++ P1.flatMap step2 ++ step2 a ++ P2.flatMap step2 = pre ++ (P1 ++ a :: P2).flatMap step2 := by
    simp only [List.flatMap_append, List.flatMap_cons, List.append_assoc]
  rw [List.append_nil, hfin] at c2
  rw [hfin] at c5
  have hrn3 : h3.dr rn = some rd := by rw [c4, hdr2 _ hrna, a4]; exact hrn
  refine ⟨h3, fp2, pre ++ P1.flatMap step2 ++ l, g, ?_, ?_, s5, gd, c2, by rw [c3, b3, a3], hrn3, ?_, c5⟩
  · rw [a1, b1, c1, hfin, show k - (P1 ++ a :: P2).length = (k - (P1 ++ a :: P2).length - 1) + 1 by omega]
    exact loop_end c2 hrn3
  · rw [← hfin, s4]; simp
  · rw [refOf_congr c4 c3]
    rcases s6 with rfl | ⟨_, q, rfl, hq⟩
    · obtain ⟨f1, f2⟩ := b4 (.inr ⟨g, by rw [s4]; rfl⟩)
      rw [f1, List.append_nil, ← lastn_flat (X := plug (a :: P2) (mk rd rn wr .nil y)) (by have := len_le_height (a :: P2) (mk rd rn wr .nil y); omega) pre P1
        (by rw [← plug_append]; exact hb1), refOf_congr f2 b3]
      exact a5
    · obtain ⟨f1, f2⟩ := b5 rfl q g (by rw [s4]; rfl)
      have vq : h2.valid q.n := b2.valid_of_mem (mem_plug.2 (.inl (by rw [s4]; simp only [mem_pids_append, mem_pids_cons]; tauto)))
      have := lastD_snoc (fs := pre ++ P1.flatMap step2) vq (by rw [f2, upd_same])
      unfold LastD at this
      rw [lastn_snoc] at this
      rw [f1]; exact this

theorem PRep.move {h h' : TH} (hl : h'.lim = h.lim) {fs : List Frame} {L L' : Loc} (r : PRep h L fs) (hg : h'.gl L' = h.gl L)
    (hc : ∀ n ∈ pids fs, (∀ d, h'.ch n d = h.ch n d) ∧ h'.wt n = h.wt n) : PRep h' L' fs := by
  cases fs with
  | nil => trivial
  | cons f fs =>
    obtain ⟨r1, r2, r3, r4, r5⟩ := r
    have hf := hc f.n (mem_pids_cons.2 (.inl rfl))
    refine ⟨by rw [hg, r1], by simp only [TH.valid, hl] at *; exact r2, by rw [hf.2, r3], ?_, ?_⟩
    · rw [hf.1]; exact r4.congr hl fun n hn => hc n (mem_pids_cons.2 (.inr (.inl hn)))
    · exact r5.congr hl (hf.1 _) fun n hn => hc n (mem_pids_cons.2 (.inr (.inr hn)))

theorem sl_sl_gl {h : TH} {L L' : Loc} {v v' : Nat} (hn : L ≠ L') : ((h.sl L v).sl L' v').gl L = v := by
  cases L with
  | root =>
    cases L' with
    | root => exact absurd rfl hn
    | child p d => rfl
  | child q e =>
    cases L' with
    | root => exact if_pos ⟨rfl, rfl⟩
    | child p d =>
      show (if q = p ∧ e = d then v' else if q = q ∧ e = e then v else h.ch q e) = v
      rw [if_neg (by rintro ⟨rfl, rfl⟩; exact hn rfl), if_pos ⟨rfl, rfl⟩]

/-- `detach_node` when the replacement node is not the node removed. -/
theorem detach_ok {h : TH} {A B : List Frame} {a : Frame} {rd : Bool} {rn : Nat} {wr : Option Bool} {y : T}
    (r : Rep h h.root (plug (A ++ a :: B) (mk rd rn wr .nil y))) (nd : (plug (A ++ a :: B) (mk rd rn wr .nil y)).ids.Nodup)
    (hd : h.dr rn = some rd) : ∃ h', h.detachNode (endLoc .root A) (endLoc .root (A ++ a :: B)) = .ok h' ∧
      Rep h' h'.root (plug (A ++ { a with n := rn } :: B) y) ∧ h'.lim = h.lim := by
  obtain ⟨pr, rt⟩ := (rep_plug (L := .root)).1 r
  obtain ⟨e1, vr, e2, e3, ry⟩ := rep_mk.1 rt
  obtain ⟨prA, prB⟩ := prep_append.1 pr
  obtain ⟨f1, va, f3, rsib, prB⟩ := prB
  have lvA := lv_end prA
  have lvB := lv_end pr
  have nd0 := nd
  rw [plug_append] at nd
  obtain ⟨n1, n2, n3, n4, n5⟩ := nodup_fplug.1 (nodup_plug_sub nd)
  obtain ⟨m1, m2, m3, m4, m5⟩ := nodup_mk.1 (nodup_plug_sub n3)
  -- where the references are
  have hA : ∀ p d, endLoc .root A = .child p d → p ∈ pids A := fun p d he => end_mem he
  obtain ⟨q, e, hR, hq⟩ : ∃ q e, endLoc .root (A ++ a :: B) = .child q e ∧ (B = [] ∧ q = a.n ∧ e = a.d ∨ B ≠ [] ∧ q ∈ pids B) := by
    rcases List.eq_nil_or_concat B with rfl | ⟨B', g, rfl⟩
    · exact ⟨_, _, endLoc_snoc _ _ _, .inl ⟨rfl, rfl, rfl⟩⟩
    · refine ⟨g.n, g.d, ?_, .inr ⟨by simp, ?_⟩⟩
      · rw [List.concat_eq_append, show A ++ a :: (B' ++ [g]) = (A ++ a :: B') ++ [g] by simp, endLoc_snoc]
      · rw [List.concat_eq_append, mem_pids_append]; exact .inr (mem_pids_cons.2 (.inl rfl))
  have hAll : ∀ m, m ∈ pids A → m ≠ a.n ∧ m ≠ rn ∧ m ∉ pids B ∧ m ∉ y.ids ∧ m ∉ a.sib.ids := by
    intro m hm
    have := nodup_plug_disj nd hm
    simp only [plug, Frame.plug, mem_mk, mem_plug] at this
    tauto
  have har : a.n ≠ rn := fun hc => n1 (mem_plug.2 (.inr (mem_mk.2 (.inl hc))))
  have hBr : ∀ m, m ∈ pids B → m ≠ rn ∧ m ≠ a.n ∧ m ∉ y.ids ∧ m ∉ a.sib.ids := by
    intro m hm
    have h1 := nodup_plug_disj n3 hm
    simp only [mem_mk] at h1
    refine ⟨by tauto, fun hc => n1 (mem_plug.2 (.inl (hc ▸ hm))), by tauto, n5 m (mem_plug.2 (.inl hm))⟩
  have hqA : q ∉ pids A := fun hc => by
    rcases hq with ⟨_, rfl, _⟩ | ⟨_, hq⟩
    · exact (hAll _ hc).1 rfl
    · exact (hAll _ hc).2.2.1 hq
  have hqr : q ≠ rn := by
    rcases hq with ⟨_, rfl, _⟩ | ⟨_, hq⟩
    · exact har
    · exact (hBr _ hq).1
  have hPR : endLoc .root A ≠ .child q e := fun hc => hqA (hA _ _ hc)
  let h1 : TH := h.sl (endLoc .root A) rn
  let h2 : TH := h1.sl (.child q e) (h.ch rn (!rd))
  let h3 : TH := h2.sc rn false (h2.ch a.n false)
  let h4 : TH := h3.sc rn true (h2.ch a.n true)
  let h5 : TH := h4.sw rn (h.wt a.n)
  have hl1 : h1.lim = h.lim := sl_lim _ _ _
  have v1 : ∀ {m}, h.valid m → h1.valid m := fun hv => by simp only [TH.valid, hl1]; exact hv
  have ch1 : ∀ m d, m ∉ pids A → h1.ch m d = h.ch m d := fun m d hm => sl_ch fun d' he => hm (hA _ _ he)
  have hrA : rn ∉ pids A := fun hc => (hAll _ hc).2.1 rfl
  have haA : a.n ∉ pids A := fun hc => (hAll _ hc).1 rfl
  have ch3 : h3.ch a.n true = h2.ch a.n true := sc_ne _ _ _ _ har
  rw [hR]
  have hrun : h.detachNode (endLoc .root A) (.child q e) = .ok h5 := by
    unfold TH.detachNode
    rw [getL_ok lvA, f1]
    rw [hR] at lvB e1
    rw [getL_ok lvB, e1]
    simp only [bind, Except.bind]
    rw [setL_ok lvA]
    simp only [TH.dirIx, TH.dir]
    rw [if_pos (show (h.sl (endLoc .root A) rn).valid rn from v1 vr), sl_dr, hd]
    simp only [bind, Except.bind, TH.child]
    rw [if_pos (show (h.sl (endLoc .root A) rn).valid rn from v1 vr), show (h.sl (endLoc .root A) rn).ch rn (!rd) = _ from ch1 _ _ hrA]
    simp only
    rw [setL_ok (h := h.sl (endLoc .root A) rn) (L := .child q e) (lv_congr hl1 lvB)]
    simp only
    rw [if_pos (show h2.valid a.n from v1 va)]
    simp only [TH.setChild]
    rw [if_pos (show h2.valid rn from v1 vr)]
    simp only
    rw [if_pos (show h3.valid a.n from v1 va)]
    simp only
    rw [if_pos (show h3.valid rn from v1 vr)]
    simp only [TH.weight, TH.setWeight]
    rw [if_pos (show (h3.sc rn true (h3.ch a.n true)).valid a.n from v1 va)]
    simp only
    rw [if_pos (show (h3.sc rn true (h3.ch a.n true)).valid rn from v1 vr), show (h3.sc rn true (h3.ch a.n true)) = h4 by rw [ch3]]
    have : h4.wt a.n = h.wt a.n := by show (h.sl (endLoc .root A) rn).wt a.n = _; rw [sl_wt]
    rw [this]
  have ch5 : ∀ m d, m ≠ rn → h5.ch m d = h2.ch m d := fun m d hm => by
    show (h3.sc rn true _).ch m d = _
    rw [sc_ne _ _ _ _ hm]; exact sc_ne _ _ _ _ hm
  have ch5r : ∀ d, h5.ch rn d = h2.ch a.n d := by
    intro d
    cases d
    · show ((h2.sc rn false (h2.ch a.n false)).sc rn (!false) (h2.ch a.n true)).ch rn false = _
      rw [sc_not']; exact sc_same _ _ _ _
    · exact sc_same _ _ _ _
  have wt5 : ∀ m, m ≠ rn → h5.wt m = h.wt m := fun m hm => by
    show (h4.sw rn (h.wt a.n)).wt m = _
    rw [sw_ne _ _ hm]; show (h.sl (endLoc .root A) rn).wt m = _; rw [sl_wt]
  have l5 : h5.lim = h.lim := hl1
  have ch2 : ∀ m d, m ≠ q → m ∉ pids A → h2.ch m d = h.ch m d := fun m d hm hmA => by
    show (h1.sc q e _).ch m d = _
    rw [sc_ne _ _ _ _ hm]; exact ch1 _ _ hmA
  have keep : ∀ m, m ≠ rn → m ≠ q → m ∉ pids A → (∀ d, h5.ch m d = h.ch m d) ∧ h5.wt m = h.wt m := fun m h1 h2 h3 =>
    ⟨fun d => by rw [ch5 _ _ h1, ch2 _ _ h2 h3], wt5 _ h1⟩
  have ryz : Rep h5 (h.ch rn (!rd)) y := ry.to h5 l5 fun m hm => keep m (fun hc => m2 (hc ▸ hm)) (fun hc => by
    rcases hq with ⟨_, rfl, _⟩ | ⟨_, hq⟩
    · subst hc; exact n1 (mem_plug.2 (.inr (mem_mk.2 (.inr (.inr hm)))))
    · exact (hBr _ hq).2.2.1 (hc ▸ hm)) (fun hc => (hAll _ hc).2.2.2.1 hm)
  refine ⟨h5, hrun, ?_, l5⟩
  rw [plug_append]
  refine (rep_plug (L := .root)).2 ⟨?_, ?_⟩
  · refine (prA.set_end (v := rn) _ nd (fun p d he => by cases he)).to h5 ?_ ?_ fun m hm => ?_
    · rw [l5, sl_lim]
    · rfl
    · obtain ⟨k1, k2, k3, k4, k5⟩ := hAll m hm
      refine ⟨fun d => ?_, by rw [wt5 _ k2, sl_wt]⟩
      rw [ch5 _ _ k2]
      exact sc_ne _ _ _ _ (show m ≠ q from fun hc => hqA (by rw [← hc]; exact hm))
  · have hgl : h5.gl (endLoc .root A) = rn := by
      cases hE : endLoc .root A with
      | root => show h1.root = rn; show (h.sl (endLoc .root A) rn).root = rn; rw [hE]; rfl
      | child p d =>
        have hp := hA _ _ hE
        show h5.ch p d = rn
        rw [ch5 _ _ (hAll _ hp).2.1]
        show ((h.sl (endLoc .root A) rn).sc q e _).ch p d = rn
        rw [sc_ne _ _ _ _ (show p ≠ q from fun hc => hqA (by rw [← hc]; exact hp)), hE]; exact sc_same _ _ _ _
    rw [hgl]
    refine rep_mk.2 ⟨rfl, by simp only [TH.valid, l5]; exact vr, ?_, ?_, ?_⟩
    · show (h4.sw rn (h.wt a.n)).wt rn = a.w
      rw [sw_same, f3]
    · show Rep h5 (h5.ch rn a.d) (plug B y)
      rw [ch5r]
      rcases hq with ⟨rfl, rfl, rfl⟩ | ⟨hB, hq⟩
      · rw [show h2.ch a.n a.d = h.ch rn (!rd) from sc_same _ _ _ _]
        exact ryz
      · have haq : a.n ≠ q := fun hc => (hBr _ hq).2.1 hc.symm
        have pB := prB.set_end (v := h.ch rn (!rd)) _ n3 (fun p d he => by cases he; exact fun hc => n1 (mem_plug.2 (.inl hc)))
        have hend : endLoc (.child a.n a.d) B = .child q e := by rw [← hR, endLoc_append]; rfl
        have hend' : ∀ L, endLoc L B = .child q e := by
          intro L
          cases B with
          | nil => exact absurd rfl hB
          | cons b B => exact hend
        rw [hend] at pB
        rw [show h2.ch a.n a.d = h5.gl (.child a.n a.d) from (ch5 _ _ har).symm]
        refine (rep_plug (L := .child a.n a.d)).2 ⟨pB.to h5 l5 ?_ fun m hm => ?_, ?_⟩
        · show h5.ch a.n a.d = (h.sc q e _).ch a.n a.d
          rw [ch5 _ _ har, ch2 _ _ haq haA, sc_ne _ _ _ _ haq]
        · obtain ⟨k1, k2, k3, k4⟩ := hBr m hm
          have hmA : m ∉ pids A := fun hc => (hAll _ hc).2.2.1 hm
          refine ⟨fun d => ?_, wt5 _ k1⟩
          rw [ch5 _ _ k1]
          show (h1.sc q e _).ch m d = (h.sc q e _).ch m d
          rw [sc_ch, sc_ch, ch1 _ _ hmA]
        · rw [hend', show h5.gl (.child q e) = h.ch rn (!rd) from by
            show h5.ch q e = _
            rw [ch5 _ _ hqr]; exact sc_same _ _ _ _]
          exact ryz
    · show Rep h5 (h5.ch rn (!a.d)) a.sib
      rw [ch5r]
      have : h2.ch a.n (!a.d) = h.ch a.n (!a.d) := by
        rcases hq with ⟨_, rfl, rfl⟩ | ⟨_, hq⟩
        · show (h1.sc a.n a.d _).ch a.n (!a.d) = _
          rw [sc_not]; exact ch1 _ _ haA
        · exact ch2 _ _ (fun hc => (hBr _ hq).2.1 hc.symm) haA
      rw [this]
      refine rsib.to h5 l5 fun m hm => keep m (fun hc => ?_) (fun hc => ?_) (fun hc => (hAll _ hc).2.2.2.2 hm)
      · exact n5 rn (mem_plug.2 (.inr (mem_mk.2 (.inl rfl)))) (hc ▸ hm)
      · rcases hq with ⟨_, rfl, _⟩ | ⟨_, hq⟩
        · exact n2 (hc ▸ hm)
        · exact (hBr _ hq).2.2.2 (hc ▸ hm)

/-- `detach_node` when the node removed is its own replacement. -/
theorem detach_self {h : TH} {A : List Frame} {rd : Bool} {rn : Nat} {wr : Option Bool} {y : T}
    (r : Rep h h.root (plug A (mk rd rn wr .nil y))) (nd : (plug A (mk rd rn wr .nil y)).ids.Nodup)
    (hd : h.dr rn = some rd) : ∃ h', h.detachNode (endLoc .root A) (endLoc .root A) = .ok h' ∧
      Rep h' h'.root (plug A y) ∧ h'.lim = h.lim ∧ ∀ d, h'.ch rn d = h.ch rn d := by
  obtain ⟨pr, rt⟩ := (rep_plug (L := .root)).1 r
  obtain ⟨e1, vr, e2, e3, ry⟩ := rep_mk.1 rt
  have lvA := lv_end pr
  obtain ⟨m1, m2, m3, m4, m5⟩ := nodup_mk.1 (nodup_plug_sub nd)
  have hrA : rn ∉ pids A := fun hc => nodup_plug_disj nd hc (mem_mk.2 (.inl rfl))
  let L := endLoc .root A
  let h1 : TH := h.sl L rn
  let h2 : TH := h1.sl L (h.ch rn (!rd))
  let h3 : TH := h2.sc rn false (h2.ch rn false)
  let h4 : TH := h3.sc rn true (h3.ch rn true)
  let h5 : TH := h4.sw rn (h.wt rn)
  have hl1 : h1.lim = h.lim := sl_lim _ _ _
  have hl2 : h2.lim = h.lim := by show (h1.sl L _).lim = _; rw [sl_lim, hl1]
  have v1 : h1.valid rn := by simp only [TH.valid, hl1]; exact vr
  have v2 : h2.valid rn := by simp only [TH.valid, hl2]; exact vr
  have wt2 : h2.wt = h.wt := by show (h1.sl L _).wt = _; rw [sl_wt]; exact sl_wt _ _ _
  have hrun : h.detachNode L L = .ok h5 := by
    unfold TH.detachNode
    rw [getL_ok lvA, e1]
    simp only [bind, Except.bind]
    rw [setL_ok lvA]
    simp only [TH.dirIx, TH.dir]
    rw [if_pos (show (h.sl L rn).valid rn from v1), sl_dr, hd]
    simp only [bind, Except.bind, TH.child]
    rw [if_pos (show (h.sl L rn).valid rn from v1), sl_ch (fun d he => hrA (end_mem he))]
    simp only
    rw [setL_ok (h := h.sl L rn) (lv_congr hl1 lvA)]
    simp only
    rw [if_pos (show h2.valid rn from v2)]
    simp only [TH.setChild]
    rw [if_pos (show h2.valid rn from v2)]
    simp only
    rw [if_pos (show h3.valid rn from v2)]
    simp only
    rw [if_pos (show h3.valid rn from v2)]
    simp only [TH.weight, TH.setWeight]
    rw [if_pos (show h4.valid rn from v2)]
    simp only
    rw [if_pos (show h4.valid rn from v2)]
    show Except.ok (h4.sw rn (h2.wt rn)) = _
    rw [wt2]
  have hc5 : ∀ d, h5.ch rn d = h.ch rn d := by
    intro d
    have hk : h2.ch rn d = h.ch rn d := by
      show ((h.sl L rn).sl L _).ch rn d = _
      rw [sl_ch (fun d he => hrA (end_mem he)), sl_ch (fun d he => hrA (end_mem he))]
    rw [← hk]
    show ((h2.sc rn false (h2.ch rn false)).sc rn true (h3.ch rn true)).ch rn d = _
    cases d
    · rw [show (true : Bool) = !false from rfl, sc_not']; exact sc_same _ _ _ _
    · rw [sc_same]; exact sc_not' (d := true) _ _
  refine ⟨h5, hrun, ?_, hl2, hc5⟩
  have hns : ∀ m, m ≠ rn → (∀ d, h5.ch m d = h2.ch m d) ∧ h5.wt m = h2.wt m := fun m hm => ⟨fun d => by
    show (h3.sc rn true _).ch m d = _
    rw [sc_ne _ _ _ _ hm]; exact sc_ne _ _ _ _ hm, by show (h4.sw rn _).wt m = _; rw [sw_ne _ _ hm]; rfl⟩
  have key : Rep h2 h2.root (plug A y) := by
    have r1 : Rep h1 h1.root (plug A (mk rd rn wr .nil y)) :=
      install (h1 := h) r nd rfl rfl (fun _ _ => ⟨fun _ => rfl, rfl⟩) (show Rep h rn _ from e1 ▸ rt) (fun m hm => .inl hm)
    have ry1 : Rep h1 (h.ch rn (!rd)) y := ry.to h1 hl1 fun m hm => ⟨fun d => sl_ch fun d' he =>
      nodup_plug_disj nd (end_mem he) (mem_mk.2 (.inr (.inr hm))), by show (h.sl L rn).wt m = _; rw [sl_wt]⟩
    exact install (h1 := h1) r1 nd rfl rfl (fun _ _ => ⟨fun _ => rfl, rfl⟩) ry1 (fun m hm => .inl (mem_mk.2 (.inr (.inr hm))))
  exact key.to h5 rfl fun m hm => hns m (fun hc => by
    subst hc
    rcases mem_plug.1 hm with hm | hm
    · exact hrA hm
    · exact m2 hm)

end Etl.Tree
