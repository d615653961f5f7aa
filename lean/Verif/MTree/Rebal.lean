import Verif.MTree.Insert

/-! # `remove_node`: rebalancing on the way to the replacement, and detaching -/
namespace Etl.MTree
open Etl.Tree T

theorem refOf_ok {h : MH} {fs : List Frame} {t : T} (r : Rep h.t h.t.root (plug fs t)) (hd : DRep h.t fs) :
    refOf h (lastn fs) = .ok (endLoc .root fs) := by
  rcases List.eq_nil_or_concat fs with rfl | ⟨a, b, rfl⟩
  · rfl
  · rw [List.concat_eq_append] at *
    have v : h.t.valid b.n := r.valid_of_mem (mem_plug.2 (.inl (mem_pids_append.2 (.inr (mem_pids_cons.2 (.inl rfl))))))
    unfold refOf
    rw [lastn_snoc, if_neg (by have := v.1; omega), endLoc_snoc]
    simp only [TH.locDir, TH.dirIx, TH.dir, if_pos v, hd b (by simp), bind, Except.bind]

theorem par_frame {par : Nat → Nat} {A B : List Frame} {a : Frame} {t : T} (h : Par par 0 (plug (A ++ a :: B) t)) : par a.n = lastn A := by
  obtain ⟨h1, _⟩ := par_plug.1 h
  obtain ⟨_, h2⟩ := ppar_append.1 h1
  rw [← lastD_zero]; exact h2.1

theorem par_plug_w {par : Nat → Nat} {q : Nat} {fs : List Frame} {d n w w' x y} (h : Par par q (plug fs (mk d n w x y))) :
    Par par q (plug fs (mk d n w' x y)) := by
  obtain ⟨h1, h2⟩ := par_plug.1 h
  exact par_plug.2 ⟨h1, par_w h2⟩

/-- One iteration of step 4. -/
theorem step_ok {h : MH} {fs0 rest : List Frame} {f : Frame} {t : T} (r : Rep h.t h.t.root (plug (fs0 ++ f :: rest) t))
    (nd : (plug (fs0 ++ f :: rest) t).ids.Nodup) (hp : Par h.par 0 (plug (fs0 ++ f :: rest) t)) (hb : (f.plug (plug rest t)).Bal) (ht : t ≠ .nil)
    (hd : DRep h.t (fs0 ++ f :: rest)) (k : Nat) : ∃ h', rebalLoop h f.n (k + 1) = rebalLoop h' (h'.t.ch f.n f.d) k ∧
      Rep h'.t h'.t.root (plug (fs0 ++ (step2 f ++ rest)) t) ∧ Par h'.par 0 (plug (fs0 ++ (step2 f ++ rest)) t) ∧ h'.t.lim = h.t.lim ∧
      DRep h'.t (fs0 ++ (step2 f ++ rest)) ∧ (∀ m, m ∉ f.sib.ids → h'.t.dr m = h.t.dr m) := by
  obtain ⟨g1, v, g3, g4, g5⟩ := rep_frame r
  have hf0 : f.n ≠ 0 := by have := v.1; omega
  have hne : plug rest t ≠ .nil := by
    cases rest with
    | nil => exact ht
    | cons a b => simp [plug, Frame.plug, mk]
  have hc0 : h.t.ch f.n f.d ≠ 0 := g4.ne_zero.2 hne
  have hX : (plug rest t).height ≠ 0 := by
    cases hp : plug rest t with
    | nil => exact absurd hp hne
    | node a b c => simp [height]
  have hdf : h.t.dr f.n = some f.d := hd f (by simp)
  have hpf := par_frame hp
  have hL : refOf h (lastn fs0) = .ok (endLoc .root fs0) :=
    refOf_ok (t := plug (f :: rest) t) (by rw [← plug_append]; exact r) (hd.mono fun x hx => List.mem_append_left _ hx)
  have hsp : plug (fs0 ++ f :: rest) t = plug fs0 (mk f.d f.n f.w (plug rest t) f.sib) := by rw [plug_append]; rfl
  obtain ⟨s1, s2, s3, l, g, s4, s5, s6⟩ := step2_shape hb hX
  have gd : g.d = f.d := s3 g (by rw [s4]; simp)
  have hnd2 : (plug (fs0 ++ (step2 f ++ rest)) t).ids.Nodup := by
    have : (plug (fs0 ++ (step2 f ++ rest)) t).ids = (plug (fs0 ++ f :: rest) t).ids := by
      rw [ids_plug, ids_plug]
      simp only [bef_append, aft_append, s1, s2, bef, aft]
    rw [this]; exact nd
  -- the nodes of the path outside of the sibling
  have hout : ∀ x ∈ fs0 ++ f :: rest, x.n ∉ f.sib.ids := by
    intro x hx hc
    rw [plug_append] at nd
    obtain ⟨n1, n2, n3, n4, n5⟩ := nodup_fplug.1 (nodup_plug_sub nd)
    rcases List.mem_append.1 hx with hx | hx
    · refine nodup_plug_disj nd (m := x.n) ?_ ?_
      · obtain ⟨u, w, rfl⟩ := List.append_of_mem hx
        rw [mem_pids_append, mem_pids_cons]; exact .inr (.inl rfl)
      · exact mem_mk.2 (.inr (.inr hc))
    · rcases List.mem_cons.1 hx with rfl | hx
      · exact n2 hc
      · refine n5 x.n (mem_plug.2 (.inl ?_)) hc
        obtain ⟨u, w, rfl⟩ := List.append_of_mem hx
        rw [mem_pids_append, mem_pids_cons]; exact .inr (.inl rfl)
  -- `dir` afterwards
  have hdr : ∀ dr' : Nat → Option Bool, (dr' = h.t.dr ∧ l = [] ∨ ∃ q, l = [q] ∧ q.n ∈ f.sib.ids ∧ dr' = upd h.t.dr q.n (some f.d)) →
      (∀ x ∈ fs0 ++ (step2 f ++ rest), dr' x.n = some x.d) ∧ (∀ m, m ∉ f.sib.ids → dr' m = h.t.dr m) := by
    intro dr' hh
    have hkeep : ∀ m, m ∉ f.sib.ids → dr' m = h.t.dr m := by
      intro m hm
      rcases hh with ⟨rfl, _⟩ | ⟨q, _, hq, rfl⟩
      · rfl
      · exact upd_other _ _ (by rintro rfl; exact hm hq)
    refine ⟨fun x hx => ?_, hkeep⟩
    rcases List.mem_append.1 hx with hx | hx
    · rw [hkeep _ (hout x (by simp [hx]))]; exact hd x (by simp [hx])
    · rcases List.mem_append.1 hx with hx | hx
      · rw [s4] at hx
        rcases List.mem_append.1 hx with hx | hx
        · rcases hh with ⟨_, rfl⟩ | ⟨q, rfl, hq, rfl⟩
          · cases hx
          · simp only [List.mem_singleton] at hx; subst hx
            rw [upd_same, s3 x (by rw [s4]; simp)]
        · simp only [List.mem_singleton] at hx; subst hx
          rw [s5, hkeep _ (hout f (by simp)), gd]; exact hdf
      · rw [hkeep _ (hout x (by simp [hx]))]; exact hd x (by simp [hx])
  rw [hsp] at r nd hp
  have hnn := some_not_ne f.d
  have go : ∀ X : Res MH, (if h.t.wt f.n = none then do
          let h ← h.setWeight f.n (some !f.d)
          rebalLoop h (← h.t.child f.n f.d) k
        else if h.t.wt f.n = some f.d then do
          let h ← h.setWeight f.n none
          rebalLoop h (← h.t.child f.n f.d) k
        else do
          let sib ← h.t.child f.n (!f.d)
          let ws ← h.t.weight sib
          let L ← refOf h (← h.parent f.n)
          let h ← (if ws = some f.d then do
              h.rotate3 L (!f.d) (← h.t.weight (← h.t.child sib f.d))
            else if ws = none then do
              let h ← h.rotate2 L (!f.d)
              let h ← h.setWeight (← h.t.getL L) (some f.d)
              h.setWeight f.n (some !f.d)
            else h.rotate2 L (!f.d) : Res MH)
          rebalLoop h (← h.t.child f.n f.d) k) = X →
        rebalLoop h f.n (k + 1) = X := by
    intro X hX
    rw [← hX, rebalLoop, if_pos hf0]
    simp only [TH.dirIx, TH.dir, if_pos v, hdf, bind, Except.bind, TH.child, TH.weight]
    rw [if_neg hc0]
  rcases step2_cases hb hX with ⟨hw1, h1, e⟩ | ⟨hw1, h1, e⟩ | ⟨m, e', we, p, q, y, hw1, h1, hs, e⟩ | ⟨m, x, y, hw1, h1, hs, e⟩ |
    ⟨m, x, y, hw1, h1, hs, e⟩
  · obtain ⟨t1, t2⟩ := setWeight_ok (some (!f.d)) r nd
    have hl : l = [] := by rw [e] at s4; cases l with | nil => rfl | cons a b => simp at s4
    obtain ⟨k1, k2⟩ := hdr h.t.dr (.inl ⟨rfl, hl⟩)
    refine ⟨⟨h.t.sw f.n (some (!f.d)), h.par⟩, go _ ?_, ?_, ?_, rfl, k1, k2⟩
    · rw [if_pos (by rw [g3, hw1])]
      simp only [MH.setWeight, t1, bind, Except.bind, TH.child]
      rw [if_pos (show (h.t.sw f.n (some (!f.d))).valid f.n from v)]
    · rw [e, plug_append]; exact t2
    · rw [e, plug_append]; exact par_plug_w hp
  · obtain ⟨t1, t2⟩ := setWeight_ok none r nd
    have hl : l = [] := by rw [e] at s4; cases l with | nil => rfl | cons a b => simp at s4
    obtain ⟨k1, k2⟩ := hdr h.t.dr (.inl ⟨rfl, hl⟩)
    refine ⟨⟨h.t.sw f.n none, h.par⟩, go _ ?_, ?_, ?_, rfl, k1, k2⟩
    · rw [if_neg (by rw [g3, hw1]; simp), if_pos (by rw [g3, hw1])]
      simp only [MH.setWeight, t1, bind, Except.bind, TH.child]
      rw [if_pos (show (h.t.sw f.n none).valid f.n from v)]
    · rw [e, plug_append]; exact t2
    · rw [e, plug_append]; exact par_plug_w hp
  · have hch : ¬ h.t.wt f.n = none := by rw [g3, hw1]; simp
    have hch2 : ¬ h.t.wt f.n = some f.d := by rw [g3, hw1]; exact Ne.symm hnn
    rw [hs] at g5
    obtain ⟨q1, vm, q3, q4, q5⟩ := rep_mk.1 g5
    obtain ⟨q6, ve, q8, _, _⟩ := rep_mk.1 q4
    have hsh : plug fs0 (mk f.d f.n f.w (plug rest t) f.sib) =
        plug fs0 (mk (!f.d) f.n f.w (mk (!f.d) m (some f.d) y (mk (!f.d) e' we q p)) (plug rest t)) := by
      rw [mk_flip f.d f.n, mk_flip f.d m, mk_flip f.d e', hs]
    rw [hsh] at r nd hp
    obtain ⟨h2, x1, x2, x5, x3, x4⟩ := rotate3_ok we r nd hp
    have hsh2 : plug fs0 (mk (!f.d) e' none (mk (!f.d) m (if we = some (!!f.d) then some (!f.d) else none) y q)
        (mk (!f.d) f.n (if we = some (!f.d) then some (!!f.d) else none) p (plug rest t))) = plug (fs0 ++ (step2 f ++ rest)) t := by
      rw [e]
      simp only [plug_append, plug, Frame.plug, Bool.not_not]
      rw [mk_flip f.d e', mk_flip f.d f.n]
    rw [hsh2] at x2 x5
    have hl : l = [⟨e', f.d, none, mk (!f.d) m (if we = some f.d then some (!f.d) else none) y q⟩] := by
      rw [e] at s4; exact (List.append_inj_left' (s₁ := [_]) s4 rfl).symm
    obtain ⟨k1, k2⟩ := hdr h2.t.dr (.inr ⟨_, hl, by rw [hs]; simp only [mem_mk]; tauto, by rw [x3, Bool.not_not]⟩)
    have v2 : h2.t.valid f.n := by simp only [TH.valid, x4]; exact v
    refine ⟨h2, go _ ?_, x2, x5, x4, k1, k2⟩
    rw [if_neg hch, if_neg hch2]
    simp only [bind, Except.bind, TH.child, if_pos v, q1, TH.weight, if_pos vm, q3, MH.parent_ok v, hpf, hL, if_true, q6, if_pos ve, q8, x1, if_pos v2]
  · have hch : ¬ h.t.wt f.n = none := by rw [g3, hw1]; simp
    have hch2 : ¬ h.t.wt f.n = some f.d := by rw [g3, hw1]; exact Ne.symm hnn
    rw [hs] at g5
    obtain ⟨q1, vm, q3, q4, q5⟩ := rep_mk.1 g5
    have hsh : plug fs0 (mk f.d f.n f.w (plug rest t) f.sib) =
        plug fs0 (mk (!f.d) f.n f.w (mk (!f.d) m none y x) (plug rest t)) := by
      rw [mk_flip f.d f.n, mk_flip f.d m, hs]
    rw [hsh] at r nd hp
    obtain ⟨h2, x1, x2, x5, x3, x4⟩ := rotate2_ok r nd hp
    have nd2 : (plug fs0 (mk (!f.d) m none y (mk (!f.d) f.n none x (plug rest t)))).ids.Nodup := by
      have : (plug fs0 (mk (!f.d) m none y (mk (!f.d) f.n none x (plug rest t)))).ids = (plug (fs0 ++ (step2 f ++ rest)) t).ids := by
        rw [e]
        simp only [plug_append, plug, Frame.plug]
        rw [mk_flip f.d m, mk_flip f.d f.n, ids_plug, ids_plug]
        congr 2
        rw [ids_w (w' := some f.d)]
        cases f.d
        · rw [ids_mk_f, ids_mk_f]; rfl
        · rw [ids_mk_t, ids_mk_t]; rfl
      rw [this]; exact hnd2
    obtain ⟨w1, w2⟩ := setWeight_ok (some f.d) x2 nd2
    have nd3 : (plug fs0 (mk (!f.d) m (some f.d) y (mk (!f.d) f.n none x (plug rest t)))).ids.Nodup := by
      rw [ids_plug, ids_w (w' := none), ← ids_plug]; exact nd2
    have hsh3 : plug fs0 (mk (!f.d) m (some f.d) y (mk (!f.d) f.n none x (plug rest t))) =
        plug (fs0 ++ [⟨m, f.d, some f.d, y⟩]) (mk (!f.d) f.n none x (plug rest t)) := by
      simp only [plug_append, plug, Frame.plug]
      rw [mk_flip f.d m]
    have x6 := par_plug_w (w' := some f.d) x5
    rw [hsh3] at w2 nd3 x6
    obtain ⟨w3, w4⟩ := setWeight_ok (h := h2.t.sw m (some f.d)) (some (!f.d)) w2 nd3
    have x7 := par_plug_w (w' := some (!f.d)) x6
    have hsh2 : plug (fs0 ++ [⟨m, f.d, some f.d, y⟩]) (mk (!f.d) f.n (some (!f.d)) x (plug rest t)) = plug (fs0 ++ (step2 f ++ rest)) t := by
      rw [e]
      simp only [plug_append, plug, Frame.plug]
      rw [mk_flip f.d f.n]
    rw [hsh2] at w4 x7
    have hl : l = [⟨m, f.d, some f.d, y⟩] := by
      rw [e] at s4; exact (List.append_inj_left' (s₁ := [_]) s4 rfl).symm
    obtain ⟨k1, k2⟩ := hdr h2.t.dr (.inr ⟨_, hl, by rw [hs]; simp only [mem_mk]; tauto, by rw [x3, Bool.not_not]⟩)
    have lv2 : LV h2.t (endLoc .root fs0) := lv_end ((rep_plug (L := .root)).1 x2).1
    have hgl : h2.t.gl (endLoc .root fs0) = m := ((rep_plug (L := .root)).1 x2).2.root_eq
    have v2 : ((h2.t.sw m (some f.d)).sw f.n (some (!f.d))).valid f.n := by
      show f.n ≥ 1 ∧ f.n ≤ h2.t.lim
      rw [x4]; exact v
    refine ⟨⟨(h2.t.sw m (some f.d)).sw f.n (some (!f.d)), h2.par⟩, go _ ?_, w4, x7, x4, k1, k2⟩
    rw [if_neg hch, if_neg hch2]
    simp only [bind, Except.bind, TH.child, if_pos v, q1, TH.weight, if_pos vm, q3, MH.parent_ok v, hpf, hL, reduceCtorEq, if_false, if_true, x1,
      getL_ok lv2, hgl, MH.setWeight, w1, w3]
    rw [if_pos v2]
  · have hch : ¬ h.t.wt f.n = none := by rw [g3, hw1]; simp
    have hch2 : ¬ h.t.wt f.n = some f.d := by rw [g3, hw1]; exact Ne.symm hnn
    rw [hs] at g5
    obtain ⟨q1, vm, q3, q4, q5⟩ := rep_mk.1 g5
    have hsh : plug fs0 (mk f.d f.n f.w (plug rest t) f.sib) =
        plug fs0 (mk (!f.d) f.n f.w (mk (!f.d) m (some (!f.d)) y x) (plug rest t)) := by
      rw [mk_flip f.d f.n, mk_flip f.d m, hs]
    rw [hsh] at r nd hp
    obtain ⟨h2, x1, x2, x5, x3, x4⟩ := rotate2_ok r nd hp
    have hsh2 : plug fs0 (mk (!f.d) m none y (mk (!f.d) f.n none x (plug rest t))) = plug (fs0 ++ (step2 f ++ rest)) t := by
      rw [e]
      simp only [plug_append, plug, Frame.plug]
      rw [mk_flip f.d f.n, mk_flip f.d m]
    rw [hsh2] at x2 x5
    have hl : l = [⟨m, f.d, none, y⟩] := by
      rw [e] at s4; exact (List.append_inj_left' (s₁ := [_]) s4 rfl).symm
    obtain ⟨k1, k2⟩ := hdr h2.t.dr (.inr ⟨_, hl, by rw [hs]; simp only [mem_mk]; tauto, by rw [x3, Bool.not_not]⟩)
    have v2 : h2.t.valid f.n := by simp only [TH.valid, x4]; exact v
    refine ⟨h2, go _ ?_, x2, x5, x4, k1, k2⟩
    rw [if_neg hch, if_neg hch2]
    have hq : ¬ (some (!f.d) = some f.d) := Ne.symm hnn
    simp only [bind, Except.bind, TH.child, if_pos v, q1, TH.weight, if_pos vm, q3, MH.parent_ok v, hpf, hL, if_neg hq, reduceCtorEq, if_false, x1, if_pos v2]

/-- Step 4: the loop. -/
theorem loop_ok {rd : Bool} {rn : Nat} {wr : Option Bool} {y : T} (post : List Frame) : ∀ (h : MH) (fs0 : List Frame) (k : Nat),
    Rep h.t h.t.root (plug (fs0 ++ post) (mk rd rn wr .nil y)) → (plug (fs0 ++ post) (mk rd rn wr .nil y)).ids.Nodup →
    Par h.par 0 (plug (fs0 ++ post) (mk rd rn wr .nil y)) → (plug post (mk rd rn wr .nil y)).Bal →
    DRep h.t (fs0 ++ post) → h.t.dr rn = some rd → post.length < k →
    ∃ h', rebalLoop h (h.t.gl (endLoc .root fs0)) k = .ok h' ∧ Rep h'.t h'.t.root (plug (fs0 ++ post.flatMap step2) (mk rd rn wr .nil y)) ∧
      Par h'.par 0 (plug (fs0 ++ post.flatMap step2) (mk rd rn wr .nil y)) ∧ h'.t.lim = h.t.lim ∧ DRep h'.t (fs0 ++ post.flatMap step2) ∧
      h'.t.dr rn = some rd := by
  induction post with
  | nil =>
    intro h fs0 k r nd hp hb hd hr hk
    obtain ⟨k, rfl⟩ : ∃ j, k = j + 1 := ⟨k - 1, by simp at hk; omega⟩
    refine ⟨h, ?_, by simpa using r, by simpa using hp, rfl, by simpa using hd, hr⟩
    rw [List.append_nil] at r
    obtain ⟨e, v, _, rx, _⟩ := rep_mk.1 ((rep_plug (L := .root)).1 r).2
    rw [e, rebalLoop, if_pos (by have := v.1; omega)]
    simp only [TH.dirIx, TH.dir, if_pos v, hr, bind, Except.bind, TH.child]
    rw [if_pos (show h.t.ch rn rd = 0 from rx)]
  | cons f post ih =>
    intro h fs0 k r nd hp hb hd hr hk
    obtain ⟨k, rfl⟩ : ∃ j, k = j + 1 := ⟨k - 1, by simp at hk; omega⟩
    have hX : (plug post (mk rd rn wr .nil y)).height ≠ 0 := by
      have := len_le_height post (mk rd rn wr .nil y)
      rw [height_mk] at this; omega
    obtain ⟨h1, a1, a2, a3, a4, a5, a6⟩ := step_ok r nd hp hb (by simp [mk]) hd k
    obtain ⟨s1, s2, s3, l, g, s4, s5, s6⟩ := step2_shape hb hX
    have gd : g.d = f.d := s3 g (by rw [s4]; simp)
    have hids : (plug (fs0 ++ step2 f ++ post) (mk rd rn wr .nil y)).ids = (plug (fs0 ++ f :: post) (mk rd rn wr .nil y)).ids := by
      rw [ids_plug, ids_plug]; simp only [bef_append, aft_append, s1, s2, bef, aft, List.append_assoc]
    have hrs : rn ∉ f.sib.ids := by
      have nd' := nd
      rw [plug_append] at nd'
      exact (nodup_fplug.1 (nodup_plug_sub nd')).2.2.2.2 rn (mem_plug.2 (.inr (mem_mk.2 (.inl rfl))))
    rw [← List.append_assoc] at a2 a3 a5
    obtain ⟨h', i1, i2, i3, i4, i5, i6⟩ := ih h1 (fs0 ++ step2 f) k a2 (by rw [hids]; exact nd) a3 (bal_mk.1 hb).1 a5
      (by rw [a6 _ hrs]; exact hr) (by simp at hk; omega)
    refine ⟨h', ?_, ?_, ?_, by rw [i4, a4], ?_, i6⟩
    · have e2 : h1.t.gl (endLoc .root (fs0 ++ step2 f)) = h1.t.ch f.n f.d := by rw [s4, ← List.append_assoc, endLoc_snoc, s5, gd]; rfl
      rw [(rep_frame r).1, a1, ← e2, i1]
    · rw [List.flatMap_cons, ← List.append_assoc]; exact i2
    · rw [List.flatMap_cons, ← List.append_assoc]; exact i3
    · rw [List.flatMap_cons, ← List.append_assoc]; exact i5

/-- The assignments of `detach_node`. -/
theorem detach_run {h : MH} {P R : Loc} {a rn : Nat} {rd : Bool} {t' : TH} (lvP : LV h.t P) (lvR : LV h.t R) (gP : h.t.gl P = a) (gR : h.t.gl R = rn)
    (va : h.t.valid a) (vr : h.t.valid rn) (hd : h.t.dr rn = some rd) (hch : (h.t.sl P rn).ch rn (!rd) = h.t.ch rn (!rd))
    (vx : h.t.ch rn (!rd) ≠ 0 → h.t.valid (h.t.ch rn (!rd)))
    (run : h.t.detachNode P R = .ok t') (vc : ∀ d, t'.ch rn d ≠ 0 → h.t.valid (t'.ch rn d)) :
    h.detachNode P R = .ok ⟨t', MH.updIf (MH.updIf (upd (MH.updIf h.par (h.t.ch rn (!rd)) (h.par rn)) rn
      (MH.updIf h.par (h.t.ch rn (!rd)) (h.par rn) a)) (t'.ch rn false) rn) (t'.ch rn true) rn⟩ := by
  obtain ⟨x, hx⟩ : ∃ x, h.t.ch rn (!rd) = x := ⟨_, rfl⟩
  rw [hx] at hch vx ⊢
  let h1 : TH := h.t.sl P rn
  let h2 : TH := h1.sl R x
  let h3 : TH := h2.sc rn false (h2.ch a false)
  let h4 : TH := h3.sc rn true (h3.ch a true)
  have hl1 : h1.lim = h.t.lim := sl_lim _ _ _
  have hl2 : h2.lim = h.t.lim := by show (h1.sl R x).lim = _; rw [sl_lim]; exact hl1
  have v1 : ∀ {m}, h.t.valid m → h1.valid m := fun hv => by simp only [TH.valid, hl1]; exact hv
  have v2 : ∀ {m}, h.t.valid m → h2.valid m := fun hv => by simp only [TH.valid, hl2]; exact hv
  have v3 : ∀ {m}, h.t.valid m → h3.valid m := fun hv => v2 hv
  have v4 : ∀ {m}, h.t.valid m → h4.valid m := fun hv => v2 hv
  have hg2 : h2.gl R = x := gl_sl _ _ _
  have htn : t' = h4.sw rn (h4.wt a) := by
    unfold TH.detachNode at run
    rw [getL_ok lvP, gP, getL_ok lvR, gR] at run
    simp only [bind, Except.bind] at run
    rw [setL_ok lvP] at run
    simp only [TH.dirIx, TH.dir] at run
    rw [if_pos (show (h.t.sl P rn).valid rn from v1 vr), sl_dr, hd] at run
    simp only [bind, Except.bind, TH.child] at run
    rw [if_pos (show (h.t.sl P rn).valid rn from v1 vr), hch] at run
    simp only at run
    rw [setL_ok (h := h.t.sl P rn) (lv_congr hl1 lvR)] at run
    simp only at run
    rw [if_pos (show h2.valid a from v2 va)] at run
    simp only [TH.setChild] at run
    rw [if_pos (show h2.valid rn from v2 vr)] at run
    simp only at run
    rw [if_pos (show h3.valid a from v3 va)] at run
    simp only at run
    rw [if_pos (show h3.valid rn from v3 vr)] at run
    simp only [TH.weight, TH.setWeight] at run
    rw [if_pos (show h4.valid a from v4 va)] at run
    simp only at run
    rw [if_pos (show h4.valid rn from v4 vr)] at run
    injection run with run
    exact run.symm
  have hc : ∀ d, t'.ch rn d = h4.ch rn d := fun d => by rw [htn]; rfl
  rw [hc, hc]
  have vc' : ∀ d, h4.ch rn d ≠ 0 → h4.valid (h4.ch rn d) := fun d h0 => v4 (by have := vc d; rw [hc] at this; exact this h0)
  unfold MH.detachNode
  rw [getL_ok lvP, gP, getL_ok lvR, gR]
  simp only [bind, Except.bind]
  rw [MH.setL_ok lvP]
  simp only [TH.dirIx, TH.dir]
  rw [if_pos (show (h.t.sl P rn).valid rn from v1 vr), sl_dr, hd]
  simp only [bind, Except.bind]
  rw [MH.childOk (show (h.t.sl P rn).valid rn from v1 vr), hch]
  simp only
  rw [MH.setL_ok (h := ⟨h.t.sl P rn, h.par⟩) (lv_congr hl1 lvR)]
  simp only
  rw [getL_ok (h := h2) (lv_congr hl2 lvR), hg2]
  simp only
  by_cases h0 : x ≠ 0
  · rw [if_pos h0, MH.parent_ok (h := ⟨(h.t.sl P rn).sl R x, h.par⟩) (v2 vr)]
    simp only
    rw [MH.setParent_ok (h := ⟨(h.t.sl P rn).sl R x, h.par⟩) (v2 (vx h0))]
    simp only
    rw [show MH.updIf h.par x (h.par rn) = upd h.par x (h.par rn) from if_pos h0]
    generalize upd h.par x (h.par rn) = par1
    rw [MH.parent_ok (h := ⟨h2, par1⟩) (v2 va)]
    simp only
    rw [MH.setParent_ok (h := ⟨h2, par1⟩) (v2 vr)]
    simp only
    generalize upd par1 rn (par1 a) = par2
    rw [MH.childOk (show h2.valid a from v2 va)]
    simp only
    rw [MH.setChild_ok (h := ⟨h2, par2⟩) (v2 vr)]
    simp only
    rw [MH.childOk (show h3.valid a from v3 va)]
    simp only
    rw [MH.setChild_ok (h := ⟨h3, par2⟩) (v3 vr)]
    simp only
    rw [MH.childOk (show h4.valid rn from v4 vr)]
    simp only
    rw [MH.setParentIf_ok (h := ⟨h4, par2⟩) (vc' false)]
    simp only
    rw [MH.childOk (show h4.valid rn from v4 vr)]
    simp only
    rw [MH.setParentIf_ok (h := ⟨h4, _⟩) (vc' true)]
    simp only [TH.weight]
    rw [if_pos (show h4.valid a from v4 va)]
    simp only
    rw [MH.setWeight_ok (h := ⟨h4, _⟩) (v4 vr), htn]
  · rw [if_neg h0]
    simp only
    rw [show MH.updIf h.par x (h.par rn) = h.par from if_neg h0]
    generalize h.par = par1
    rw [MH.parent_ok (h := ⟨h2, par1⟩) (v2 va)]
    simp only
    rw [MH.setParent_ok (h := ⟨h2, par1⟩) (v2 vr)]
    simp only
    generalize upd par1 rn (par1 a) = par2
    rw [MH.childOk (show h2.valid a from v2 va)]
    simp only
    rw [MH.setChild_ok (h := ⟨h2, par2⟩) (v2 vr)]
    simp only
    rw [MH.childOk (show h3.valid a from v3 va)]
    simp only
    rw [MH.setChild_ok (h := ⟨h3, par2⟩) (v3 vr)]
    simp only
    rw [MH.childOk (show h4.valid rn from v4 vr)]
    simp only
    rw [MH.setParentIf_ok (h := ⟨h4, par2⟩) (vc' false)]
    simp only
    rw [MH.childOk (show h4.valid rn from v4 vr)]
    simp only
    rw [MH.setParentIf_ok (h := ⟨h4, _⟩) (vc' true)]
    simp only [TH.weight]
    rw [if_pos (show h4.valid a from v4 va)]
    simp only
    rw [MH.setWeight_ok (h := ⟨h4, _⟩) (v4 vr), htn]

end Etl.MTree
