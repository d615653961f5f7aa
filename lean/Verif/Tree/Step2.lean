import Verif.Tree.Rebal

/-! # Step 2 of `remove_node`: the loop -/
namespace Etl.Tree
open T

/-- The reference at the end of the path is reached through `dir` of the last node. -/
def LastD (h : TH) (fs : List Frame) : Prop := refOf h (lastn fs) = .ok (endLoc .root fs)

theorem lastD_nil (h : TH) : LastD h [] := rfl

theorem lastD_snoc {h : TH} {fs : List Frame} {g : Frame} (v : h.valid g.n) (hd : h.dr g.n = some g.d) : LastD h (fs ++ [g]) := by
  unfold LastD refOf
  rw [lastn_snoc, if_neg (by have := v.1; omega), endLoc_snoc]
  simp only [TH.locDir, TH.dirIx, TH.dir, if_pos v, hd, bind, Except.bind]

theorem rep_frame {h : TH} {A B : List Frame} {a : Frame} {t : T} (r : Rep h h.root (plug (A ++ a :: B) t)) :
    h.gl (endLoc .root A) = a.n ∧ h.valid a.n ∧ h.wt a.n = a.w ∧ Rep h (h.ch a.n a.d) (plug B t) ∧ Rep h (h.ch a.n (!a.d)) a.sib := by
  rw [plug_append] at r
  obtain ⟨_, rt⟩ := (rep_plug (L := .root)).1 r
  exact rep_mk.1 rt

/-- One iteration. -/
theorem step_ok {h : TH} {fs0 rest : List Frame} {f : Frame} {t : T} (r : Rep h h.root (plug (fs0 ++ f :: rest) t))
    (nd : (plug (fs0 ++ f :: rest) t).ids.Nodup) (hb : (f.plug (plug rest t)).Bal) (ht : t ≠ .nil) (hl : LastD h fs0)
    (hd : h.dr f.n = some f.d) (found fp k : Nat) : ∃ h' fp', rebalLoop h found fp (lastn fs0) f.n (k + 1) =
        rebalLoop h' found fp' f.n (h'.ch f.n f.d) k ∧ Rep h' h'.root (plug (fs0 ++ (step2 f ++ rest)) t) ∧ h'.lim = h.lim ∧
      ((f.n ≠ found ∨ (∃ g, step2 f = [g])) → fp' = fp ∧ h'.dr = h.dr) ∧
      (f.n = found → ∀ g a, step2 f = [g, a] → fp' = g.n ∧ h'.dr = upd h.dr g.n (some g.d)) := by
  obtain ⟨g1, v, g3, g4, g5⟩ := rep_frame r
  have hf0 : f.n ≠ 0 := by have := v.1; omega
  have hne : plug rest t ≠ .nil := by
    cases rest with
    | nil => exact ht
    | cons a b => simp [plug, Frame.plug, mk]
  have hc0 : h.ch f.n f.d ≠ 0 := g4.ne_zero.2 hne
  have hX : (plug rest t).height ≠ 0 := by
    cases hp : plug rest t with
    | nil => exact absurd hp hne
    | node a b c => simp [height]
  have hsp : plug (fs0 ++ f :: rest) t = plug fs0 (mk f.d f.n f.w (plug rest t) f.sib) := by rw [plug_append]; rfl
  rw [hsp] at r nd
  have hnn := some_not_ne f.d
  have go : ∀ X : Res (TH × Nat), (if h.wt f.n = none then do
          let h ← h.setWeight f.n (some !f.d)
          rebalLoop h found fp f.n (← h.child f.n f.d) k
        else if h.wt f.n = some f.d then do
          let h ← h.setWeight f.n none
          rebalLoop h found fp f.n (← h.child f.n f.d) k
        else do
          let L ← refOf h (lastn fs0)
          let sib ← h.child f.n (!f.d)
          let ws ← h.weight sib
          let h ← (if ws = some f.d then do
              h.rotate3 L (!f.d) (← h.weight (← h.child sib f.d))
            else if ws = none then do
              let h ← h.rotate2 L (!f.d)
              let h ← h.setWeight (← h.getL L) (some f.d)
              h.setWeight f.n (some !f.d)
            else h.rotate2 L (!f.d) : Res TH)
          if f.n = found then do
            let fp ← h.getL L
            let h ← h.setDir fp (some (decide ((← h.child fp false) ≠ found)))
            rebalLoop h found fp f.n (← h.child f.n f.d) k
          else rebalLoop h found fp f.n (← h.child f.n f.d) k) = X →
        rebalLoop h found fp (lastn fs0) f.n (k + 1) = X := by
    intro X hX
    rw [← hX, rebalLoop, if_pos hf0]
    simp only [TH.dirIx, TH.dir, if_pos v, hd, bind, Except.bind, TH.child, TH.weight]
    rw [if_neg hc0]
  -- the end of the iteration after a rotation
  have fin : ∀ (h2 : TH) (g a : Frame), step2 f = [g, a] → g.d = f.d → a.n = f.n → a.d = f.d →
      Rep h2 h2.root (plug (fs0 ++ (step2 f ++ rest)) t) → h2.dr = h.dr → h2.lim = h.lim →
      (plug (fs0 ++ (step2 f ++ rest)) t).ids.Nodup →
      ∃ h' fp', ((if f.n = found then do
            let fp ← h2.getL (endLoc .root fs0)
            let h ← h2.setDir fp (some (decide ((← h2.child fp false) ≠ found)))
            rebalLoop h found fp f.n (← h.child f.n f.d) k
          else do rebalLoop h2 found fp f.n (← h2.child f.n f.d) k) : Res (TH × Nat)) = rebalLoop h' found fp' f.n (h'.ch f.n f.d) k ∧
        Rep h' h'.root (plug (fs0 ++ (step2 f ++ rest)) t) ∧ h'.lim = h.lim ∧
      ((f.n ≠ found ∨ (∃ g, step2 f = [g])) → fp' = fp ∧ h'.dr = h.dr) ∧
      (f.n = found → ∀ g a, step2 f = [g, a] → fp' = g.n ∧ h'.dr = upd h.dr g.n (some g.d)) := by
    intro h2 g a e1 e2 e3 e4 r2 e5 e6 n2
    have r2' := r2
    rw [e1] at r2' n2
    obtain ⟨k1, k2, k3, k4, k5⟩ := rep_frame (A := fs0) (a := g) (B := a :: rest) r2'
    have pr2 := (rep_plug (L := .root)).1 r2'
    have lv2 : LV h2 (endLoc .root fs0) := lv_end (prep_append.1 pr2.1).1
    have v2 : h2.valid f.n := by simp only [TH.valid, e6]; exact v
    by_cases hfn : f.n = found
    · rw [if_pos hfn]
      refine ⟨h2.sd g.n (some g.d), g.n, ?_, r2.sd _ _, e6, ?_, ?_⟩
      · have hch : h2.ch g.n g.d = f.n := by
          have := k4.root_eq
          rw [this]; exact e3
        have hchn : h2.ch g.n (!g.d) ≠ f.n := by
          intro hc
          have hz : h2.ch g.n (!g.d) ≠ 0 := by rw [hc]; exact hf0
          have hm := k5.mem_root hz
          rw [plug_append] at n2
          have := nodup_fplug.1 (nodup_plug_sub n2)
          refine this.2.2.2.2 f.n ?_ (hc ▸ hm)
          rw [← e3]; exact mem_plug.2 (.inl (mem_pids_cons.2 (.inl rfl)))
        have hdec : decide (h2.ch g.n false ≠ found) = g.d := by
          rw [← hfn]
          cases hgd : g.d
          · rw [hgd] at hch; simp [hch]
          · rw [hgd] at hchn; simpa using hchn
        rw [getL_ok lv2, k1]
        simp only [bind, Except.bind, TH.child, if_pos k2, hdec, TH.setDir]
        rw [if_pos (show (h2.sd g.n (some g.d)).valid f.n from v2)]
      · rintro (h | ⟨g', h⟩)
        · exact absurd hfn h
        · rw [e1] at h; simp at h
      · intro _ g' a' h
        rw [e1] at h; cases h
        exact ⟨rfl, by show upd h2.dr _ _ = _; rw [e5]⟩
    · rw [if_neg hfn]
      refine ⟨h2, fp, ?_, r2, e6, fun _ => ⟨rfl, e5⟩, fun h => absurd h hfn⟩
      simp only [TH.child, if_pos v2, bind, Except.bind]
  have hnd2 : (plug (fs0 ++ (step2 f ++ rest)) t).ids.Nodup := by
    obtain ⟨s1, s2, _⟩ := step2_shape hb hX
    have : (plug (fs0 ++ (step2 f ++ rest)) t).ids = (plug fs0 (mk f.d f.n f.w (plug rest t) f.sib)).ids := by
      rw [← hsp, ids_plug, ids_plug]
      simp only [bef_append, aft_append, s1, s2, bef, aft]
    rw [this]; exact nd
  rcases step2_cases hb hX with ⟨hw1, h1, e⟩ | ⟨hw1, h1, e⟩ | ⟨m, e', we, p, q, y, hw1, h1, hs, e⟩ | ⟨m, x, y, hw1, h1, hs, e⟩ |
    ⟨m, x, y, hw1, h1, hs, e⟩
  · obtain ⟨s1, s2⟩ := setWeight_ok (some (!f.d)) r nd
    refine ⟨h.sw f.n (some (!f.d)), fp, go _ ?_, ?_, rfl, fun _ => ⟨rfl, rfl⟩, ?_⟩
    · rw [if_pos (by rw [g3, hw1])]
      simp only [s1, bind, Except.bind, TH.child]
      rw [if_pos (show (h.sw f.n (some (!f.d))).valid f.n from v)]
    · rw [e, plug_append]; exact s2
    · intro _ g a h'; rw [e] at h'; simp at h'
  · obtain ⟨s1, s2⟩ := setWeight_ok none r nd
    refine ⟨h.sw f.n none, fp, go _ ?_, ?_, rfl, fun _ => ⟨rfl, rfl⟩, ?_⟩
    · rw [if_neg (by rw [g3, hw1]; simp), if_pos (by rw [g3, hw1])]
      simp only [s1, bind, Except.bind, TH.child]
      rw [if_pos (show (h.sw f.n none).valid f.n from v)]
    · rw [e, plug_append]; exact s2
    · intro _ g a h'; rw [e] at h'; simp at h'
  · have hch : ¬ h.wt f.n = none := by rw [g3, hw1]; simp
    have hch2 : ¬ h.wt f.n = some f.d := by rw [g3, hw1]; exact Ne.symm hnn
    rw [hs] at g5
    obtain ⟨q1, vm, q3, q4, q5⟩ := rep_mk.1 g5
    obtain ⟨q6, ve, q8, _, _⟩ := rep_mk.1 q4
    have hsh : plug fs0 (mk f.d f.n f.w (plug rest t) f.sib) =
        plug fs0 (mk (!f.d) f.n f.w (mk (!f.d) m (some f.d) y (mk (!f.d) e' we q p)) (plug rest t)) := by
      rw [mk_flip f.d f.n, mk_flip f.d m, mk_flip f.d e', hs]
    rw [hsh] at r nd
    obtain ⟨h2, x1, x2, x3, x4⟩ := rotate3_ok we r nd
    have hsh2 : plug fs0 (mk (!f.d) e' none (mk (!f.d) m (if we = some (!!f.d) then some (!f.d) else none) y q)
        (mk (!f.d) f.n (if we = some (!f.d) then some (!!f.d) else none) p (plug rest t))) = plug (fs0 ++ (step2 f ++ rest)) t := by
      rw [e]
      simp only [plug_append, plug, Frame.plug, Bool.not_not]
      rw [mk_flip f.d e', mk_flip f.d f.n]
    rw [hsh2] at x2
    obtain ⟨h', fp', z1, z2⟩ := fin h2 _ _ e rfl rfl rfl x2 x3 x4 hnd2
    refine ⟨h', fp', go _ ?_, z2⟩
    rw [if_neg hch, if_neg hch2, show refOf h (lastn fs0) = _ from hl]
    simp only [bind, Except.bind, TH.child, if_pos v, q1, TH.weight, if_pos vm, q3, if_true, q6, if_pos ve, q8, x1]
    exact z1
  · have hch : ¬ h.wt f.n = none := by rw [g3, hw1]; simp
    have hch2 : ¬ h.wt f.n = some f.d := by rw [g3, hw1]; exact Ne.symm hnn
    rw [hs] at g5
    obtain ⟨q1, vm, q3, q4, q5⟩ := rep_mk.1 g5
    have hsh : plug fs0 (mk f.d f.n f.w (plug rest t) f.sib) =
        plug fs0 (mk (!f.d) f.n f.w (mk (!f.d) m none y x) (plug rest t)) := by
      rw [mk_flip f.d f.n, mk_flip f.d m, hs]
    rw [hsh] at r nd
    obtain ⟨h2, x1, x2, x3, x4⟩ := rotate2_ok r nd
    have nd2 : (plug fs0 (mk (!f.d) m none y (mk (!f.d) f.n none x (plug rest t)))).ids.Nodup := by
      have : (plug fs0 (mk (!f.d) m none y (mk (!f.d) f.n none x (plug rest t)))).ids = (plug (fs0 ++ (step2 f ++ rest)) t).ids := by
        rw [e]
        simp only [plug_append, plug, Frame.plug]
        rw [mk_flip f.d m, mk_flip f.d f.n, ids_plug, ids_plug]
        congr 2
        rw [ids_w (w' := some f.d)]
        cases f.d
        · rw [ids_mk_f, ids_mk_f]; rfl
        · rw [ids_mk_t, ids_mk_t]; rfl
      rw [this]; exact hnd2
    obtain ⟨w1, w2⟩ := setWeight_ok (some f.d) x2 nd2
    have nd3 : (plug fs0 (mk (!f.d) m (some f.d) y (mk (!f.d) f.n none x (plug rest t)))).ids.Nodup := by
      rw [ids_plug, ids_w (w' := none), ← ids_plug]; exact nd2
    have hsh3 : plug fs0 (mk (!f.d) m (some f.d) y (mk (!f.d) f.n none x (plug rest t))) =
        plug (fs0 ++ [⟨m, f.d, some f.d, y⟩]) (mk (!f.d) f.n none x (plug rest t)) := by
      simp only [plug_append, plug, Frame.plug]
      rw [mk_flip f.d m]
    rw [hsh3] at w2 nd3
    obtain ⟨w3, w4⟩ := setWeight_ok (h := h2.sw m (some f.d)) (some (!f.d)) w2 nd3
    have hsh2 : plug (fs0 ++ [⟨m, f.d, some f.d, y⟩]) (mk (!f.d) f.n (some (!f.d)) x (plug rest t)) = plug (fs0 ++ (step2 f ++ rest)) t := by
      rw [e]
      simp only [plug_append, plug, Frame.plug]
      rw [mk_flip f.d f.n]
    rw [hsh2] at w4
    obtain ⟨h', fp', z1, z2⟩ := fin ((h2.sw m (some f.d)).sw f.n (some (!f.d))) _ _ e rfl rfl rfl w4 x3 x4 hnd2
    have lv2 : LV h2 (endLoc .root fs0) := lv_end ((rep_plug (L := .root)).1 x2).1
    have hgl : h2.gl (endLoc .root fs0) = m := ((rep_plug (L := .root)).1 x2).2.root_eq
    refine ⟨h', fp', go _ ?_, z2⟩
    rw [if_neg hch, if_neg hch2, show refOf h (lastn fs0) = _ from hl]
    simp only [bind, Except.bind, TH.child, if_pos v, q1, TH.weight, if_pos vm, q3, reduceCtorEq, if_false, if_true, x1, getL_ok lv2, hgl, w1, w3]
    exact z1
  · have hch : ¬ h.wt f.n = none := by rw [g3, hw1]; simp
    have hch2 : ¬ h.wt f.n = some f.d := by rw [g3, hw1]; exact Ne.symm hnn
    rw [hs] at g5
    obtain ⟨q1, vm, q3, q4, q5⟩ := rep_mk.1 g5
    have hsh : plug fs0 (mk f.d f.n f.w (plug rest t) f.sib) =
        plug fs0 (mk (!f.d) f.n f.w (mk (!f.d) m (some (!f.d)) y x) (plug rest t)) := by
      rw [mk_flip f.d f.n, mk_flip f.d m, hs]
    rw [hsh] at r nd
    obtain ⟨h2, x1, x2, x3, x4⟩ := rotate2_ok r nd
    have hsh2 : plug fs0 (mk (!f.d) m none y (mk (!f.d) f.n none x (plug rest t))) = plug (fs0 ++ (step2 f ++ rest)) t := by
      rw [e]
      simp only [plug_append, plug, Frame.plug]
      rw [mk_flip f.d f.n, mk_flip f.d m]
    rw [hsh2] at x2
    obtain ⟨h', fp', z1, z2⟩ := fin h2 _ _ e rfl rfl rfl x2 x3 x4 hnd2
    refine ⟨h', fp', go _ ?_, z2⟩
    rw [if_neg hch, if_neg hch2, show refOf h (lastn fs0) = _ from hl]
    have hq : ¬ (some (!f.d) = some f.d) := Ne.symm hnn
    simp only [bind, Except.bind, TH.child, if_pos v, q1, TH.weight, if_pos vm, q3, if_neg hq, reduceCtorEq, if_false, x1]
    exact z1

end Etl.Tree
