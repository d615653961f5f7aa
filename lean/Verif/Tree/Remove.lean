import Verif.Tree.RemLoop

/-! # `remove_node` -/
namespace Etl.Tree
open T

variable {α K : Type} (key : α → K) (lt : K → K → Bool)

theorem erase_mid {X Y : List Nat} {n : Nat} (h : (X ++ n :: Y).Nodup) : (X ++ n :: Y).erase n = X ++ Y := by
  have hx : n ∉ X := fun hc => (List.nodup_append.1 h).2.2 n hc n (by simp) rfl
  rw [List.erase_append_right _ hx, List.erase_cons_head]

/-- The nodes beside a search path. -/
theorem goes_split {ev : Nat → α} {k : K} (hlt : StrictWeak lt) {u : T} (fs : List Frame) (hg : ∀ f ∈ fs, Goes key lt ev k f)
    (hs : (plug fs u).ids.Pairwise (fun a b => lt (key (ev a)) (key (ev b)))) :
    (∀ m ∈ bef fs, lt (key (ev m)) k) ∧ (∀ m ∈ aft fs, lt k (key (ev m))) := by
  induction fs with
  | nil => simp [bef, aft]
  | cons f fs ih =>
    rw [plug, ids_fplug] at hs
    have hs2 := hs
    rw [List.pairwise_append, List.pairwise_append] at hs
    obtain ⟨⟨h1, h2, h3⟩, h4, h5⟩ := hs
    obtain ⟨i1, i2⟩ := ih (fun g hg' => hg g (List.mem_cons_of_mem _ hg')) h2
    obtain ⟨g1, g2⟩ := hg f (List.mem_cons_self ..)
    simp only [bef, aft, List.mem_append]
    cases hd : f.d
    · have hk : lt k (key (ev f.n)) = true := by rw [hd] at g1; simpa using g1
      refine ⟨fun m hm => ?_, fun m hm => ?_⟩
      · rcases hm with hm | hm
        · simp [Frame.bef, hd] at hm
        · exact i1 m hm
      · rcases hm with hm | hm
        · exact i2 m hm
        · simp only [Frame.aft, hd, Bool.false_eq_true, if_false, List.mem_cons] at hm h4
          rcases hm with rfl | hm
          · exact hk
          · exact hlt.trans _ _ _ hk ((List.pairwise_cons.1 h4).1 m hm)
    · have hk0 : lt k (key (ev f.n)) = false := by rw [hd] at g1; simpa using g1
      have hk : lt (key (ev f.n)) k = true := by rw [hk0] at g2; simpa using g2
      refine ⟨fun m hm => ?_, fun m hm => ?_⟩
      · rcases hm with hm | hm
        · simp only [Frame.bef, hd, if_true, List.mem_append, List.mem_singleton] at hm h1
          rcases hm with hm | rfl
          · exact hlt.trans _ _ _ ((List.pairwise_append.1 h1).2.2 m hm f.n (by simp)) hk
          · exact hk
        · exact i1 m hm
      · rcases hm with hm | hm
        · exact i2 m hm
        · simp [Frame.aft, hd] at hm

theorem ids_self {d : Bool} {n : Nat} {w : Option Bool} {y : T} {fs : List Frame} :
    ∃ X Y, (plug fs (mk d n w .nil y)).ids = X ++ n :: Y ∧ (plug fs y).ids = X ++ Y := by
  rw [ids_plug, ids_plug]
  cases d
  · refine ⟨bef fs, y.ids ++ aft fs, ?_, ?_⟩
    · rw [ids_mk_f]; simp [T.ids, T.ino]
    · simp
  · refine ⟨bef fs ++ y.ids, aft fs, ?_, ?_⟩
    · rw [ids_mk_t]; simp [T.ids, T.ino]
    · simp

theorem bef_one {e : Bool} {B : List Frame} (h : ∀ f ∈ B, f.d = e) : if e then aft B = [] else bef B = [] := by
  induction B with
  | nil => cases e <;> rfl
  | cons f B ih =>
    have i := ih (fun g hg => h g (List.mem_cons_of_mem _ hg))
    have hf := h f (List.mem_cons_self ..)
    cases e
    · simp only [Bool.false_eq_true, if_false, bef, Frame.bef, hf] at i ⊢; simp [i]
    · simp only [if_true, aft, Frame.aft, hf] at i ⊢; simp [i]

theorem ids_other {A B : List Frame} {a : Frame} {rn : Nat} {wr : Option Bool} {y : T} (hB : ∀ f ∈ B, f.d = !a.d) :
    ∃ X Y, (plug (A ++ a :: B) (mk (!a.d) rn wr .nil y)).ids = X ++ a.n :: Y ∧ (plug (A ++ { a with n := rn } :: B) y).ids = X ++ Y := by
  have hb := bef_one hB
  simp only [ids_plug, bef_append, aft_append, bef, aft]
  cases hd : a.d
  · rw [hd] at hb
    simp only [Bool.not_false, if_true] at hb
    simp only [hb, Frame.bef, Frame.aft, hd, Bool.not_false, ids_mk_t, Bool.false_eq_true, if_false]
    refine ⟨bef A ++ (bef B ++ (y.ids ++ [rn])), a.sib.ids ++ aft A, ?_, ?_⟩ <;> simp [T.ids, T.ino]
  · rw [hd] at hb
    simp only [Bool.not_true, Bool.false_eq_true, if_false] at hb
    simp only [hb, Frame.bef, Frame.aft, hd, Bool.not_true, ids_mk_f, if_true]
    refine ⟨bef A ++ a.sib.ids, rn :: (y.ids ++ (aft B ++ aft A)), ?_, ?_⟩ <;> simp [T.ids, T.ino]

theorem bal_ren {A B : List Frame} {a : Frame} {rn : Nat} {t : T} (h : (plug (A ++ a :: B) t).Bal) : (plug (A ++ { a with n := rn } :: B) t).Bal := by
  rw [plug_append] at h ⊢
  have h1 : (a.plug (plug B t)).Bal := bal_plug_sub h
  refine (plug_swap h (t' := plug ({ a with n := rn } :: B) t) ?_ ?_).1
  · exact bal_mk.2 (bal_mk.1 h1)
  · show (mk _ _ _ _ _).height = (mk _ _ _ _ _).height
    rw [height_mk, height_mk]

theorem removeNode_ok {ev : Nat → α} {s : St α} {t : T} {k : K} (hlt : StrictWeak lt) (r : Rep s.h s.h.root t) (hb : t.Bal)
    (hv : ∀ m ∈ t.ids, s.val m = some (ev m)) (hp : Pool s t) (hs : t.ids.Pairwise (fun a b => lt (key (ev a)) (key (ev b)))) :
    (∃ h', removeNode key lt s k = .ok ({ s with h := h' }, 0) ∧ Rep h' h'.root t ∧ h'.lim = s.h.lim ∧
      ∀ m ∈ t.ids, lt (key (ev m)) k ∨ lt k (key (ev m))) ∨
    (∃ n h' t', n ∈ t.ids ∧ lt k (key (ev n)) = false ∧ lt (key (ev n)) k = false ∧
      removeNode key lt s k = .ok ({ s with h := h', val := upd s.val n none, free := n :: s.free, size := s.size - 1 }, n) ∧
      Rep h' h'.root t' ∧ t'.Bal ∧ t'.ids = t.ids.erase n ∧ h'.lim = s.h.lim) := by
  have hnd : t.ids.Nodup := (List.nodup_append.1 hp.nodup).1
  have hlen : t.ids.length ≤ s.cap := by have := hp.len; omega
  by_cases ht : t = .nil
  · subst ht
    have hr0 : s.h.root = 0 := r
    refine .inl ⟨s.h, ?_, r, rfl, by simp [T.ids, T.ino]⟩
    unfold removeNode
    rw [remLoop, if_neg (by simp [hr0])]
    simp only [bind, Except.bind, ne_eq, not_true_eq_false, if_false]
  · obtain ⟨dr', rm, i1, i2⟩ := remLoop_ok key lt (ev := ev) (k := k) hlt t s [] ⟨0, 0, 0, s.h.root, 0, s.h.root⟩ (s.cap + 1)
      r hnd ht hb (by intro f hf; cases hf) hv r.root_eq rfl ⟨[], [], rfl, by simp, .inl rfl, rfl, rfl⟩
      (by have := height_le_len t; omega) hs
    simp only [List.nil_append] at i2
    unfold removeNode
    rw [i1]
    simp only [bind, Except.bind]
    let h1 : TH := { s.h with dr := dr' }
    have r1 : Rep h1 h1.root t := r.to _ rfl fun _ _ => ⟨fun _ => rfl, rfl⟩
    have hlenfs : ∀ fs u, t = plug fs u → fs.length ≤ s.cap := by
      intro fs u hu
      have a1 := len_le_height fs u
      rw [← hu] at a1
      have a2 := height_le_len t
      omega
    -- the end: the node found is destroyed
    have fin : ∀ (n : Nat) (h2 : TH) (t' : T), n ∈ t.ids → h2.lim = s.h.lim → Rep h2 h2.root t' → t'.ids = t.ids.erase n →
        ∃ h', destroyNode { s with h := h2, size := s.size - 1 } n = .ok { s with h := h', val := upd s.val n none, free := n :: s.free, size := s.size - 1 } ∧
          Rep h' h'.root t' ∧ h'.lim = s.h.lim := by
      intro n h2 t' hn hl2 r2 hid
      have vn : h2.valid n := by have := r.valid_of_mem hn; simp only [TH.valid, hl2] at *; exact this
      have hnf : n ∉ s.free := fun hc => (List.nodup_append.1 hp.nodup).2.2 n hn n hc rfl
      refine ⟨_, destroy_ok (s := { s with h := h2, size := s.size - 1 }) vn hnf (hv n hn), ?_, hl2⟩
      refine r2.to (h2.sc n false _) rfl fun m hm => ⟨fun d => sc_ne _ _ _ _ ?_, rfl⟩
      rw [hid] at hm
      exact (hnd.mem_erase_iff.1 hm).1
    rcases i2 with ⟨F, j1, j2, j3⟩ | ⟨F, n, d, w, y, j1, j2, j3, j4, j5, j6, j7, j8, j9, j10⟩ |
      ⟨F, a, B, rn, wr, y, j1, j2, j3, j4, j5, j6, j7, j8, j9, j10, j11⟩
    · refine .inl ⟨h1, ?_, r1, rfl, ?_⟩
      · rw [j3, if_neg (by simp)]
      · intro m hm
        have := goes_split key lt hlt (u := .nil) F j1 (by rw [← j2]; exact hs)
        rw [j2, mem_plug] at hm
        rcases hm with hm | hm
        · rcases List.mem_append.1 hm with hm | hm
          · exact .inl (this.1 m hm)
          · exact .inr (this.2 m hm)
        · simp [T.ids, T.ino] at hm
    · right
      have vn : h1.valid n := r1.valid_of_mem (by rw [j4, mem_plug]; exact .inr (mem_mk.2 (.inl rfl)))
      obtain ⟨pre, post, b1, b2, b3, b4, b5⟩ := j10
      rw [b1] at j4 j6 j7 j8
      rw [j4] at r1 hnd hb hs
      have hfo : ∀ f ∈ post, f.n ≠ rm.found := by
        intro f hf hc
        rw [j5] at hc
        refine nodup_plug_disj hnd (m := f.n) ?_ (hc ▸ mem_mk.2 (.inl rfl))
        obtain ⟨u, v, rfl⟩ := List.append_of_mem hf
        simp only [mem_pids_append, mem_pids_cons]; tauto
      obtain ⟨h2, c1, c2, c3, c4, c5⟩ := rebal_out (found := rm.found) (fp := rm.foundParent) (k := s.cap + 1) r1 hnd hb j8 j9 hfo
        (by have := hlenfs _ _ j4; simp at this; omega)
      have hX : (mk d n w .nil y).height ≠ 0 := by rw [height_mk]; omega
      have hbp : (plug post (mk d n w .nil y)).Bal := by rw [plug_append] at hb; exact bal_plug_sub hb
      have hbn : n ≠ 0 := by have := vn.1; omega
      have hlast := lastn_flat hX pre post hbp
      have hsh := shape_all hX post hbp
      have hid : (plug (pre ++ post.flatMap step2) (mk d n w .nil y)).ids = (plug (pre ++ post) (mk d n w .nil y)).ids := by
        rw [ids_plug, ids_plug]; simp only [bef_append, aft_append, hsh]
      obtain ⟨h3, d1, d2, d3, _⟩ := detach_self c2 (by rw [hid]; exact hnd) (by rw [c4]; exact j9)
      have hrefs : refOf h2 (lastn (pre ++ post)) = .ok (endLoc .root (pre ++ post.flatMap step2)) := by rw [← hlast]; exact c5
      obtain ⟨X, Y, x1, x2⟩ := ids_self (d := d) (n := n) (w := w) (y := y) (fs := pre ++ post.flatMap step2)
      have hby : y.Bal := (bal_mk.1 (bal_plug_sub hb)).2.1
      have hidy : (plug (pre ++ post.flatMap step2) y).ids = t.ids.erase n := by
        rw [x2, j4, ← hid, x1, erase_mid]; rw [← x1, hid]; exact hnd
      have hmn : n ∈ t.ids := by rw [j4, mem_plug]; exact .inr (mem_mk.2 (.inl rfl))
      obtain ⟨h4, e1, e2, e3⟩ := fin n h3 _ hmn (by rw [d3, c3]) d2 hidy
      refine ⟨n, h4, _, hmn, j2, j3, ?_, e2, ?_, hidy, e3⟩
      · rw [if_pos (by rw [j5]; exact hbn)]
        rw [b4, b5, show rebalLoop { s.h with dr := dr' } rm.found rm.foundParent (lastn pre) (TH.gl { s.h with dr := dr' } (endLoc .root pre)) (s.cap + 1) =
          .ok (h2, rm.foundParent) from c1]
        simp only
        have hR : (if rm.foundParent ≠ 0 then h2.locDir rm.replaceParent else refOf h2 rm.replaceParent) =
            .ok (endLoc .root (pre ++ post.flatMap step2)) := by
          rw [j6, j7]
          split
          · rename_i h0
            rw [← hrefs]; unfold refOf; rw [if_neg h0]
          · exact hrefs
        rw [hR, j6, hrefs]
        simp only [d1, j5, e1]
      · refine pre_post_bal hby ?_ hb b2 b3
        rw [height_mk]; simp
    · right
      have hmn : a.n ∈ t.ids := by rw [j4, mem_plug]; exact .inl (mem_pids_append.2 (.inr (mem_pids_cons.2 (.inl rfl))))
      have vn : h1.valid a.n := r1.valid_of_mem hmn
      have hbn : a.n ≠ 0 := by have := vn.1; omega
      have hX : (mk (!a.d) rn wr .nil y).height ≠ 0 := by rw [height_mk]; omega
      have hbt := hb
      have hndt := hnd
      rw [j4] at r1 hb hs hnd
      have hby : y.Bal := (bal_mk.1 (bal_plug_sub hb)).2.1
      have hhy : (mk (!a.d) rn wr .nil y).height = y.height + 1 := by rw [height_mk]; simp
      -- what step 2 gives, in both cases
      have key1 : ∃ h2 fp' A' a' B', rebalLoop h1 a.n (lastn F) rm.balanceParent rm.balance (s.cap + 1) = .ok (h2, fp') ∧
          a'.n = a.n ∧ a'.d = a.d ∧ (∀ f ∈ B', f.d = !a.d) ∧
          Rep h2 h2.root (plug (A' ++ a' :: B') (mk (!a.d) rn wr .nil y)) ∧ h2.lim = s.h.lim ∧ h2.dr rn = some (!a.d) ∧
          refOf h2 fp' = .ok (endLoc .root A') ∧ refOf h2 (lastn (F ++ a :: B)) = .ok (endLoc .root (A' ++ a' :: B')) ∧
          (plug (A' ++ a' :: B') (mk (!a.d) rn wr .nil y)).ids = t.ids ∧ (plug (A' ++ a' :: B') y).Bal := by
        obtain ⟨pre, post, b1, b2, b3, b4, b5⟩ := j11
        have hpb : (plug (pre ++ post.flatMap step2) y).Bal := by
          rw [b1] at hb; exact pre_post_bal hby hhy hb b2 b3
        have hbp : (plug post (mk (!a.d) rn wr .nil y)).Bal := by rw [b1, plug_append] at hb; exact bal_plug_sub hb
        have hlast := lastn_flat hX pre post hbp
        have hsh := shape_all hX post hbp
        have hid : (plug (pre ++ post.flatMap step2) (mk (!a.d) rn wr .nil y)).ids = t.ids := by
          rw [j4, b1, ids_plug, ids_plug]; simp only [bef_append, aft_append, hsh]
        have inP : ∀ P1, F = pre ++ P1 → post = P1 ++ a :: B → ∃ h2 fp' A' a' B', rebalLoop h1 a.n (lastn F) rm.balanceParent rm.balance (s.cap + 1) = .ok (h2, fp') ∧
            a'.n = a.n ∧ a'.d = a.d ∧ (∀ f ∈ B', f.d = !a.d) ∧
            Rep h2 h2.root (plug (A' ++ a' :: B') (mk (!a.d) rn wr .nil y)) ∧ h2.lim = s.h.lim ∧ h2.dr rn = some (!a.d) ∧
            refOf h2 fp' = .ok (endLoc .root A') ∧ refOf h2 (lastn (F ++ a :: B)) = .ok (endLoc .root (A' ++ a' :: B')) ∧
            (plug (A' ++ a' :: B') (mk (!a.d) rn wr .nil y)).ids = t.ids ∧ (plug (A' ++ a' :: B') y).Bal := by
          intro P1 q1 q2
          have hlen2 : post.length < s.cap + 1 := by
            have := hlenfs _ _ j4; rw [b1] at this; simp at this; omega
          rw [b1] at r1 hnd hb j9
          rw [q2] at hid hpb r1 hnd hb j9 hlen2 hlast
          obtain ⟨h2, fp', A', a', c1, c2, c3, c4, c5, c6, c7, c8, c9⟩ := rebal_in (k := s.cap + 1) r1 hnd hb j9 j10 hlen2
          refine ⟨h2, fp', A', a', B.flatMap step2, ?_, c3, c4, ?_, by rw [← c2]; exact c5, c6, c7, c8, ?_, by rw [← c2]; exact hid, by rw [← c2]; exact hpb⟩
          · rw [q1, b4, b5]; exact c1
          · refine dirs_flat hX B ?_ j5
            rw [q2, plug_append] at hbp
            exact (bal_mk.1 (bal_plug_sub hbp)).1
          · rw [← c2, show F ++ a :: B = pre ++ (P1 ++ a :: B) by rw [q1]; simp, ← hlast]; exact c9
        rcases List.append_eq_append_iff.1 b1 with ⟨P1, q1, q2⟩ | ⟨P1, q1, q2⟩
        · cases P1 with
          | nil => exact inP [] (by simpa using q1.symm) (by simpa using q2.symm)
          | cons a1 P1 =>
            -- the node found is above the rebalanced part
            obtain ⟨rfl, rfl⟩ : a = a1 ∧ B = P1 ++ post := by simpa using q2
            have hfo : ∀ f ∈ post, f.n ≠ a.n := by
              intro f hf hc
              rw [plug_append] at hnd
              have h3 := (nodup_fplug.1 (nodup_plug_sub hnd)).1
              refine h3 (mem_plug.2 (.inl ?_))
              rw [← hc]
              obtain ⟨u, v, rfl⟩ := List.append_of_mem hf
              simp only [mem_pids_append, mem_pids_cons]; tauto
            have hlen2 : post.length < s.cap + 1 := by
              have := hlenfs _ _ j4; simp at this; omega
            have hFD : DRep h1 F := j9.mono fun x hx => List.mem_append_left _ hx
            have hFL : LastD h1 F := lastD_path (t := plug (a :: (P1 ++ post)) (mk (!a.d) rn wr .nil y)) (by rw [← plug_append]; exact r1) hFD
            rw [b1] at r1 hnd hb j9
            obtain ⟨h2, c1, c2, c3, c4, c5⟩ := rebal_out (found := a.n) (fp := lastn F) (k := s.cap + 1) r1 hnd hb j9 j10 hfo hlen2
            have hsp : pre ++ post.flatMap step2 = F ++ a :: (P1 ++ post.flatMap step2) := by rw [q1]; simp
            refine ⟨h2, lastn F, F, a, P1 ++ post.flatMap step2, by rw [b4, b5]; exact c1, rfl, rfl, ?_, by rw [← hsp]; exact c2, c3, by rw [c4]; exact j10, ?_, ?_,
              by rw [← hsp]; exact hid, by rw [← hsp]; exact hpb⟩
            · intro f hf
              rcases List.mem_append.1 hf with hf | hf
              · exact j5 f (List.mem_append_left _ hf)
              · exact dirs_flat hX post hbp (fun g hg => j5 g (List.mem_append_right _ hg)) f hf
            · rw [refOf_congr c4 c3]; exact hFL
            · rw [← hsp, b1, ← hlast]; exact c5
        · exact inP P1 q1 q2
      obtain ⟨h2, fp', A', a', B', c1, c2, c3, c4, c5, c6, c7, c8, c9, c10, c11⟩ := key1
      rw [← c3] at c4 c5 c7 c10
      obtain ⟨h3, d1, d2, d3⟩ := detach_ok c5 (by rw [c10]; exact hndt) c7
      obtain ⟨X, Y, x1, x2⟩ := ids_other (A := A') (B := B') (a := a') (rn := rn) (wr := wr) (y := y) c4
      have hidy : (plug (A' ++ { a' with n := rn } :: B') y).ids = t.ids.erase a.n := by
        rw [x2, ← c10, x1, ← c2, erase_mid]; rw [← x1, c10]; exact hndt
      obtain ⟨h4, e1, e2, e3⟩ := fin a.n h3 _ hmn (by rw [d3, c6]) d2 hidy
      refine ⟨a.n, h4, _, hmn, j2, j3, ?_, e2, bal_ren c11, hidy, e3⟩
      rw [if_pos (by rw [j6]; exact hbn), j6, j7]
      simp only [show rebalLoop { s.h with dr := dr' } _ _ _ _ _ = _ from c1]
      have hne : lastn (F ++ a :: B) ≠ 0 := by
        intro hc
        unfold refOf at c9
        rw [if_pos hc] at c9
        rcases List.eq_nil_or_concat B' with rfl | ⟨u, v, rfl⟩
        · rw [endLoc_snoc] at c9; cases c9
        · rw [List.concat_eq_append, show A' ++ a' :: (u ++ [v]) = (A' ++ a' :: u) ++ [v] by simp, endLoc_snoc] at c9; cases c9
      have hR : (if fp' ≠ 0 then h2.locDir rm.replaceParent else refOf h2 rm.replaceParent) = .ok (endLoc .root (A' ++ a' :: B')) := by
        rw [j8]
        split
        · rw [← c9]; unfold refOf; rw [if_neg hne]
        · exact c9
      rw [hR, c8]
      simp only [d1, e1]

end Etl.Tree
