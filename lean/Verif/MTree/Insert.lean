import Verif.MTree.Par

/-! # `insert_node` -/
namespace Etl.MTree
open Etl.Tree T

theorem par_leaf {par : Nat → Nat} {q n : Nat} : Par par q (leaf n) ↔ par n = q := by
  unfold leaf; rw [par_mk]; exact ⟨fun h => h.1, fun h => ⟨h, trivial, trivial⟩⟩

theorem ppar_grow {par : Nat → Nat} {fs : List Frame} : ∀ {q : Nat}, PPar par q fs → PPar par q (fs.map grow) := by
  induction fs with
  | nil => intros; trivial
  | cons f fs ih => intro q ⟨h1, h2, h3⟩; exact ⟨h1, h2, ih h3⟩
theorem lastD_grow {fs : List Frame} : ∀ {q : Nat}, lastD q (fs.map grow) = lastD q fs := by
  induction fs with
  | nil => intros; rfl
  | cons f fs ih => intro q; exact ih

/-- `balance_node` restores the balance after a leaf was attached. -/
theorem balance_ok {h : MH} {pre post : List Frame} {c : Frame} {n k : Nat}
    (r : Rep h.t h.t.root (plug (pre ++ c :: post) (leaf n))) (nd : (plug (pre ++ c :: post) (leaf n)).ids.Nodup)
    (hp : Par h.par 0 (plug (pre ++ c :: post) (leaf n)))
    (hd : DRep h.t (c :: post)) (hn : h.t.dr n = none) (hw : ∀ f ∈ post, f.w = none) (hc : c.w ≠ none ∨ pre = [])
    (hb : (plug (pre ++ c :: post) .nil).Bal) (hk : post.length < k) :
    ∃ h' t', h.balanceNode (endLoc .root pre) k = .ok h' ∧ Rep h'.t h'.t.root t' ∧ Par h'.par 0 t' ∧
      t'.ids = (plug (pre ++ c :: post) (leaf n)).ids ∧ t'.Bal ∧ h'.t.lim = h.t.lim := by
  have hs1 : plug (pre ++ c :: post) (leaf n) = plug ((pre ++ [c]) ++ post) (leaf n) := by simp
  obtain ⟨pr, rt⟩ := (rep_plug (L := .root)).1 (by rw [plug_append] at r; exact r)
  obtain ⟨e1, v, e2, rc, _⟩ := rep_mk.1 rt
  have lv := lv_end pr
  have hdc : h.t.dr c.n = some c.d := hd c (List.mem_cons_self ..)
  rw [hs1] at r nd hp
  obtain ⟨h1, w1, w2, w3, w4⟩ := weightLoop_ok post h.t (pre ++ [c]) k r nd (hd.mono fun g hg => List.mem_cons_of_mem _ hg) hn hw hk
  rw [endLoc_snoc] at w1
  rw [plug_append] at hb
  obtain ⟨b1, b2, b3⟩ := bal_mk.1 (bal_plug_sub hb)
  obtain ⟨g1, g2⟩ := grow_bal (n := n) b1 hw
  have nd1 : (plug (pre ++ [c] ++ post.map grow) (leaf n)).ids.Nodup := by
    rw [plug_append, ids_plug, ids_plug, bef_grow, aft_grow, ← ids_plug, ← ids_plug, ← plug_append]; exact nd
  have hids : (plug (pre ++ [c] ++ post.map grow) (leaf n)).ids = (plug (pre ++ [c] ++ post) (leaf n)).ids := by
    rw [plug_append, ids_plug, ids_plug, bef_grow, aft_grow, ← ids_plug, ← ids_plug, ← plug_append]
  have hp1 : Par h.par 0 (plug (pre ++ [c] ++ post.map grow) (leaf n)) := by
    obtain ⟨q1, q2⟩ := par_plug.1 hp
    obtain ⟨q3, q4⟩ := ppar_append.1 q1
    refine par_plug.2 ⟨ppar_append.2 ⟨q3, ppar_grow q4⟩, ?_⟩
    rw [lastD_append, lastD_grow, ← lastD_append]; exact q2
  have hsh : plug (pre ++ [c] ++ post.map grow) (leaf n) = plug pre (mk c.d c.n c.w (plug (post.map grow) (leaf n)) c.sib) := by
    rw [plug_append, plug_append]; rfl
  rw [hsh] at w2 nd1 hids hp1
  rw [hs1, ← hids]
  obtain ⟨_, rt1⟩ := (rep_plug (L := .root)).1 w2
  obtain ⟨f1, v1, f2, rb, _⟩ := rep_mk.1 rt1
  have hstart : ∀ (X : Res MH), (do
      let w ← h1.weight c.n
      if w = none then MH.setWeight ⟨h1, h.par⟩ c.n (some c.d)
      else if some c.d ≠ w then MH.setWeight ⟨h1, h.par⟩ c.n none
      else do
        let b ← h1.child c.n c.d
        if w = (← h1.dir b) then MH.rotate2 ⟨h1, h.par⟩ (endLoc .root pre) c.d
        else do
          let e ← h1.child b (!c.d)
          MH.rotate3 ⟨h1, h.par⟩ (endLoc .root pre) c.d (← h1.dir e)) = X → h.balanceNode (endLoc .root pre) k = X := by
    intro X hX
    rw [← hX]
    unfold MH.balanceNode
    rw [getL_ok lv, e1]
    simp only [TH.dirIx, TH.dir, if_pos v, hdc, bind, Except.bind, TH.child]
    rw [show h.t.ch c.n c.d = h.t.gl (.child c.n c.d) from rfl, w1]
  have hw' : ∀ w', Par h.par 0 (plug pre (mk c.d c.n w' (plug (post.map grow) (leaf n)) c.sib)) := fun w' => by
    obtain ⟨q1, q2⟩ := par_plug.1 hp1
    exact par_plug.2 ⟨q1, par_w q2⟩
  rcases b3 with ⟨bw, bh⟩ | ⟨bw, bh⟩ | ⟨bw, bh⟩
  · -- the tree was balanced all the way down
    have hp : pre = [] := by rcases hc with h | h; exact absurd bw h; exact h
    subst hp
    obtain ⟨s1, s2⟩ := setWeight_ok (some c.d) w2 nd1
    refine ⟨⟨h1.sw c.n (some c.d), h.par⟩, _, hstart _ ?_, s2, hw' _, ids_w, ?_, w4⟩
    · simp only [TH.weight, if_pos v1, f2, bw, bind, Except.bind, if_true, MH.setWeight, s1]
    · simp only [plug, bal_mk]; exact ⟨g1, b2, .inr (.inl ⟨rfl, by omega⟩)⟩
  · -- a rotation is needed
    cases post with
    | nil => simp [plug] at bh
    | cons b post2 =>
      obtain ⟨b1a, b1b, b1c⟩ := bal_mk.1 b1
      have hbw := hw b (List.mem_cons_self ..)
      have hbh : (plug post2 .nil).height = b.sib.height := by
        rcases b1c with ⟨_, q⟩ | ⟨q, _⟩ | ⟨q, _⟩
        · exact q
        · rw [hbw] at q; cases q
        · rw [hbw] at q; cases q
      obtain ⟨g3, g4⟩ := grow_bal (n := n) b1a (fun f hf => hw f (List.mem_cons_of_mem _ hf))
      have hhb : (plug (b :: post2) .nil).height = b.sib.height + 1 := by
        simp only [plug, Frame.plug, height_mk]; omega
      have hdb : h1.dr b.n = some b.d := by rw [w3]; exact hd b (by simp)
      have hu : plug ((b :: post2).map grow) (leaf n) = mk b.d b.n (some b.d) (plug (post2.map grow) (leaf n)) b.sib := rfl
      rw [hu] at w2 nd1 rb hids g1 g2 hp1 ⊢
      obtain ⟨q1, vb, _, rb2, _⟩ := rep_mk.1 rb
      rcases eq_or_not b.d c.d with hbd | hbd
      · rw [hbd] at w2 nd1 hids hdb hp1 ⊢
        obtain ⟨h', x1, x2, x3, _, x4⟩ := rotate2_ok (h := ⟨h1, h.par⟩) w2 nd1 hp1
        have hbal : (mk c.d b.n none (plug (post2.map grow) (leaf n)) (mk c.d c.n none b.sib c.sib)).Bal ∧
            (mk c.d b.n none (plug (post2.map grow) (leaf n)) (mk c.d c.n none b.sib c.sib)).height = c.sib.height + 2 := by
          simp only [bal_mk, height_mk]
          exact ⟨⟨g3, ⟨b1b, b2, .inl ⟨rfl, by omega⟩⟩, .inl ⟨rfl, by omega⟩⟩, by omega⟩
        refine ⟨h', _, hstart _ ?_, x2, x3, ?_, (plug_swap hb hbal.1 ?_).1, x4.trans w4⟩
        · simp only [TH.weight, if_pos v1, f2, bw, bind, Except.bind, reduceCtorEq, if_false, ne_eq, not_true_eq_false, TH.child, q1,
            TH.dir, if_pos vb, hdb, if_true, x1]
        · rw [ids_plug, ids_plug]
          congr 2
          exact ino_congr (d := c.d) (by simp only [ino_mk, List.append_assoc, List.cons_append]) false
        · rw [hbal.2]; show _ = (T.mk c.d c.n c.w (plug (b :: post2) .nil) c.sib).height
          rw [height_mk]; omega
      · have hne : some c.d ≠ some b.d := by rw [hbd]; cases c.d <;> simp
        rw [hbd, mk_flip] at w2 nd1 hids hp1
        rw [hbd] at rb2
        rw [hbd, mk_flip]
        obtain ⟨e, we, f, g, hu2⟩ := height_pos (t := plug (post2.map grow) (leaf n)) (by omega) c.d
        have hde : h1.dr e = we := by
          cases post2 with
          | nil =>
            have : leaf n = mk c.d e we f g := hu2
            rw [leaf_eq n c.d] at this
            injection this with t1 t2 _
            rw [← t1, ← t2, w3]; exact hn
          | cons p post3 =>
            have hi : p.n = e ∧ some p.d = we := by
              have : mk p.d p.n (some p.d) (plug (post3.map grow) (leaf n)) p.sib = mk c.d e we f g := hu2
              injection this with t1 t2 _
              exact ⟨t1, t2⟩
            rw [← hi.1, ← hi.2, w3]; exact hd p (by simp)
        rw [hu2] at w2 nd1 hids rb2 g3 g4 hp1 ⊢
        obtain ⟨q2, ve, _, _, _⟩ := rep_mk.1 rb2
        obtain ⟨g5, g6, g7⟩ := bal_mk.1 g3
        rw [height_mk] at g4
        obtain ⟨h', x1, x2, x3, _, x4⟩ := rotate3_ok (h := ⟨h1, h.par⟩) we w2 nd1 hp1
        obtain ⟨y1, y2⟩ := bal_rot3 (a := c.n) (b := b.n) (e := e) b1b g5 g6 b2 g7 (by omega) (by omega)
        refine ⟨h', _, hstart _ ?_, x2, x3, ?_, (plug_swap hb y1 ?_).1, x4.trans w4⟩
        · simp only [TH.weight, if_pos v1, f2, bw, bind, Except.bind, reduceCtorEq, if_false, ne_eq, not_true_eq_false, TH.child, q1,
            TH.dir, if_pos vb, hdb, hne, q2, if_pos ve, hde, x1]
        · rw [ids_plug, ids_plug]
          congr 2
          exact ino_congr (d := c.d) (by simp only [ino_mk, List.append_assoc, List.cons_append]) false
        · rw [y2]; show _ = (T.mk c.d c.n c.w (plug (b :: post2) .nil) c.sib).height
          rw [height_mk]; omega
  · -- the insertion levels the critical node
    obtain ⟨s1, s2⟩ := setWeight_ok none w2 nd1
    have hne : some c.d ≠ some (!c.d) := by cases c.d <;> simp
    refine ⟨⟨h1.sw c.n none, h.par⟩, _, hstart _ ?_, s2, hw' _, by rw [ids_plug, ids_plug, ids_w], (plug_swap hb ?_ ?_).1, w4⟩
    · simp only [TH.weight, if_pos v1, f2, bw, bind, Except.bind, reduceCtorEq, if_false, ne_eq, hne, not_false_eq_true, if_true, MH.setWeight, s1]
    · simp only [bal_mk]; exact ⟨g1, b2, .inl ⟨rfl, by omega⟩⟩
    · show _ = (T.mk c.d c.n c.w (plug post .nil) c.sib).height
      simp only [height_mk]; omega

variable {α K : Type} (key : α → K) (lt : K → K → Bool)

/-- At frame `f` the search for the place of `k` goes in direction `f.d`: equivalent nodes are passed on their right. -/
def Goes (ev : Nat → α) (k : K) (f : Frame) : Prop := f.d = !(lt k (key (ev f.n)))

theorem read_ok {s : St α} {ev : Nat → α} {n : Nat} (v : s.h.t.valid n) (hv : s.val n = some (ev n)) : read s n = .ok (ev n) :=
  Tree.read_ok (s := s.b) v hv

/-- Outcome of the search loop. -/
theorem insLoop_ok {ev : Nat → α} {k : K} (t : T) : ∀ (s : St α) (fs : List Frame) (crit cp fuel : Nat),
    Rep s.h.t s.h.t.root (plug fs t) → (plug fs t).ids.Nodup → t ≠ .nil → DRep s.h.t fs → (∀ n ∈ t.ids, s.val n = some (ev n)) →
    (∀ d sib, Crit (fs ++ [⟨t.rootId, d, t.rootW, sib⟩]) (if t.rootW ≠ none then t.rootId else crit) cp) → t.height < fuel →
    ∃ dr' fs' found crit' cp', insLoop key lt s k (s.h.t.gl (endLoc .root fs)) crit cp fuel =
        .ok ({ s with h := ⟨{ s.h.t with dr := dr' }, s.h.par⟩ }, found, crit', cp') ∧
      (∀ f ∈ fs', Goes key lt ev k f) ∧
      t = plug fs' .nil ∧ fs' ≠ [] ∧ found = lastn fs' ∧ DRep { s.h.t with dr := dr' } (fs ++ fs') ∧ Crit (fs ++ fs') crit' cp' := by
  induction t with
  | nil => intro s fs crit cp fuel _ _ h; exact absurd rfl h
  | node n w c ih =>
    intro s fs crit cp fuel r nd _ hd hv hc hf
    obtain ⟨fuel, rfl⟩ : ∃ j, fuel = j + 1 := ⟨fuel - 1, by omega⟩
    obtain ⟨pr, rt⟩ := (rep_plug (L := .root)).1 r
    obtain ⟨e1, v, e2, rc⟩ := rt
    have hvn : s.val n = some (ev n) := hv n (mem_node n w c)
    simp only [rootId, rootW] at hc
    rw [e1, insLoop, if_pos (by have := v.1; omega)]
    simp only [TH.weight, if_pos v, bind, Except.bind, e2, read_ok v hvn]
    have hnd : ∀ f ∈ fs, f.n ≠ n := fun f hf he =>
      nodup_plug_disj nd (m := n) (by
        obtain ⟨a, b, rfl⟩ := List.append_of_mem hf
        rw [mem_pids_append, mem_pids_cons]; exact .inr (.inl he.symm)) (mem_node n w c)
    generalize hd' : (if lt k (key (ev n)) then false else if lt (key (ev n)) k then true else true) = d
    simp only [MH.setDir_ok v, TH.child]
    rw [if_pos (show (s.h.t.sd n (some d)).valid n from v)]
    simp only
    let f : Frame := ⟨n, d, w, c (!d)⟩
    have hgo : Goes key lt ev k f := by
      show d = _
      rw [← hd']
      cases lt k (key (ev n)) <;> simp
    have hsplit : plug fs (node n w c) = plug (fs ++ [f]) (c d) := plug_sub fs d
    have hd2 : DRep (s.h.t.sd n (some d)) (fs ++ [f]) := by
      intro g hg
      rcases List.mem_append.1 hg with hg | hg
      · show upd s.h.t.dr n (some d) g.n = _
        rw [upd_other _ _ (hnd g hg)]; exact hd g hg
      · simp only [List.mem_singleton] at hg; subst hg; exact upd_same _ _ _
    rw [hsplit] at r nd
    have hcz : s.h.t.ch n d = (c d).rootId := (rc d).root_eq
    by_cases hz : s.h.t.ch n d = 0
    · rw [if_neg (show ¬ ((s.h.t.sd n (some d)).ch n d ≠ 0) from fun hc => hc hz)]
      have hnil : c d = .nil := by
        by_contra hcn
        exact ((rc d).ne_zero.2 hcn) hz
      refine ⟨_, [f], n, _, cp, rfl, by simpa using hgo, ?_, by simp, ?_, hd2, hc _ _⟩
      · show _ = mk d n w .nil (c (!d))
        rw [← hnil, ← node_eq d]
      · simp [lastn, f]
    · rw [if_pos (show (s.h.t.sd n (some d)).ch n d ≠ 0 from hz)]
      obtain ⟨m, w2, c2, hcd⟩ : ∃ m w2 c2, c d = node m w2 c2 := by
        cases hcd : c d with
        | nil => rw [hcd] at hcz; exact absurd hcz hz
        | node m w2 c2 => exact ⟨m, w2, c2, rfl⟩
      have rcd := rc d
      rw [hcd] at rcd
      obtain ⟨e4, v4, e5, _⟩ := rcd
      rw [show (s.h.t.sd n (some d)).ch n d = m from e4]
      rw [if_pos (show (s.h.t.sd n (some d)).valid m from v4)]
      simp only [show (s.h.t.sd n (some d)).wt m = w2 from e5]
      have hsub : ∀ x ∈ (c d).ids, x ∈ (node n w c).ids := fun x hx => mem_sub d hx
      obtain ⟨dr', fs', found, crit', cp', i1, i2, i3, i4, i5, i6, i7⟩ := ih d { s with h := ⟨s.h.t.sd n (some d), s.h.par⟩ } (fs ++ [f])
        (if w ≠ none then n else crit) (if w2 ≠ none then n else cp) fuel (r.sd _ _) nd (by rw [hcd]; simp) hd2
        (fun x hx => hv x (hsub x hx)) (fun d2 sib => by
          rw [hcd]
          show Crit (fs ++ [f] ++ [⟨m, d2, w2, sib⟩]) (if w2 ≠ none then m else if w ≠ none then n else crit) (if w2 ≠ none then n else cp)
          by_cases hw2 : w2 = none
          · rw [if_neg (show ¬ (w2 ≠ none) from fun hc => hc hw2), if_neg (show ¬ (w2 ≠ none) from fun hc => hc hw2)]
            obtain ⟨p1, p2, p3, p4, p5, p6, p7, p8⟩ := hc d (c (!d))
            refine ⟨p1, p2, p3 ++ [⟨m, d2, w2, sib⟩], ?_, ?_, p6, p7, p8⟩
            · show (fs ++ [f]) ++ _ = _
              rw [show fs ++ [f] = p1 ++ p2 :: p3 from p4]; simp
            · intro g hg
              rcases List.mem_append.1 hg with hg | hg
              · exact p5 g hg
              · simp only [List.mem_singleton] at hg; subst hg; exact hw2
          · rw [if_pos hw2, if_pos hw2]
            exact ⟨fs ++ [f], ⟨m, d2, w2, sib⟩, [], rfl, by simp, .inl hw2, rfl, (lastn_snoc fs f).symm⟩)
        (by have := height_sub (n := n) (w := w) (c := c) d; omega)
      have hgl : (s.h.t.sd n (some d)).gl (endLoc .root (fs ++ [f])) = m := by
        rw [endLoc_snoc]; exact e4
      simp only at i1
      rw [hgl] at i1
      refine ⟨dr', f :: fs', found, crit', cp', i1, ?_, ?_, by simp, ?_, (by rw [List.append_assoc] at i6; exact i6), by simpa using i7⟩
      · intro g hg
        rcases List.mem_cons.1 hg with rfl | hg
        · exact hgo
        · exact i2 g hg
      · show _ = mk d n w (plug fs' .nil) (c (!d))
        rw [← i3, ← node_eq d]
      · rw [i5]
        rcases List.eq_nil_or_concat fs' with rfl | ⟨a, b, rfl⟩
        · exact absurd rfl i4
        · rw [List.concat_eq_append, ← List.cons_append, lastn_snoc, lastn_snoc]

/-- `attach_node` at the end of a path. -/
theorem attach_ok {s : St α} {fs : List Frame} {n : Nat} (r : Rep s.h.t s.h.t.root (plug fs .nil)) (nd : (plug fs .nil).ids.Nodup)
    (hp : Par s.h.par 0 (plug fs .nil)) (hn : n ∉ (plug fs .nil).ids) (v : s.h.t.valid n) :
    ∃ h', attachNode s (lastn fs) (endLoc .root fs) n = .ok { s with h := h', size := s.size + 1 } ∧
      Rep h'.t h'.t.root (plug fs (leaf n)) ∧ Par h'.par 0 (plug fs (leaf n)) ∧ h'.t.lim = s.h.t.lim ∧ h'.t.dr = upd s.h.t.dr n none := by
  obtain ⟨h', a1, a2, a3, a4⟩ := Tree.attach_ok (s := s.b) r nd hn v
  obtain ⟨pr, _⟩ := (rep_plug (L := .root)).1 r
  have lv := lv_end pr
  let h1 : TH := ((((s.h.t.sw n none).sd n none).sc n false 0).sc n true 0)
  refine ⟨⟨h', upd (upd s.h.par n 0) n (lastn fs)⟩, ?_, a2, ?_, a3, a4⟩
  · have hh : h' = h1.sl (endLoc .root fs) n := by
      unfold Tree.attachNode TH.markAsLeaf at a1
      simp only [TH.setWeight, TH.setDir, TH.setChild, if_pos (show s.b.h.valid n from v), bind, Except.bind] at a1
      rw [if_pos (show (s.b.h.sw n none).valid n from v)] at a1
      simp only at a1
      rw [if_pos (show ((s.b.h.sw n none).sd n none).valid n from v)] at a1
      simp only at a1
      rw [if_pos (show (((s.b.h.sw n none).sd n none).sc n false 0).valid n from v)] at a1
      simp only at a1
      rw [Tree.setL_ok (h := ((((s.b.h.sw n none).sd n none).sc n false 0).sc n true 0)) (lv_congr (h := s.b.h) rfl lv)] at a1
      simp only at a1
      injection a1 with a1
      injection a1 with a1 _
      exact a1.symm
    unfold attachNode MH.markAsLeaf
    simp only [bind, Except.bind]
    rw [MH.setWeight_ok v]
    simp only
    rw [MH.setDir_ok (h := ⟨s.h.t.sw n none, s.h.par⟩) v]
    simp only
    rw [MH.setParent_ok (h := ⟨(s.h.t.sw n none).sd n none, s.h.par⟩) v]
    simp only
    rw [MH.setChild_ok (h := ⟨(s.h.t.sw n none).sd n none, _⟩) v]
    simp only
    rw [MH.setChild_ok (h := ⟨((s.h.t.sw n none).sd n none).sc n false 0, _⟩) v]
    simp only
    rw [MH.setParent_ok (h := ⟨h1, _⟩) v]
    simp only
    rw [MH.setL_ok (h := ⟨h1, _⟩) (lv_congr (h := s.h.t) rfl lv), hh]
  · obtain ⟨p1, _⟩ := par_plug.1 hp
    refine par_plug.2 ⟨p1.congr fun m hm => ?_, par_leaf.2 ?_⟩
    · have hne : m ≠ n := fun hc => hn (hc ▸ mem_plug.2 (.inl hm))
      show upd (upd s.h.par n 0) n (lastn fs) m = _
      rw [upd_other _ _ hne, upd_other _ _ hne]
    · show upd (upd s.h.par n 0) n (lastn fs) n = _
      rw [upd_same, lastD_zero]

/-- `insert_node`: `n` is a node that is not in the tree and holds `ev n`. -/
theorem insertNode_ok {ev : Nat → α} {s : St α} {t : T} {n : Nat} (r : Rep s.h.t s.h.t.root t) (nd : t.ids.Nodup) (hb : t.Bal)
    (hp : Par s.h.par 0 t) (hv : ∀ m ∈ t.ids, s.val m = some (ev m)) (hn : n ∉ t.ids) (vn : s.h.t.valid n) (hvn : s.val n = some (ev n))
    (hcap : t.ids.length ≤ s.cap) :
    ∃ fs h' t', t = plug fs .nil ∧ (∀ f ∈ fs, Goes key lt ev (key (ev n)) f) ∧
        insertNode key lt s n = .ok ({ s with h := h', size := s.size + 1 }, n) ∧ Rep h'.t h'.t.root t' ∧ Par h'.par 0 t' ∧ t'.Bal ∧
        t'.ids = bef fs ++ n :: aft fs ∧ h'.t.lim = s.h.t.lim := by
  by_cases ht : t = .nil
  · subst ht
    have hr0 : s.h.t.root = 0 := r
    obtain ⟨h', a1, a2, a5, a3, _⟩ := attach_ok (fs := []) r nd hp hn vn
    refine ⟨[], h', leaf n, rfl, by simp, ?_, a2, a5, bal_leaf n, rfl, a3⟩
    unfold insertNode
    rw [if_neg (by simpa using hr0)]
    rw [show Loc.root = endLoc .root [] from rfl, show (0 : Nat) = lastn [] from rfl, a1]
    have : h'.t.root = n := a2.root_eq
    simp only [bind, Except.bind, this]
  · have hr0 : s.h.t.root ≠ 0 := r.ne_zero.2 ht
    have hroot := r.root_eq
    obtain ⟨dr', fs, found, crit, cp, i1, i2, j2, j3, j4, j5, j6⟩ := insLoop_ok key lt (ev := ev) (k := key (ev n)) t s [] s.h.t.root 0 (s.cap + 1)
      r nd ht (by intro f hf; cases hf) hv (fun d sib => ⟨[], _, [], rfl, by simp, .inr rfl, by simp [hroot], rfl⟩)
      (by have := height_le_len t; omega)
    simp only [endLoc, TH.gl, List.nil_append] at i1 j5 j6
    unfold insertNode
    rw [if_pos hr0]
    simp only [read_ok vn hvn, bind, Except.bind, i1]
    let s1 : St α := { s with h := ⟨{ s.h.t with dr := dr' }, s.h.par⟩ }
    have r1 : Rep s1.h.t s1.h.t.root t := r.to _ rfl fun _ _ => ⟨fun _ => rfl, rfl⟩
    rw [j2] at r1 nd hn hp
    obtain ⟨fsi, fl, rfl⟩ : ∃ a b, fs = a ++ [b] := by
      rcases List.eq_nil_or_concat fs with rfl | ⟨a, b, rfl⟩
      · exact absurd rfl j3
      · exact ⟨a, b, by simp⟩
    obtain ⟨h', a1, a2, a5, a3, a4⟩ := attach_ok (s := s1) r1 nd hp hn vn
    rw [lastn_snoc] at j4 a1
    subst j4
    have vl : s1.h.t.valid fl.n := r1.valid_of_mem (mem_plug.2 (.inl (mem_pids_append.2 (.inr (mem_pids_cons.2 (.inl rfl))))))
    have hdl : dr' fl.n = some fl.d := j5 fl (by simp)
    have hL : s1.h.t.locDir fl.n = .ok (endLoc .root (fsi ++ [fl])) := by
      rw [endLoc_snoc]
      simp only [TH.locDir, TH.dirIx, TH.dir, if_pos vl, bind, Except.bind, s1, hdl]
    rw [show TH.locDir { s.h.t with dr := dr' } fl.n = _ from hL]
    simp only [show attachNode { s with h := ⟨{ s.h.t with dr := dr' }, s.h.par⟩ } fl.n (endLoc .root (fsi ++ [fl])) n = _ from a1]
    have pr' := (rep_plug (L := .root)).1 a2
    have hget : h'.t.getL (endLoc .root (fsi ++ [fl])) = .ok n := by
      rw [getL_ok (lv_end pr'.1), pr'.2.root_eq]; rfl
    simp only [hget]
    obtain ⟨pre, c, post, c1, c2, c3, c4, c5⟩ := j6
    have hndp : (plug (fsi ++ [fl]) (leaf n)).ids.Nodup :=
      nodup_plug_swap nd (by simp) (fun m hm => by simp only [ids_leaf, List.mem_singleton] at hm; subst hm; exact .inr hn)
    have hD : DRep h'.t (fsi ++ [fl]) := by
      intro f hf
      rw [a4]
      have hfn : f.n ≠ n := fun hc => hn (hc ▸ mem_plug.2 (.inl (by
        obtain ⟨a, b, hab⟩ := List.append_of_mem hf
        rw [hab, mem_pids_append, mem_pids_cons]; exact .inr (.inl rfl))))
      rw [upd_other _ _ hfn]; exact j5 f hf
    have hdn : h'.t.dr n = none := by rw [a4, upd_same]
    have hbal : (plug (pre ++ c :: post) .nil).Bal := by rw [← c1, ← j2]; exact hb
    have hlen : post.length < s.cap + 1 := by
      have h1 := len_le_height (pre ++ c :: post) .nil
      rw [← c1, ← j2, c1] at h1
      have h2 := height_le_len t
      simp at h1; omega
    have hidl : (plug (fsi ++ [fl]) (leaf n)).ids = bef (fsi ++ [fl]) ++ n :: aft (fsi ++ [fl]) := by rw [ids_plug]; simp
    rw [c1] at a2 hndp hD hidl a5
    obtain ⟨h2, t', b1, b2, b6, b3, b4, b5⟩ := balance_ok (k := s.cap + 1) a2 hndp a5 (hD.mono fun f hf => List.mem_append_right _ hf) hdn c2 c3 hbal hlen
    have hvc : h'.t.valid c.n := a2.valid_of_mem (mem_plug.2 (.inl (by rw [mem_pids_append, mem_pids_cons]; exact .inr (.inl rfl))))
    have hc0 : crit ≠ 0 := by rw [c4]; have := hvc.1; omega
    rw [if_pos hc0]
    refine ⟨fsi ++ [fl], h2, t', j2, i2, ?_, b2, b6, b4, by rw [b3, hidl, c1], by rw [b5, a3]⟩
    rcases List.eq_nil_or_concat pre with rfl | ⟨pa, pb, rfl⟩
    · have hcr : crit = h'.t.root := by rw [c4]; exact a2.root_eq.symm
      rw [if_pos ⟨c5, hcr⟩, show Loc.root = endLoc .root [] from rfl, b1]
    · rw [List.concat_eq_append] at *
      rw [lastn_snoc] at c5
      have hvp : h'.t.valid pb.n := a2.valid_of_mem (mem_plug.2 (.inl (by simp only [mem_pids_append, mem_pids_cons]; tauto)))
      have hcp : cp ≠ 0 := by rw [c5]; have := hvp.1; omega
      have hdp : h'.t.dr pb.n = some pb.d := hD pb (by simp)
      have hLp : h'.t.locDir cp = .ok (endLoc .root (pa ++ [pb])) := by
        rw [endLoc_snoc, c5]
        simp only [TH.locDir, TH.dirIx, TH.dir, if_pos hvp, bind, Except.bind, hdp]
      rw [if_neg (fun hc => hcp hc.1), if_pos hcp, hLp]
      simp only [show h'.balanceNode (endLoc .root (pa ++ [pb])) (s1.cap + 1) = _ from b1]
      rfl

end Etl.MTree
