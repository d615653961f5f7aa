import Verif.Tree.Shape

/-! # What the primitive tree operations do to the represented tree -/
namespace Etl.Tree
open T

def LV (h : TH) : Loc → Prop
  | .root => True
  | .child p _ => h.valid p

theorem getL_ok {h : TH} {L : Loc} (hv : LV h L) : h.getL L = .ok (h.gl L) := by
  cases L with
  | root => rfl
  | child p d => exact if_pos hv
theorem setL_ok {h : TH} {L : Loc} (hv : LV h L) (v : Nat) : h.setL L v = .ok (h.sl L v) := by
  cases L with
  | root => rfl
  | child p d => exact if_pos hv

theorem lv_end {h : TH} {fs : List Frame} (r : PRep h .root fs) : LV h (endLoc .root fs) := by
  rcases List.eq_nil_or_concat fs with rfl | ⟨fs', g, rfl⟩
  · trivial
  · rw [List.concat_eq_append, endLoc_snoc]
    rw [List.concat_eq_append] at r
    exact r.valid_of_mem (mem_pids_append.2 (.inr (mem_pids_cons.2 (.inl rfl))))

theorem end_mem {fs : List Frame} {p : Nat} {d : Bool} (h : endLoc .root fs = .child p d) : p ∈ pids fs := by
  rcases List.eq_nil_or_concat fs with rfl | ⟨fs', g, rfl⟩
  · cases h
  · rw [List.concat_eq_append, endLoc_snoc] at h
    cases h
    rw [List.concat_eq_append]
    exact mem_pids_append.2 (.inr (mem_pids_cons.2 (.inl rfl)))

theorem lv_congr {h h' : TH} (hl : h'.lim = h.lim) {L : Loc} (hv : LV h L) : LV h' L := by
  cases L with
  | root => trivial
  | child p d => simp only [LV, TH.valid, hl] at *; exact hv

theorem sl_ch {h : TH} {L : Loc} {v n : Nat} {e : Bool} (hn : ∀ d, L ≠ .child n d) : (h.sl L v).ch n e = h.ch n e := by
  cases L with
  | root => rfl
  | child p d =>
    show (if n = p ∧ e = d then v else h.ch n e) = _
    rw [if_neg]; rintro ⟨rfl, rfl⟩; exact hn _ rfl
theorem sl_wt (h : TH) (L : Loc) (v : Nat) : (h.sl L v).wt = h.wt := by cases L <;> rfl
theorem sl_dr (h : TH) (L : Loc) (v : Nat) : (h.sl L v).dr = h.dr := by cases L <;> rfl
theorem sl_lim (h : TH) (L : Loc) (v : Nat) : (h.sl L v).lim = h.lim := by cases L <;> rfl
theorem sw_sl (h : TH) (L : Loc) (v n : Nat) (w) : (h.sl L v).sw n w = (h.sw n w).sl L v := by cases L <;> rfl

theorem sc_ch (h : TH) (p : Nat) (d : Bool) (v q : Nat) (e : Bool) :
    (h.sc p d v).ch q e = if q = p ∧ e = d then v else h.ch q e := rfl
theorem sc_same (h : TH) (p : Nat) (d : Bool) (v : Nat) : (h.sc p d v).ch p d = v := if_pos ⟨rfl, rfl⟩
theorem sc_ne (h : TH) {p q : Nat} (d e : Bool) (v : Nat) (hn : q ≠ p) : (h.sc p d v).ch q e = h.ch q e :=
  if_neg fun hc => hn hc.1
theorem sc_not (h : TH) {p : Nat} (d : Bool) (v : Nat) : (h.sc p d v).ch p (!d) = h.ch p (!d) :=
  if_neg fun hc => by have := hc.2; cases d <;> cases this
theorem sc_not' (h : TH) {p : Nat} (d : Bool) (v : Nat) : (h.sc p (!d) v).ch p d = h.ch p d :=
  if_neg fun hc => by have := hc.2; cases d <;> cases this
@[simp] theorem sw_ch (h : TH) (n w) : (h.sw n w).ch = h.ch := rfl
@[simp] theorem sd_ch (h : TH) (n w) : (h.sd n w).ch = h.ch := rfl
@[simp] theorem sd_wt (h : TH) (n w) : (h.sd n w).wt = h.wt := rfl
@[simp] theorem sc_wt (h : TH) (p d v) : (h.sc p d v).wt = h.wt := rfl
theorem sw_same (h : TH) (n w) : (h.sw n w).wt n = w := upd_same _ _ _
theorem sw_ne (h : TH) {n m : Nat} (w) (hn : m ≠ n) : (h.sw n w).wt m = h.wt m := upd_other _ _ hn

/-- Replacing the subtree at the end of a path: nodes of the path are not touched, the new subtree is below `v`, and `v` is written to the end of the path. -/
theorem install {h h1 : TH} {fs : List Frame} {t t' : T} {v : Nat} (r : Rep h h.root (plug fs t)) (nd : (plug fs t).ids.Nodup)
    (hl : h1.lim = h.lim) (hr : h1.root = h.root) (hu : ∀ n ∈ pids fs, (∀ d, h1.ch n d = h.ch n d) ∧ h1.wt n = h.wt n)
    (rt : Rep h1 v t') (ht : ∀ n ∈ t'.ids, n ∈ t.ids ∨ n ∉ (plug fs t).ids) :
    Rep (h1.sl (endLoc .root fs) v) (h1.sl (endLoc .root fs) v).root (plug fs t') := by
  obtain ⟨pr, _⟩ := (rep_plug (L := .root)).1 r
  have p1 : PRep h1 .root fs := pr.congr hl hr hu
  refine (rep_plug (L := .root)).2 ⟨p1.set_end t nd (fun p d e => by cases e), ?_⟩
  rw [gl_sl]
  refine rt.congr (sl_lim _ _ _) fun n hn => ⟨fun d => sl_ch fun d' he => ?_, by rw [sl_wt]⟩
  have hm := end_mem he
  rcases ht n hn with h' | h'
  · exact nodup_plug_disj nd hm h'
  · exact h' (mem_plug.2 (.inl hm))

theorem gl_root (h : TH) : h.gl .root = h.root := rfl

/-- `rotate_2node`. -/
theorem rotate2_ok {h : TH} {fs : List Frame} {d : Bool} {a b : Nat} {wa wb : Option Bool} {x y z : T}
    (r : Rep h h.root (plug fs (mk d a wa (mk d b wb x y) z))) (nd : (plug fs (mk d a wa (mk d b wb x y) z)).ids.Nodup) :
    ∃ h', h.rotate2 (endLoc .root fs) d = .ok h' ∧ Rep h' h'.root (plug fs (mk d b none x (mk d a none y z))) ∧
      h'.dr = h.dr ∧ h'.lim = h.lim := by
  obtain ⟨pr, rt⟩ := (rep_plug (L := .root)).1 r
  have lv := lv_end pr
  obtain ⟨e1, va, e2, rab, rz⟩ := rep_mk.1 rt
  obtain ⟨e3, vb, e4, rx, ry⟩ := rep_mk.1 rab
  have nt := nodup_plug_sub nd
  obtain ⟨n1, n2, n3, n4, n5⟩ := nodup_mk.1 nt
  obtain ⟨m1, m2, m3, m4, m5⟩ := nodup_mk.1 n3
  have hab : a ≠ b := fun hc => n1 (mem_mk.2 (.inl hc))
  let h1 : TH := ((((h.sc a d (h.ch b (!d))).sc b (!d) a).sw a none).sw b none)
  have hrun : h.rotate2 (endLoc .root fs) d = .ok (h1.sl (endLoc .root fs) b) := by
    unfold TH.rotate2
    rw [getL_ok lv, e1]
    simp only [bind, Except.bind, TH.child, TH.setChild, TH.setWeight, if_pos va, e3, if_pos vb]
    rw [if_pos (show (h.sc a d (h.ch b (!d))).valid b from vb)]
    simp only
    rw [if_pos (show ((h.sc a d (h.ch b (!d))).sc b (!d) a).valid a from va)]
    simp only
    rw [setL_ok (h := (((h.sc a d (h.ch b (!d))).sc b (!d) a).sw a none)) (lv_congr rfl lv)]
    simp only
    rw [if_pos, sw_sl]
    simp only [TH.valid, sl_lim]; exact vb
  have hch : ∀ n, n ≠ a → n ≠ b → ∀ e, h1.ch n e = h.ch n e := fun n ha hb e => by
    show ((h.sc a d (h.ch b (!d))).sc b (!d) a).ch n e = _
    rw [sc_ne _ _ _ _ hb, sc_ne _ _ _ _ ha]
  have hwt : ∀ n, n ≠ a → n ≠ b → h1.wt n = h.wt n := fun n ha hb => by
    show ((((h.sc a d (h.ch b (!d))).sc b (!d) a).sw a none).sw b none).wt n = _
    rw [sw_ne _ _ hb, sw_ne _ _ ha]; rfl
  have sub : ∀ {t : T} {p : Nat}, Rep h p t → a ∉ t.ids → b ∉ t.ids → Rep h1 p t := fun rt ha hb =>
    rt.to (h1) rfl fun n hn => ⟨hch n (fun hc => ha (hc ▸ hn)) (fun hc => hb (hc ▸ hn)), hwt n (fun hc => ha (hc ▸ hn)) (fun hc => hb (hc ▸ hn))⟩
  have haz := n2
  have hbz : b ∉ z.ids := n5 b (mem_mk.2 (.inl rfl))
  have hax : a ∉ x.ids := fun hc => n1 (mem_mk.2 (.inr (.inl hc)))
  have hay : a ∉ y.ids := fun hc => n1 (mem_mk.2 (.inr (.inr hc)))
  have rt' : Rep h1 b (mk d b none x (mk d a none y z)) := by
    refine rep_mk.2 ⟨rfl, vb, sw_same _ _ _, ?_, rep_mk.2 ⟨?_, va, ?_, ?_, ?_⟩⟩
    · show Rep h1 (((h.sc a d (h.ch b (!d))).sc b (!d) a).ch b d) x
      rw [sc_not', sc_ne _ _ _ _ (Ne.symm hab)]
      exact sub rx hax m1
    · exact sc_same _ _ _ _
    · show ((((h.sc a d (h.ch b (!d))).sc b (!d) a).sw a none).sw b none).wt a = _
      rw [sw_ne _ _ hab, sw_same]
    · show Rep h1 (((h.sc a d (h.ch b (!d))).sc b (!d) a).ch a d) y
      rw [sc_ne _ _ _ _ hab, sc_same]
      exact sub ry hay m2
    · show Rep h1 (((h.sc a d (h.ch b (!d))).sc b (!d) a).ch a (!d)) z
      rw [sc_ne _ _ _ _ hab, sc_not]
      exact sub rz haz hbz
  refine ⟨_, hrun, install r nd rfl rfl (fun n hn => ?_) rt' (fun n hn => .inl ?_), by rw [sl_dr]; rfl, by rw [sl_lim]; rfl⟩
  · have := nodup_plug_disj nd hn
    rw [mem_mk, mem_mk] at this
    have ha : n ≠ a := fun hc => this (.inl hc)
    have hb : n ≠ b := fun hc => this (.inr (.inl (.inl hc)))
    exact ⟨hch n ha hb, hwt n ha hb⟩
  · simp only [mem_mk] at hn ⊢; tauto

/-- `rotate_3node`. -/
theorem rotate3_ok {h : TH} {fs : List Frame} {d : Bool} {a b e : Nat} {wa wb we : Option Bool} {x f g z : T} (third : Option Bool)
    (r : Rep h h.root (plug fs (mk d a wa (mk d b wb x (mk d e we f g)) z)))
    (nd : (plug fs (mk d a wa (mk d b wb x (mk d e we f g)) z)).ids.Nodup) :
    ∃ h', h.rotate3 (endLoc .root fs) d third = .ok h' ∧
      Rep h' h'.root (plug fs (mk d e none (mk d b (if third = some (!d) then some d else none) x f)
        (mk d a (if third = some d then some (!d) else none) g z))) ∧
      h'.dr = h.dr ∧ h'.lim = h.lim := by
  obtain ⟨pr, rt⟩ := (rep_plug (L := .root)).1 r
  have lv := lv_end pr
  obtain ⟨e1, va, e2, rab, rz⟩ := rep_mk.1 rt
  obtain ⟨e3, vb, e4, rx, re⟩ := rep_mk.1 rab
  obtain ⟨e5, ve, e6, rf, rg⟩ := rep_mk.1 re
  have nt := nodup_plug_sub nd
  obtain ⟨n1, n2, n3, n4, n5⟩ := nodup_mk.1 nt
  obtain ⟨m1, m2, m3, m4, m5⟩ := nodup_mk.1 n3
  obtain ⟨k1, k2, k3, k4, k5⟩ := nodup_mk.1 m4
  have hab : a ≠ b := fun hc => n1 (mem_mk.2 (.inl hc))
  have hae : a ≠ e := fun hc => n1 (mem_mk.2 (.inr (.inr (mem_mk.2 (.inl hc)))))
  have hbe : b ≠ e := fun hc => m2 (mem_mk.2 (.inl hc))
  have w1 : (if third ≠ none ∧ third ≠ some d then some d else none) = (if third = some (!d) then some d else none) := by
    rcases third with _ | (_ | _) <;> cases d <;> simp
  have w2 : (if third ≠ none ∧ third = some d then some (!d) else none) = (if third = some d then some (!d) else none) := by
    rcases third with _ | (_ | _) <;> cases d <;> simp
  generalize (if third = some (!d) then some d else none) = wb' at *
  generalize (if third = some d then some (!d) else none) = wa' at *
  let c1 : TH := (h.sw b wb').sc b (!d) (h.ch e d)
  let c2 : TH := (c1.sc e d b).sw a wa'
  let c3 : TH := (c2.sc a d (h.ch e (!d))).sc e (!d) a
  let h1 : TH := c3.sw e none
  have q1 : c1.ch e d = h.ch e d := sc_ne _ _ _ _ (Ne.symm hbe)
  have q2 : c2.ch e (!d) = h.ch e (!d) := by
    show (c1.sc e d b).ch e (!d) = _
    rw [sc_not]; exact sc_ne _ _ _ _ (Ne.symm hbe)
  have hrun : h.rotate3 (endLoc .root fs) d third = .ok (h1.sl (endLoc .root fs) e) := by
    unfold TH.rotate3
    rw [getL_ok lv, e1, w1, w2]
    simp only [bind, Except.bind, TH.child, TH.setChild, TH.setWeight, if_pos va, e3, if_pos vb, e5]
    rw [if_pos (show (h.sw b wb').valid e from ve)]
    simp only [sw_ch]
    rw [if_pos (show (h.sw b wb').valid b from vb)]
    simp only
    rw [if_pos (show ((h.sw b wb').sc b (!d) (h.ch e d)).valid e from ve)]
    simp only
    rw [if_pos (show (c1.sc e d b).valid a from va)]
    simp only
    rw [if_pos (show c2.valid e from ve)]
    simp only
    rw [if_pos (show c2.valid a from va)]
    simp only
    rw [if_pos (show (c2.sc a d (c2.ch e (!d))).valid e from ve), show (((c1.sc e d b).sw a wa').ch e (!d)) = h.ch e (!d) from q2]
    simp only
    rw [setL_ok (h := c3) (lv_congr (h := h) rfl lv)]
    simp only
    rw [if_pos, sw_sl]
    simp only [TH.valid, sl_lim]; exact ve
  have hch : ∀ n, n ≠ a → n ≠ b → n ≠ e → ∀ q, h1.ch n q = h.ch n q := fun n ha hb he q => by
    show ((c2.sc a d (h.ch e (!d))).sc e (!d) a).ch n q = _
    rw [sc_ne _ _ _ _ he, sc_ne _ _ _ _ ha]
    show (c1.sc e d b).ch n q = _
    rw [sc_ne _ _ _ _ he]
    exact sc_ne _ _ _ _ hb
  have hwt : ∀ n, n ≠ a → n ≠ b → n ≠ e → h1.wt n = h.wt n := fun n ha hb he => by
    show (c3.sw e none).wt n = _
    rw [sw_ne _ _ he]
    show ((c1.sc e d b).sw a wa').wt n = _
    rw [sw_ne _ _ ha]
    exact sw_ne _ _ hb
  have sub : ∀ {t : T} {p : Nat}, Rep h p t → a ∉ t.ids → b ∉ t.ids → e ∉ t.ids → Rep h1 p t := fun rt ha hb he =>
    rt.to (h1) rfl fun n hn => ⟨hch n (fun hc => ha (hc ▸ hn)) (fun hc => hb (hc ▸ hn)) (fun hc => he (hc ▸ hn)),
      hwt n (fun hc => ha (hc ▸ hn)) (fun hc => hb (hc ▸ hn)) (fun hc => he (hc ▸ hn))⟩
  have rt' : Rep h1 e (mk d e none (mk d b wb' x f) (mk d a wa' g z)) := by
    refine rep_mk.2 ⟨rfl, ve, sw_same _ _ _, rep_mk.2 ⟨?_, vb, ?_, ?_, ?_⟩, rep_mk.2 ⟨?_, va, ?_, ?_, ?_⟩⟩
    · show ((c2.sc a d (h.ch e (!d))).sc e (!d) a).ch e d = b
      rw [sc_not', sc_ne _ _ _ _ (Ne.symm hae)]
      exact sc_same _ _ _ _
    · show (c3.sw e none).wt b = _
      rw [sw_ne _ _ hbe]
      show ((c1.sc e d b).sw a wa').wt b = _
      rw [sw_ne _ _ (Ne.symm hab)]
      exact sw_same _ _ _
    · have : h1.ch b d = h.ch b d := by
        show ((c2.sc a d (h.ch e (!d))).sc e (!d) a).ch b d = _
        rw [sc_ne _ _ _ _ hbe, sc_ne _ _ _ _ (Ne.symm hab)]
        show (c1.sc e d b).ch b d = _
        rw [sc_ne _ _ _ _ hbe]
        exact sc_not' _ _ _
      rw [this]
      exact sub rx (fun hc => n1 (mem_mk.2 (.inr (.inl hc)))) m1 (fun hc => m5 e hc (mem_mk.2 (.inl rfl)))
    · have : h1.ch b (!d) = h.ch e d := by
        show ((c2.sc a d (h.ch e (!d))).sc e (!d) a).ch b (!d) = _
        rw [sc_ne _ _ _ _ hbe, sc_ne _ _ _ _ (Ne.symm hab)]
        show (c1.sc e d b).ch b (!d) = _
        rw [sc_ne _ _ _ _ hbe]
        exact sc_same _ _ _ _
      rw [this]
      exact sub rf (fun hc => n1 (by simp only [mem_mk]; tauto)) (fun hc => m2 (by simp only [mem_mk]; tauto)) k1
    · exact sc_same _ _ _ _
    · show (c3.sw e none).wt a = _
      rw [sw_ne _ _ hae]
      exact sw_same _ _ _
    · have : h1.ch a d = h.ch e (!d) := by
        show ((c2.sc a d (h.ch e (!d))).sc e (!d) a).ch a d = _
        rw [sc_ne _ _ _ _ hae, sc_same]
      rw [this]
      exact sub rg (fun hc => n1 (by simp only [mem_mk]; tauto)) (fun hc => m2 (by simp only [mem_mk]; tauto)) k2
    · have : h1.ch a (!d) = h.ch a (!d) := by
        show ((c2.sc a d (h.ch e (!d))).sc e (!d) a).ch a (!d) = _
        rw [sc_ne _ _ _ _ hae, sc_not]
        show (c1.sc e d b).ch a (!d) = _
        rw [sc_ne _ _ _ _ hae]
        exact sc_ne _ _ _ _ hab
      rw [this]
      exact sub rz n2 (n5 b (by simp only [mem_mk]; tauto)) (n5 e (by simp only [mem_mk]; tauto))
  refine ⟨_, hrun, install r nd rfl rfl (fun n hn => ?_) rt' (fun n hn => .inl ?_), by rw [sl_dr]; rfl, by rw [sl_lim]; rfl⟩
  · have := nodup_plug_disj nd hn
    simp only [mem_mk] at this
    have ha : n ≠ a := fun hc => this (by tauto)
    have hb : n ≠ b := fun hc => this (by tauto)
    have he : n ≠ e := fun hc => this (by tauto)
    exact ⟨hch n ha hb he, hwt n ha hb he⟩
  · simp only [mem_mk] at hn ⊢; tauto

/-- Writing the weight of the node at the end of a path. -/
theorem setWeight_ok {h : TH} {fs : List Frame} {d : Bool} {n : Nat} {w : Option Bool} {x y : T} (w' : Option Bool)
    (r : Rep h h.root (plug fs (mk d n w x y))) (nd : (plug fs (mk d n w x y)).ids.Nodup) :
    h.setWeight n w' = .ok (h.sw n w') ∧ Rep (h.sw n w') h.root (plug fs (mk d n w' x y)) := by
  obtain ⟨pr, rt⟩ := (rep_plug (L := .root)).1 r
  obtain ⟨e1, v, e2, rx, ry⟩ := rep_mk.1 rt
  obtain ⟨n1, n2, _, _, _⟩ := nodup_mk.1 (nodup_plug_sub nd)
  refine ⟨if_pos v, (rep_plug (h := h.sw n w') (L := .root)).2 ⟨pr.to (h.sw n w') rfl rfl fun m hm => ⟨fun _ => rfl, sw_ne _ _ ?_⟩,
    rep_mk.2 ⟨?_, v, sw_same _ _ _, rx.to (h.sw n w') rfl fun m hm => ⟨fun _ => rfl, sw_ne _ _ ?_⟩,
      ry.to (h.sw n w') rfl fun m hm => ⟨fun _ => rfl, sw_ne _ _ ?_⟩⟩⟩⟩
  · rintro rfl; exact nodup_plug_disj nd hm (mem_mk.2 (.inl rfl))
  · have : (h.sw n w').gl (endLoc .root fs) = h.gl (endLoc .root fs) := by cases endLoc .root fs <;> rfl
    rw [this]; exact e1
  · rintro rfl; exact n1 hm
  · rintro rfl; exact n2 hm

theorem Rep.sd {h : TH} {p : Nat} {t : T} (r : Rep h p t) (n w) : Rep (h.sd n w) p t := r.to (h.sd n w) rfl fun _ _ => ⟨fun _ => rfl, rfl⟩

end Etl.Tree
