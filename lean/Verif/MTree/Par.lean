import Verif.MTree.Model
import Verif.Tree.Remove

/-! # The parent pointers, and the rotations -/
namespace Etl.MTree
open Etl.Tree T

/-- The parent pointers of the tree `t`, whose root has the parent `q`. -/
def Par (par : Nat → Nat) : Nat → T → Prop
  | _, .nil => True
  | q, .node n _ c => par n = q ∧ ∀ d, Par par n (c d)

theorem par_mk {par : Nat → Nat} {q : Nat} {d n w x y} : Par par q (mk d n w x y) ↔ par n = q ∧ Par par n x ∧ Par par n y := by
  constructor
  · rintro ⟨h1, h2⟩
    exact ⟨h1, by simpa using h2 d, by simpa using h2 (!d)⟩
  · rintro ⟨h1, h2, h3⟩
    refine ⟨h1, fun e => ?_⟩
    rcases eq_or_not e d with rfl | rfl
    · simpa using h2
    · simpa using h3

theorem Par.congr {par par' : Nat → Nat} {t : T} : ∀ {q : Nat}, Par par q t → (∀ n ∈ t.ids, par' n = par n) → Par par' q t := by
  induction t with
  | nil => intros; trivial
  | node n w c ih =>
    intro q ⟨h1, h2⟩ hc
    refine ⟨by rw [hc n (mem_node n w c)]; exact h1, fun d => ih d (h2 d) fun m hm => hc m (mem_sub d hm)⟩

/-- The parent of the root is changed. -/
theorem Par.reroot {par par' : Nat → Nat} {t : T} {q q' : Nat} (h : Par par q t) (h1 : t ≠ .nil → par' t.rootId = q')
    (h2 : ∀ n ∈ t.ids, n ≠ t.rootId → par' n = par n) (nd : t.ids.Nodup) : Par par' q' t := by
  cases t with
  | nil => trivial
  | node n w c =>
    refine ⟨h1 (by simp), fun d => (h.2 d).congr fun m hm => h2 m (mem_sub d hm) ?_⟩
    rintro rfl
    rw [node_eq d, nodup_mk] at nd
    exact nd.1 hm

/-- The parent pointers along a path. -/
def PPar (par : Nat → Nat) : Nat → List Frame → Prop
  | _, [] => True
  | q, f :: fs => par f.n = q ∧ Par par f.n f.sib ∧ PPar par f.n fs

/-- The node at the end of a path, or `q`. -/
def lastD (q : Nat) : List Frame → Nat
  | [] => q
  | f :: fs => lastD f.n fs

theorem lastD_append (a b : List Frame) : ∀ q, lastD q (a ++ b) = lastD (lastD q a) b := by
  induction a with
  | nil => intro q; rfl
  | cons f a ih => intro q; exact ih f.n
theorem lastD_snoc (q : Nat) (a : List Frame) (f : Frame) : lastD q (a ++ [f]) = f.n := by rw [lastD_append]; rfl
theorem lastD_zero (fs : List Frame) : lastD 0 fs = lastn fs := by
  rcases List.eq_nil_or_concat fs with rfl | ⟨a, f, rfl⟩
  · rfl
  · rw [List.concat_eq_append, lastD_snoc, lastn_snoc]

theorem par_plug {par : Nat → Nat} {t : T} {fs : List Frame} : ∀ {q : Nat}, Par par q (plug fs t) ↔ PPar par q fs ∧ Par par (lastD q fs) t := by
  induction fs with
  | nil => intro q; exact ⟨fun h => ⟨trivial, h⟩, fun h => h.2⟩
  | cons f fs ih =>
    intro q
    show Par par q (mk f.d f.n f.w (plug fs t) f.sib) ↔ (par f.n = q ∧ Par par f.n f.sib ∧ PPar par f.n fs) ∧ Par par (lastD f.n fs) t
    rw [par_mk, ih]; tauto

theorem PPar.congr {par par' : Nat → Nat} {fs : List Frame} : ∀ {q : Nat}, PPar par q fs → (∀ n ∈ pids fs, par' n = par n) → PPar par' q fs := by
  induction fs with
  | nil => intros; trivial
  | cons f fs ih =>
    intro q ⟨h1, h2, h3⟩ hc
    exact ⟨by rw [hc _ (mem_pids_cons.2 (.inl rfl))]; exact h1, h2.congr fun m hm => hc m (mem_pids_cons.2 (.inr (.inl hm))),
      ih h3 fun m hm => hc m (mem_pids_cons.2 (.inr (.inr hm)))⟩

theorem ppar_append {par : Nat → Nat} {a b : List Frame} : ∀ {q : Nat}, PPar par q (a ++ b) ↔ PPar par q a ∧ PPar par (lastD q a) b := by
  induction a with
  | nil => intro q; exact ⟨fun h => ⟨trivial, h⟩, fun h => h.2⟩
  | cons f a ih =>
    intro q
    show (par f.n = q ∧ Par par f.n f.sib ∧ PPar par f.n (a ++ b)) ↔ (par f.n = q ∧ Par par f.n f.sib ∧ PPar par f.n a) ∧ PPar par (lastD f.n a) b
    rw [ih]; tauto

/-- The weights do not matter. -/
theorem par_w {par : Nat → Nat} {q : Nat} {d n w w' x y} (h : Par par q (mk d n w x y)) : Par par q (mk d n w' x y) := par_mk.2 (par_mk.1 h)

namespace MH

theorem setChild_ok {h : MH} {p : Nat} (v : h.t.valid p) (d : Bool) (c : Nat) : h.setChild p d c = .ok ⟨h.t.sc p d c, h.par⟩ := by
  simp only [setChild, TH.setChild, if_pos v, bind, Except.bind]
theorem setWeight_ok {h : MH} {p : Nat} (v : h.t.valid p) (w : Option Bool) : h.setWeight p w = .ok ⟨h.t.sw p w, h.par⟩ := by
  simp only [setWeight, TH.setWeight, if_pos v, bind, Except.bind]
theorem setDir_ok {h : MH} {p : Nat} (v : h.t.valid p) (w : Option Bool) : h.setDir p w = .ok ⟨h.t.sd p w, h.par⟩ := by
  simp only [setDir, TH.setDir, if_pos v, bind, Except.bind]
theorem setL_ok {h : MH} {L : Loc} (v : LV h.t L) (c : Nat) : h.setL L c = .ok ⟨h.t.sl L c, h.par⟩ := by
  simp only [setL, Etl.Tree.setL_ok v, bind, Except.bind]
theorem parent_ok {h : MH} {p : Nat} (v : h.t.valid p) : h.parent p = .ok (h.par p) := if_pos v
theorem setParent_ok {h : MH} {p : Nat} (v : h.t.valid p) (c : Nat) : h.setParent p c = .ok ⟨h.t, upd h.par p c⟩ := if_pos v
/-- What `setParentIf` does. -/
def updIf (par : Nat → Nat) (p v : Nat) : Nat → Nat := if p ≠ 0 then upd par p v else par
theorem setParentIf_ok {h : MH} {p : Nat} (v : p ≠ 0 → h.t.valid p) (c : Nat) : h.setParentIf p c = .ok ⟨h.t, updIf h.par p c⟩ := by
  unfold setParentIf updIf
  by_cases hp : p ≠ 0
  · rw [if_pos hp, if_pos hp, setParent_ok (v hp)]
  · rw [if_neg hp, if_neg hp]
theorem updIf_other {par : Nat → Nat} {p v q : Nat} (h : q ≠ p) : updIf par p v q = par q := by
  unfold updIf; split
  · exact upd_other _ _ h
  · rfl
theorem updIf_same {par : Nat → Nat} {p v : Nat} (h : p ≠ 0) : updIf par p v p = v := by
  unfold updIf; rw [if_pos h, upd_same]

theorem childOk {t : TH} {p : Nat} (v : t.valid p) (d : Bool) : t.child p d = .ok (t.ch p d) := if_pos v

end MH

theorem valid_child {h : TH} {p : Nat} {t : T} (r : Rep h p t) (hp : p ≠ 0) : h.valid p := r.valid_of_mem (r.mem_root hp)

/-- What the rotations do to the parent of the root of a moved subtree. -/
theorem par_moved {par par' : Nat → Nat} {h : TH} {p : Nat} {t : T} (r : Rep h p t) {q q' : Nat} (hp : Par par q t) (nd : t.ids.Nodup)
    (h1 : p ≠ 0 → par' p = q') (h2 : ∀ n ∈ t.ids, n ≠ p → par' n = par n) : Par par' q' t := by
  refine hp.reroot (fun hn => ?_) (fun n hn hc => h2 n hn ?_) nd
  · rw [← r.root_eq]; exact h1 (r.ne_zero.2 hn)
  · rw [r.root_eq]; exact hc

/-- `rotate_2node`. -/
theorem rotate2_ok {h : MH} {fs : List Frame} {d : Bool} {a b : Nat} {wa wb : Option Bool} {x y z : T}
    (r : Rep h.t h.t.root (plug fs (mk d a wa (mk d b wb x y) z))) (nd : (plug fs (mk d a wa (mk d b wb x y) z)).ids.Nodup)
    (hp : Par h.par 0 (plug fs (mk d a wa (mk d b wb x y) z))) :
    ∃ h', h.rotate2 (endLoc .root fs) d = .ok h' ∧ Rep h'.t h'.t.root (plug fs (mk d b none x (mk d a none y z))) ∧
      Par h'.par 0 (plug fs (mk d b none x (mk d a none y z))) ∧ h'.t.dr = upd h.t.dr b (some !d) ∧ h'.t.lim = h.t.lim := by
  obtain ⟨t', run, rep', hdr, hlim⟩ := Etl.Tree.rotate2_ok r nd
  obtain ⟨pr, rt⟩ := (rep_plug (L := .root)).1 r
  have lv := lv_end pr
  obtain ⟨e1, va, e2, rab, rz⟩ := rep_mk.1 rt
  obtain ⟨e3, vb, e4, rx, ry⟩ := rep_mk.1 rab
  have nt := nodup_plug_sub nd
  obtain ⟨n1, n2, n3, n4, n5⟩ := nodup_mk.1 nt
  obtain ⟨m1, m2, m3, m4, m5⟩ := nodup_mk.1 n3
  have hab : a ≠ b := fun hc => n1 (mem_mk.2 (.inl hc))
  have hbz : b ∉ z.ids := n5 b (mem_mk.2 (.inl rfl))
  have hax : a ∉ x.ids := fun hc => n1 (mem_mk.2 (.inr (.inl hc)))
  have hay : a ∉ y.ids := fun hc => n1 (mem_mk.2 (.inr (.inr hc)))
  obtain ⟨pp, pt⟩ := par_plug.1 hp
  obtain ⟨p1, p2, p3⟩ := par_mk.1 pt
  obtain ⟨p4, p5, p6⟩ := par_mk.1 p2
  let g := h.t.ch b (!d)
  have hg : g ≠ 0 → h.t.valid g := valid_child ry
  have hgy : g ≠ 0 → g ∈ y.ids := ry.mem_root
  have hga : a ≠ g := by
    rintro hc
    exact hay (hc ▸ hgy (fun h0 => by have := va.1; omega))
  have hgb : b ≠ g := by
    rintro hc
    exact m2 (hc ▸ hgy (fun h0 => by have := vb.1; omega))
  let par1 := upd (upd (MH.updIf h.par g a) b (lastD 0 fs)) a b
  have hrun : h.rotate2 (endLoc .root fs) d = .ok ⟨t'.sd b (some !d), par1⟩ := by
    unfold MH.rotate2
    rw [getL_ok lv, e1]
    simp only [bind, Except.bind]
    rw [MH.childOk va, e3]
    simp only
    rw [MH.childOk vb]
    simp only
    rw [MH.setChild_ok va]
    simp only
    rw [MH.childOk (show (h.t.sc a d (h.t.ch b (!d))).valid a from va), sc_same]
    simp only
    rw [MH.setParentIf_ok (h := ⟨h.t.sc a d (h.t.ch b (!d)), h.par⟩) hg]
    simp only
    rw [MH.parent_ok (h := ⟨h.t.sc a d (h.t.ch b (!d)), MH.updIf h.par g a⟩) va]
    simp only
    rw [show MH.updIf h.par g a a = lastD 0 fs from by rw [MH.updIf_other hga]; exact p1]
    rw [MH.setParent_ok (h := ⟨h.t.sc a d (h.t.ch b (!d)), MH.updIf h.par g a⟩) vb]
    simp only
    rw [MH.setChild_ok (h := ⟨h.t.sc a d (h.t.ch b (!d)), _⟩) vb]
    simp only
    rw [MH.setDir_ok (h := ⟨(h.t.sc a d (h.t.ch b (!d))).sc b (!d) a, _⟩) vb]
    simp only
    rw [MH.setWeight_ok (h := ⟨((h.t.sc a d (h.t.ch b (!d))).sc b (!d) a).sd b (some !d), _⟩) va]
    simp only
    rw [MH.setParent_ok (h := ⟨(((h.t.sc a d (h.t.ch b (!d))).sc b (!d) a).sd b (some !d)).sw a none, _⟩) va]
    simp only
    rw [MH.setL_ok (h := ⟨(((h.t.sc a d (h.t.ch b (!d))).sc b (!d) a).sd b (some !d)).sw a none, _⟩) (lv_congr (h := h.t) rfl lv)]
    simp only
    rw [MH.setWeight_ok (by simp only [TH.valid, sl_lim]; exact vb)]
    unfold TH.rotate2 at run
    rw [getL_ok lv, e1] at run
    simp only [bind, Except.bind, TH.child, TH.setChild, TH.setWeight, if_pos va, e3, if_pos vb] at run
    rw [if_pos (show (h.t.sc a d (h.t.ch b (!d))).valid b from vb)] at run
    simp only at run
    rw [if_pos (show ((h.t.sc a d (h.t.ch b (!d))).sc b (!d) a).valid a from va)] at run
    simp only at run
    rw [Etl.Tree.setL_ok (h := (((h.t.sc a d (h.t.ch b (!d))).sc b (!d) a).sw a none)) (lv_congr rfl lv)] at run
    simp only at run
    rw [if_pos (by simp only [TH.valid, sl_lim]; exact vb)] at run
    injection run with run
    rw [← run]
    cases endLoc Loc.root fs <;> rfl
  refine ⟨_, hrun, rep'.sd _ _, par_plug.2 ⟨pp.congr fun n hn => ?_, par_mk.2 ⟨?_, ?_, par_mk.2 ⟨upd_same _ _ _, ?_, ?_⟩⟩⟩, ?_, hlim⟩
  · have hd := nodup_plug_disj nd hn
    have ha : n ≠ a := fun hc => hd (mem_mk.2 (.inl hc))
    have hb : n ≠ b := fun hc => hd (by simp only [mem_mk]; exact .inr (.inl (.inl hc)))
    have hgn : n ≠ g := by
      intro hc
      have : n ≠ 0 := by have := (pr.valid_of_mem hn).1; omega
      exact hd (by simp only [mem_mk]; exact .inr (.inl (.inr (.inr (hc ▸ hgy (hc ▸ this))))))
    show upd (upd (MH.updIf h.par g a) b _) a b n = _
    rw [upd_other _ _ ha, upd_other _ _ hb, MH.updIf_other hgn]
  · show upd (upd (MH.updIf h.par g a) b _) a b b = _
    rw [upd_other _ _ (Ne.symm hab), upd_same]
  · refine p5.congr fun n hn => ?_
    have ha : n ≠ a := fun hc => hax (hc ▸ hn)
    have hb : n ≠ b := fun hc => m1 (hc ▸ hn)
    have hgn : n ≠ g := fun hc => m5 n hn (hc ▸ hgy (hc ▸ by have := (rx.valid_of_mem hn).1; omega))
    show upd (upd (MH.updIf h.par g a) b _) a b n = _
    rw [upd_other _ _ ha, upd_other _ _ hb, MH.updIf_other hgn]
  · refine par_moved ry p6 m4 (fun hg0 => ?_) (fun n hn hng => ?_)
    · show upd (upd (MH.updIf h.par g a) b _) a b g = _
      rw [upd_other _ _ (Ne.symm hga), upd_other _ _ (Ne.symm hgb), MH.updIf_same hg0]
    · show upd (upd (MH.updIf h.par g a) b _) a b n = _
      rw [upd_other _ _ (by rintro rfl; exact hay hn), upd_other _ _ (by rintro rfl; exact m2 hn), MH.updIf_other hng]
  · refine p3.congr fun n hn => ?_
    have hgn : n ≠ g := fun hc => n5 g (by simp only [mem_mk]; exact .inr (.inr (hgy (hc ▸ by have := (rz.valid_of_mem hn).1; omega)))) (hc ▸ hn)
    show upd (upd (MH.updIf h.par g a) b _) a b n = _
    rw [upd_other _ _ (by rintro rfl; exact n2 hn), upd_other _ _ (by rintro rfl; exact hbz hn), MH.updIf_other hgn]
  · show upd t'.dr b _ = _
    rw [hdr]

/-- The assignments of `rotate_3node`. -/
theorem rotate3_run {h : MH} {L : Loc} {d : Bool} {a b e q : Nat} {third wa' wb' : Option Bool} {t' : TH} (lv : LV h.t L) (e1 : h.t.gl L = a)
    (va : h.t.valid a) (vb : h.t.valid b) (ve : h.t.valid e) (e3 : h.t.ch a d = b) (e5 : h.t.ch b (!d) = e) (hF : h.t.ch e d ≠ 0 → h.t.valid (h.t.ch e d))
    (hG : h.t.ch e (!d) ≠ 0 → h.t.valid (h.t.ch e (!d))) (hae : a ≠ e) (hbe : b ≠ e)
    (w1 : (if third ≠ none ∧ third ≠ some d then some d else none) = wb')
    (w2 : (if third ≠ none ∧ third = some d then some (!d) else none) = wa')
    (hpa : MH.updIf (upd (MH.updIf h.par (h.t.ch e d) b) b e) (h.t.ch e (!d)) a a = q) (run : h.t.rotate3 L d third = .ok t') :
    h.rotate3 L d third = .ok ⟨t'.sd e (some !d), upd (upd (MH.updIf (upd (MH.updIf h.par (h.t.ch e d) b) b e) (h.t.ch e (!d)) a) e q) a e⟩ := by
  let par0 := MH.updIf (upd (MH.updIf h.par (h.t.ch e d) b) b e) (h.t.ch e (!d)) a
  let c1 : TH := (h.t.sw b wb').sc b (!d) (h.t.ch e d)
  let c2 : TH := (c1.sc e d b).sw a wa'
  let c3 : TH := (c2.sc a d (h.t.ch e (!d))).sc e (!d) a
  have q1 : c1.ch e d = h.t.ch e d := sc_ne _ _ _ _ (Ne.symm hbe)
  have q2 : c2.ch e (!d) = h.t.ch e (!d) := by
    show (c1.sc e d b).ch e (!d) = _
    rw [sc_not]; exact sc_ne _ _ _ _ (Ne.symm hbe)
  have q3 : (c2.sc a d (h.t.ch e (!d))).ch e (!d) = h.t.ch e (!d) := by
    rw [sc_ne _ _ _ _ (Ne.symm hae)]; exact q2
  unfold MH.rotate3
  rw [getL_ok lv, e1, w1, w2]
  simp only [bind, Except.bind]
  rw [MH.childOk va, e3]
  simp only
  rw [MH.childOk vb, e5]
  simp only
  rw [MH.setWeight_ok vb]
  simp only
  rw [MH.childOk (show (h.t.sw b wb').valid e from ve)]
  simp only [sw_ch]
  rw [MH.setChild_ok (h := ⟨h.t.sw b wb', h.par⟩) vb]
  simp only
  rw [MH.childOk (show c1.valid e from ve), q1]
  simp only
  rw [MH.setParentIf_ok (h := ⟨c1, h.par⟩) hF]
  simp only
  rw [MH.setChild_ok (h := ⟨c1, MH.updIf h.par (h.t.ch e d) b⟩) ve]
  simp only
  rw [MH.setParent_ok (h := ⟨c1.sc e d b, MH.updIf h.par (h.t.ch e d) b⟩) vb]
  simp only
  rw [MH.setWeight_ok (h := ⟨c1.sc e d b, upd (MH.updIf h.par (h.t.ch e d) b) b e⟩) va]
  simp only
  rw [MH.childOk (show c2.valid e from ve), q2]
  simp only
  rw [MH.setChild_ok (h := ⟨c2, upd (MH.updIf h.par (h.t.ch e d) b) b e⟩) va]
  simp only
  rw [MH.childOk (show (c2.sc a d (h.t.ch e (!d))).valid e from ve), q3]
  simp only
  rw [MH.setParentIf_ok (h := ⟨c2.sc a d (h.t.ch e (!d)), upd (MH.updIf h.par (h.t.ch e d) b) b e⟩) hG]
  simp only
  rw [MH.parent_ok (h := ⟨c2.sc a d (h.t.ch e (!d)), par0⟩) va]
  simp only
  rw [show par0 a = q from hpa, MH.setParent_ok (h := ⟨c2.sc a d (h.t.ch e (!d)), par0⟩) ve]
  simp only
  rw [MH.setChild_ok (h := ⟨c2.sc a d (h.t.ch e (!d)), _⟩) ve]
  simp only
  rw [MH.setDir_ok (h := ⟨c3, _⟩) ve]
  simp only
  rw [MH.setParent_ok (h := ⟨c3.sd e (some !d), _⟩) va]
  simp only
  rw [MH.setL_ok (h := ⟨c3.sd e (some !d), _⟩) (lv_congr (h := h.t) rfl lv)]
  simp only
  rw [MH.setWeight_ok (by simp only [TH.valid, sl_lim]; exact ve)]
  unfold TH.rotate3 at run
  rw [getL_ok lv, e1, w1, w2] at run
  simp only [bind, Except.bind, TH.child, TH.setChild, TH.setWeight, if_pos va, e3, if_pos vb, e5] at run
  rw [if_pos (show (h.t.sw b wb').valid e from ve)] at run
  simp only [sw_ch] at run
  rw [if_pos (show (h.t.sw b wb').valid b from vb)] at run
  simp only at run
  rw [if_pos (show ((h.t.sw b wb').sc b (!d) (h.t.ch e d)).valid e from ve)] at run
  simp only at run
  rw [if_pos (show (c1.sc e d b).valid a from va)] at run
  simp only at run
  rw [if_pos (show c2.valid e from ve)] at run
  simp only at run
  rw [if_pos (show c2.valid a from va)] at run
  simp only at run
  rw [if_pos (show (c2.sc a d (c2.ch e (!d))).valid e from ve), show (((c1.sc e d b).sw a wa').ch e (!d)) = h.t.ch e (!d) from q2] at run
  simp only at run
  rw [Etl.Tree.setL_ok (h := c3) (lv_congr (h := h.t) rfl lv)] at run
  simp only at run
  rw [if_pos (by simp only [TH.valid, sl_lim]; exact ve)] at run
  injection run with run
  rw [← run]
  cases L <;> rfl

/-- `rotate_3node`. -/
theorem rotate3_ok {h : MH} {fs : List Frame} {d : Bool} {a b e : Nat} {wa wb we : Option Bool} {x f g z : T} (third : Option Bool)
    (r : Rep h.t h.t.root (plug fs (mk d a wa (mk d b wb x (mk d e we f g)) z)))
    (nd : (plug fs (mk d a wa (mk d b wb x (mk d e we f g)) z)).ids.Nodup)
    (hp : Par h.par 0 (plug fs (mk d a wa (mk d b wb x (mk d e we f g)) z))) :
    ∃ h', h.rotate3 (endLoc .root fs) d third = .ok h' ∧
      Rep h'.t h'.t.root (plug fs (mk d e none (mk d b (if third = some (!d) then some d else none) x f)
        (mk d a (if third = some d then some (!d) else none) g z))) ∧
      Par h'.par 0 (plug fs (mk d e none (mk d b (if third = some (!d) then some d else none) x f)
        (mk d a (if third = some d then some (!d) else none) g z))) ∧
      h'.t.dr = upd h.t.dr e (some !d) ∧ h'.t.lim = h.t.lim := by
  obtain ⟨t', run, rep', hdr, hlim⟩ := Etl.Tree.rotate3_ok third r nd
  obtain ⟨pr, rt⟩ := (rep_plug (L := .root)).1 r
  have lv := lv_end pr
  obtain ⟨e1, va, e2, rab, rz⟩ := rep_mk.1 rt
  obtain ⟨e3, vb, e4, rx, re⟩ := rep_mk.1 rab
  obtain ⟨e5, ve, e6, rf, rg⟩ := rep_mk.1 re
  have nt := nodup_plug_sub nd
  obtain ⟨n1, n2, n3, n4, n5⟩ := nodup_mk.1 nt
  obtain ⟨m1, m2, m3, m4, m5⟩ := nodup_mk.1 n3
  obtain ⟨k1, k2, k3, k4, k5⟩ := nodup_mk.1 m4
  have hab : a ≠ b := fun hc => n1 (mem_mk.2 (.inl hc))
  have hae : a ≠ e := fun hc => n1 (mem_mk.2 (.inr (.inr (mem_mk.2 (.inl hc)))))
  have hbe : b ≠ e := fun hc => m2 (mem_mk.2 (.inl hc))
  obtain ⟨pp, pt⟩ := par_plug.1 hp
  obtain ⟨p1, p2, p3⟩ := par_mk.1 pt
  obtain ⟨p4, p5, p6⟩ := par_mk.1 p2
  obtain ⟨p7, p8, p9⟩ := par_mk.1 p6
  have w1 : (if third ≠ none ∧ third ≠ some d then some d else none) = (if third = some (!d) then some d else none) := by
    rcases third with _ | (_ | _) <;> cases d <;> simp
  have w2 : (if third ≠ none ∧ third = some d then some (!d) else none) = (if third = some d then some (!d) else none) := by
    rcases third with _ | (_ | _) <;> cases d <;> simp
  generalize hwb : (if third = some (!d) then some d else none) = wb' at *
  generalize hwa : (if third = some d then some (!d) else none) = wa' at *
  obtain ⟨F, hFd⟩ : ∃ F, h.t.ch e d = F := ⟨_, rfl⟩
  obtain ⟨G, hGd⟩ : ∃ G, h.t.ch e (!d) = G := ⟨_, rfl⟩
  rw [hFd] at rf
  rw [hGd] at rg
  have hF : F ≠ 0 → h.t.valid F := valid_child rf
  have hG : G ≠ 0 → h.t.valid G := valid_child rg
  have hFm : F ≠ 0 → F ∈ f.ids := rf.mem_root
  have hGm : G ≠ 0 → G ∈ g.ids := rg.mem_root
  have haf : a ∉ f.ids := fun hc => n1 (mem_mk.2 (.inr (.inr (mem_mk.2 (.inr (.inl hc))))))
  have hag : a ∉ g.ids := fun hc => n1 (mem_mk.2 (.inr (.inr (mem_mk.2 (.inr (.inr hc))))))
  have hbf : b ∉ f.ids := fun hc => m2 (mem_mk.2 (.inr (.inl hc)))
  have hbg : b ∉ g.ids := fun hc => m2 (mem_mk.2 (.inr (.inr hc)))
  -- `F` and `G` are not equal to any node outside of their subtrees
  have neF : ∀ n, n ≠ 0 → n ∉ f.ids → n ≠ F := fun n h0 hn hc => hn (hc ▸ hFm (hc ▸ h0))
  have neG : ∀ n, n ≠ 0 → n ∉ g.ids → n ≠ G := fun n h0 hn hc => hn (hc ▸ hGm (hc ▸ h0))
  have ha0 : a ≠ 0 := by have := va.1; omega
  have hb0 : b ≠ 0 := by have := vb.1; omega
  have he0 : e ≠ 0 := by have := ve.1; omega
  obtain ⟨par0, hp0⟩ : ∃ p, MH.updIf (upd (MH.updIf h.par F b) b e) G a = p := ⟨_, rfl⟩
  obtain ⟨par1, hp1⟩ : ∃ p, upd (upd par0 e (lastD 0 fs)) a e = p := ⟨_, rfl⟩
  have hpa : par0 a = lastD 0 fs := by
    rw [← hp0, MH.updIf_other (neG a ha0 hag), upd_other _ _ hab, MH.updIf_other (neF a ha0 haf)]; exact p1
  have other : ∀ n, n ≠ a → n ≠ b → n ≠ e → n ≠ F → n ≠ G → par1 n = h.par n := by
    intro n ha hb he hF hG
    rw [← hp1, upd_other _ _ ha, upd_other _ _ he, ← hp0, MH.updIf_other hG, upd_other _ _ hb, MH.updIf_other hF]
  have hrun := rotate3_run (q := lastD 0 fs) lv e1 va vb ve e3 e5 (by rw [hFd]; exact hF) (by rw [hGd]; exact hG) hae hbe w1 w2 (by rw [hFd, hGd, hp0]; exact hpa) run
  rw [hFd, hGd, hp0, hp1] at hrun
  refine ⟨_, hrun, rep'.sd _ _, par_plug.2 ⟨pp.congr fun n hn => ?_, par_mk.2 ⟨?_, par_mk.2 ⟨?_, ?_, ?_⟩, par_mk.2 ⟨by show par1 a = e; rw [← hp1, upd_same], ?_, ?_⟩⟩⟩, ?_, hlim⟩
  · have hd := nodup_plug_disj nd hn
    simp only [mem_mk] at hd
    have h0 : n ≠ 0 := by have := (pr.valid_of_mem hn).1; omega
    exact other n (fun hc => hd (.inl hc)) (fun hc => hd (.inr (.inl (.inl hc)))) (fun hc => hd (.inr (.inl (.inr (.inr (.inl hc))))))
      (neF n h0 (fun hc => hd (.inr (.inl (.inr (.inr (.inr (.inl hc)))))))) (neG n h0 (fun hc => hd (.inr (.inl (.inr (.inr (.inr (.inr hc))))))))
  · show par1 e = _
    rw [← hp1, upd_other _ _ (Ne.symm hae), upd_same]
  · show par1 b = _
    rw [← hp1, upd_other _ _ (Ne.symm hab), upd_other _ _ hbe, ← hp0, MH.updIf_other (neG b hb0 hbg), upd_same]
  · refine p5.congr fun n hn => ?_
    have h0 : n ≠ 0 := by have := (rx.valid_of_mem hn).1; omega
    have hd := m5 n hn
    simp only [mem_mk] at hd
    exact other n (by rintro rfl; exact n1 (mem_mk.2 (.inr (.inl hn)))) (by rintro rfl; exact m1 hn) (fun hc => hd (.inl hc))
      (neF n h0 (fun hc => hd (.inr (.inl hc)))) (neG n h0 (fun hc => hd (.inr (.inr hc))))
  · refine par_moved rf p8 k3 (fun hg0 => ?_) (fun n hn hng => ?_)
    · have hm := hFm hg0
      show par1 F = _
      rw [← hp1, upd_other _ _ (by intro hc; exact haf (hc ▸ hm)), upd_other _ _ (by intro hc; exact k1 (hc ▸ hm)), ← hp0, MH.updIf_other (neG F hg0 (k5 F hm)), upd_other _ _ (by intro hc; exact hbf (hc ▸ hm)), MH.updIf_same hg0]
    · have h0 : n ≠ 0 := by have := (rf.valid_of_mem hn).1; omega
      exact other n (by rintro rfl; exact haf hn) (by rintro rfl; exact hbf hn) (by rintro rfl; exact k1 hn) hng (neG n h0 (k5 n hn))
  · refine par_moved rg p9 k4 (fun hg0 => ?_) (fun n hn hng => ?_)
    · have hm := hGm hg0
      show par1 G = _
      rw [← hp1, upd_other _ _ (by intro hc; exact hag (hc ▸ hm)), upd_other _ _ (by intro hc; exact k2 (hc ▸ hm))]
      rw [← hp0]; exact MH.updIf_same hg0
    · have h0 : n ≠ 0 := by have := (rg.valid_of_mem hn).1; omega
      exact other n (by rintro rfl; exact hag hn) (by rintro rfl; exact hbg hn) (by rintro rfl; exact k2 hn) (neF n h0 (fun hc => k5 n hc hn)) hng
  · refine p3.congr fun n hn => ?_
    have h0 : n ≠ 0 := by have := (rz.valid_of_mem hn).1; omega
    have hd : n ∉ (mk d b wb x (mk d e we f g)).ids := fun hc => n5 n hc hn
    simp only [mem_mk] at hd
    exact other n (by rintro rfl; exact n2 hn) (fun hc => hd (.inl hc)) (fun hc => hd (.inr (.inr (.inl hc))))
      (neF n h0 (fun hc => hd (.inr (.inr (.inr (.inl hc)))))) (neG n h0 (fun hc => hd (.inr (.inr (.inr (.inr hc))))))
  · show upd t'.dr e _ = _
    rw [hdr]

end Etl.MTree
