import Verif.MTree.Rebal

/-! # `detach_node` -/
namespace Etl.MTree
open Etl.Tree T

/-- `detach_node` when the replacement node is not the node removed. -/
theorem detach_ok {h : MH} {A B : List Frame} {a : Frame} {rd : Bool} {rn : Nat} {wr : Option Bool} {y : T}
    (r : Rep h.t h.t.root (plug (A ++ a :: B) (mk rd rn wr .nil y))) (nd : (plug (A ++ a :: B) (mk rd rn wr .nil y)).ids.Nodup)
    (hp : Par h.par 0 (plug (A ++ a :: B) (mk rd rn wr .nil y))) (hd : h.t.dr rn = some rd) :
    ∃ h', h.detachNode (endLoc .root A) (endLoc .root (A ++ a :: B)) = .ok h' ∧
      Rep h'.t h'.t.root (plug (A ++ { a with n := rn } :: B) y) ∧ Par h'.par 0 (plug (A ++ { a with n := rn } :: B) y) ∧ h'.t.lim = h.t.lim := by
  obtain ⟨t', run, rep', lim'⟩ := Etl.Tree.detach_ok r nd hd
  obtain ⟨pr, rt⟩ := (rep_plug (L := .root)).1 r
  obtain ⟨e1, vr, e2, e3, ry⟩ := rep_mk.1 rt
  obtain ⟨prA, prB⟩ := prep_append.1 pr
  obtain ⟨f1, va, f3, rsib, prB⟩ := prB
  have lvA := lv_end prA
  have lvB := lv_end pr
  obtain ⟨g1, g2, g3, g4, g5⟩ := rep_frame rep'
  have g4 : Rep t' (t'.ch rn a.d) (plug B y) := g4
  have g5 : Rep t' (t'.ch rn (!a.d)) a.sib := g5
  rw [plug_append] at nd
  obtain ⟨n1, n2, n3, n4, n5⟩ := nodup_fplug.1 (nodup_plug_sub nd)
  obtain ⟨m1, m2, m3, m4, m5⟩ := nodup_mk.1 (nodup_plug_sub n3)
  have hAll : ∀ m, m ∈ pids A → m ≠ rn ∧ m ∉ (plug B y).ids ∧ m ∉ y.ids ∧ m ∉ a.sib.ids := by
    intro m hm
    have := nodup_plug_disj nd hm
    simp only [plug, Frame.plug, mem_mk, mem_plug] at this ⊢
    exact ⟨fun h => this (.inr (.inl (.inr (.inl h)))), fun h => h.elim (fun h => this (.inr (.inl (.inl h))))
      (fun h => this (.inr (.inl (.inr (.inr (.inr h)))))), fun h => this (.inr (.inl (.inr (.inr (.inr h))))), fun h => this (.inr (.inr h))⟩
  have har : a.n ≠ rn := fun hc => n1 (mem_plug.2 (.inr (mem_mk.2 (.inl hc))))
  have hrB : rn ∉ pids B := fun hc => nodup_plug_disj n3 hc (mem_mk.2 (.inl rfl))
  have hyB : ∀ m, m ∈ y.ids → m ∉ pids B := fun m hm hc => nodup_plug_disj n3 hc (mem_mk.2 (.inr (.inr hm)))
  have hry : rn ∉ y.ids := m2
  have hrs : rn ∉ a.sib.ids := n5 rn (mem_plug.2 (.inr (mem_mk.2 (.inl rfl))))
  have hys : ∀ m, m ∈ (plug B y).ids → m ∉ a.sib.ids := fun m hm => n5 m (by
    rcases mem_plug.1 hm with h | h
    · exact mem_plug.2 (.inl h)
    · exact mem_plug.2 (.inr (mem_mk.2 (.inr (.inr h)))))
  have hay : a.n ∉ y.ids := fun hc => n1 (mem_plug.2 (.inr (mem_mk.2 (.inr (.inr hc)))))
  have hrA : rn ∉ pids A := fun hc => (hAll _ hc).1 rfl
  have hrBy : rn ∉ (plug B y).ids := fun hc => (mem_plug.1 hc).elim hrB hry
  obtain ⟨x, hx⟩ : ∃ x, h.t.ch rn (!rd) = x := ⟨_, rfl⟩
  rw [hx] at ry
  have hv : ∀ {m}, t'.valid m → h.t.valid m := fun hv => by simp only [TH.valid, lim'] at hv ⊢; exact hv
  have vc : ∀ d, t'.ch rn d ≠ 0 → h.t.valid (t'.ch rn d) := by
    intro d h0
    rcases eq_or_not d a.d with rfl | rfl
    · exact hv (valid_child g4 h0)
    · exact hv (valid_child g5 h0)
  have run' := detach_run lvA lvB f1 e1 va vr hd (sl_ch fun d he => hrA (end_mem he)) (by rw [hx]; exact valid_child ry) run vc
  rw [hx] at run'
  obtain ⟨p1, hp1⟩ : ∃ p, MH.updIf h.par x (h.par rn) = p := ⟨_, rfl⟩
  obtain ⟨p4, hp4⟩ : ∃ p, MH.updIf (MH.updIf (upd p1 rn (p1 a.n)) (t'.ch rn false) rn) (t'.ch rn true) rn = p := ⟨_, rfl⟩
  rw [hp1, hp4] at run'
  refine ⟨_, run', rep', ?_, lim'⟩
  -- the values of the parent pointers
  have v1 : ∀ m, m ∉ y.ids → p1 m = h.par m := by
    intro m hm
    rw [← hp1]
    by_cases h0 : x ≠ 0
    · exact MH.updIf_other fun hc => hm (hc ▸ ry.mem_root h0)
    · unfold MH.updIf; rw [if_neg h0]
  have v1x : x ≠ 0 → p1 x = h.par rn := fun h0 => by rw [← hp1]; exact MH.updIf_same h0
  have v1y : ∀ m ∈ y.ids, m ≠ x → p1 m = h.par m := fun m _ hne => by rw [← hp1]; exact MH.updIf_other hne
  have v4 : ∀ m, m ≠ rn → m ≠ t'.ch rn false → m ≠ t'.ch rn true → p4 m = p1 m := by
    intro m q1 q2 q3
    rw [← hp4, MH.updIf_other q3, MH.updIf_other q2, upd_other _ _ q1]
  have v4c : ∀ d, t'.ch rn d ≠ 0 → p4 (t'.ch rn d) = rn := by
    intro d h0
    rw [← hp4]
    cases d
    · by_cases hc : t'.ch rn false = t'.ch rn true
      · rw [hc]; exact MH.updIf_same (hc ▸ h0)
      · rw [MH.updIf_other hc]; exact MH.updIf_same h0
    · exact MH.updIf_same h0
  have hc0 : ∀ d, t'.ch rn d ≠ 0 → t'.ch rn d ∈ (plug B y).ids ∨ t'.ch rn d ∈ a.sib.ids := by
    intro d h0
    rcases eq_or_not d a.d with rfl | rfl
    · exact .inl (g4.mem_root h0)
    · exact .inr (g5.mem_root h0)
  have hne : ∀ m d, m ≠ 0 → m ∉ (plug B y).ids → m ∉ a.sib.ids → m ≠ t'.ch rn d := by
    intro m d h0 q1 q2 hc
    rcases hc0 d (hc ▸ h0) with h | h
    · exact q1 (hc ▸ h)
    · exact q2 (hc ▸ h)
  have hrn0 : rn ≠ 0 := by have := vr.1; omega
  have v4r : p4 rn = h.par a.n := by
    rw [← hp4, MH.updIf_other (hne _ _ hrn0 hrBy hrs), MH.updIf_other (hne _ _ hrn0 hrBy hrs), upd_same, v1 _ hay]
  -- the tree
  obtain ⟨k1, k2⟩ := par_plug.1 hp
  obtain ⟨kA, k3, k4, kB⟩ := ppar_append.1 k1
  obtain ⟨k5, _, k6⟩ := par_mk.1 k2
  rw [lastD_append] at k2 k5
  have k5 : h.par rn = lastD a.n B := k5
  have kBy : Par p1 a.n (plug B y) := by
    refine par_plug.2 ⟨kB.congr fun m hm => v1 m fun hc => hyB m hc hm, ?_⟩
    exact par_moved ry k6 m4 (fun h0 => by rw [v1x h0, k5]) v1y
  have kBy' : Par p4 rn (plug B y) := by
    have ndB : (plug B y).ids.Nodup := nodup_plug_swap n3 m4 fun m hm => .inl (mem_mk.2 (.inr (.inr hm)))
    refine par_moved g4 kBy ndB (v4c _) fun m hm hmc => v4 m (by rintro rfl; exact hrBy hm) ?_ ?_
    all_goals
      intro hc
      have h0 : m ≠ 0 := by have := (g4.valid_of_mem hm).1; omega
    · rcases eq_or_not false a.d with e | e
      · rw [← e] at hmc; exact hmc hc
      · rw [← e] at g5; exact hys m hm (hc ▸ g5.mem_root (hc ▸ h0))
    · rcases eq_or_not true a.d with e | e
      · rw [← e] at hmc; exact hmc hc
      · rw [← e] at g5; exact hys m hm (hc ▸ g5.mem_root (hc ▸ h0))
  have ks : Par p4 rn a.sib := by
    refine par_moved g5 k4 n4 (v4c _) fun m hm hmc => ?_
    have h0 : m ≠ 0 := by have := (g5.valid_of_mem hm).1; omega
    have hmy : m ∉ (plug B y).ids := fun hc => hys m hc hm
    rw [v4 m (by rintro rfl; exact hrs hm) ?_ ?_, v1 _ fun hc => hmy (mem_plug.2 (.inr hc))]
    all_goals intro hc
    · rcases eq_or_not false a.d with e | e
      · rw [← e] at g4; exact hmy (hc ▸ g4.mem_root (hc ▸ h0))
      · rw [← e] at hmc; exact hmc hc
    · rcases eq_or_not true a.d with e | e
      · rw [← e] at g4; exact hmy (hc ▸ g4.mem_root (hc ▸ h0))
      · rw [← e] at hmc; exact hmc hc
  rw [plug_append]
  refine par_plug.2 ⟨kA.congr fun m hm => ?_, par_mk.2 ⟨by show p4 rn = _; rw [v4r]; exact k3, kBy', ks⟩⟩
  obtain ⟨q1, q2, q3, q4⟩ := hAll m hm
  have h0 : m ≠ 0 := by have := (prA.valid_of_mem hm).1; omega
  show p4 m = _
  rw [v4 m q1 (hne _ _ h0 q2 q4) (hne _ _ h0 q2 q4), v1 _ q3]

/-- `detach_node` when the node removed is its own replacement: a leaf. -/
theorem detach_self {h : MH} {A : List Frame} {rd : Bool} {rn : Nat} {wr : Option Bool}
    (r : Rep h.t h.t.root (plug A (mk rd rn wr .nil .nil))) (nd : (plug A (mk rd rn wr .nil .nil)).ids.Nodup)
    (hp : Par h.par 0 (plug A (mk rd rn wr .nil .nil))) (hd : h.t.dr rn = some rd) :
    ∃ h', h.detachNode (endLoc .root A) (endLoc .root A) = .ok h' ∧
      Rep h'.t h'.t.root (plug A .nil) ∧ Par h'.par 0 (plug A .nil) ∧ h'.t.lim = h.t.lim := by
  obtain ⟨t', run, rep', lim', hch⟩ := Etl.Tree.detach_self r nd hd
  obtain ⟨pr, rt⟩ := (rep_plug (L := .root)).1 r
  obtain ⟨e1, vr, e2, e3, e4⟩ := rep_mk.1 rt
  have e3 : h.t.ch rn rd = 0 := e3
  have e4 : h.t.ch rn (!rd) = 0 := e4
  have lvA := lv_end pr
  have hrA : rn ∉ pids A := fun hc => nodup_plug_disj nd hc (mem_mk.2 (.inl rfl))
  have hz : ∀ d, t'.ch rn d = 0 := by
    intro d
    rw [hch]
    rcases eq_or_not d rd with rfl | rfl
    · exact e3
    · exact e4
  have run' := detach_run lvA lvA e1 e1 vr vr hd (sl_ch fun d he => hrA (end_mem he)) (fun h0 => absurd e4 h0) run (fun d h0 => absurd (hz d) h0)
  refine ⟨_, run', rep', ?_, lim'⟩
  obtain ⟨k1, k2⟩ := par_plug.1 hp
  refine par_plug.2 ⟨k1.congr fun m hm => ?_, trivial⟩
  have hz' : ∀ par : Nat → Nat, ∀ v, MH.updIf par 0 v = par := fun par v => if_neg (by simp)
  rw [hz, hz, hz', hz', e4, hz']
  exact upd_other _ _ (by rintro rfl; exact hrA hm)

end Etl.MTree
