import Verif.MTree.Detach
import Mathlib.Data.List.Induction

/-! # Steps 1 to 3 of `remove_node` -/
namespace Etl.MTree
open Etl.Tree T

variable {α K : Type} (key : α → K) (lt : K → K → Bool)

/-- Only `dir` has changed. -/
def MH.setDr (h : MH) (dr : Nat → Option Bool) : MH := ⟨{ h.t with dr := dr }, h.par⟩

theorem rep_dr {h : MH} {p : Nat} {t : T} (r : Rep h.t p t) (dr) : Rep (h.setDr dr).t p t := r.to _ rfl fun _ _ => ⟨fun _ => rfl, rfl⟩

/-- Step 1. -/
theorem markLoop_ok (fs : List Frame) : ∀ (h : MH) (t : T) (fuel : Nat), t ≠ .nil → Rep h.t h.t.root (plug fs t) → (plug fs t).ids.Nodup →
    Par h.par 0 (plug fs t) → fs.length < fuel → ∃ dr', markLoop h t.rootId fuel = .ok (h.setDr dr', h.t.root) ∧ DRep (h.setDr dr').t fs ∧
      ∀ m ∈ t.ids, dr' m = h.t.dr m := by
  induction fs using List.reverseRecOn with
  | nil =>
    intro h t fuel ht r nd hp hf
    obtain ⟨fuel, rfl⟩ : ∃ j, fuel = j + 1 := ⟨fuel - 1, by simp at hf; omega⟩
    have r : Rep h.t h.t.root t := r
    have hr := r.root_eq
    have h0 : h.t.root ≠ 0 := r.ne_zero.2 ht
    have v := valid_child r h0
    have hq : h.par h.t.root = 0 := by
      cases t with
      | nil => exact absurd rfl ht
      | node n w c => have := hp.1; rw [hr]; exact this
    refine ⟨h.t.dr, ?_, (by intro f hf; cases hf), fun _ _ => rfl⟩
    rw [← hr, markLoop, if_pos h0, MH.parent_ok v, hq]
    rfl
  | append_singleton fs g ih =>
    intro h t fuel ht r nd hp hf
    obtain ⟨fuel, rfl⟩ : ∃ j, fuel = j + 1 := ⟨fuel - 1, by omega⟩
    obtain ⟨g1, g2, g3, g4, g5⟩ := rep_frame (B := []) r
    have g4 : Rep h.t (h.t.ch g.n g.d) t := g4
    have hr := g4.root_eq
    have h0 : h.t.ch g.n g.d ≠ 0 := g4.ne_zero.2 ht
    have v := valid_child g4 h0
    have hq : h.par (h.t.ch g.n g.d) = g.n := by
      have := (par_plug.1 hp).2
      rw [lastD_snoc] at this
      cases t with
      | nil => exact absurd rfl ht
      | node n w c => rw [hr]; exact this.1
    have hg0 : g.n ≠ 0 := by have := g2.1; omega
    rw [plug_append] at r nd hp
    have hd : decide (h.t.ch g.n false ≠ h.t.ch g.n g.d) = g.d := by
      cases e : g.d
      · simp
      · simp only [decide_eq_true_eq]
        intro hc
        rw [e] at g4 g5 h0
        rw [← hc] at g4 h0
        exact (nodup_fplug.1 (nodup_plug_sub nd)).2.2.2.2 _ (g4.mem_root h0) (g5.mem_root h0)
    obtain ⟨dr', i1, i2, i3⟩ := ih (h.setDr (upd h.t.dr g.n (some g.d))) (g.plug t) fuel (by simp [Frame.plug, mk]) (rep_dr r _) nd hp (by simp at hf; omega)
    refine ⟨dr', ?_, ?_, ?_⟩
    · rw [← hr, markLoop, if_pos h0, MH.parent_ok v, hq]
      simp only [bind, Except.bind]
      rw [if_pos hg0, MH.childOk g2]
      simp only
      rw [hd, MH.setDir_ok g2]
      exact i1
    · intro f hf
      rcases List.mem_append.1 hf with hf | hf
      · exact i2 f hf
      · simp only [List.mem_singleton] at hf; subst hf
        show dr' f.n = _
        rw [i3 f.n (mem_mk.2 (.inl rfl))]; exact upd_same _ _ _
    · intro m hm
      rw [i3 m (mem_mk.2 (.inr (.inl hm)))]
      exact upd_other _ _ (by rintro rfl; exact (nodup_fplug.1 (nodup_plug_sub nd)).1 hm)

/-- The condition for a new balance node. -/
theorem stopsHere_ok {h : MH} {fs rest : List Frame} {f : Frame} {t : T} (r : Rep h.t h.t.root (plug (fs ++ f :: rest) t))
    (hb : (f.plug (plug rest t)).Bal) (hd : h.t.dr f.n = some f.d) : ∃ b, stopsHere h f.n = .ok b ∧ (b = true ↔ stop f) := by
  obtain ⟨g1, v, g3, g4, g5⟩ := rep_frame r
  unfold stopsHere
  simp only [TH.weight, TH.dirIx, TH.dir, if_pos v, hd, bind, Except.bind, g3]
  by_cases hw0 : f.w = none
  · exact ⟨true, by rw [if_pos hw0], fun _ => .inl hw0, fun _ => rfl⟩
  · by_cases hw1 : f.w = some (!f.d)
    · rw [if_neg hw0, if_pos hw1]
      have hsn : f.sib ≠ .nil := by
        intro hcn
        obtain ⟨_, _, b3⟩ := bal_mk.1 hb
        rw [hcn, hw1] at b3
        rcases b3 with ⟨q, _⟩ | ⟨q, _⟩ | ⟨_, q⟩
        · cases q
        · exact absurd q (Ne.symm (some_not_ne f.d))
        · simp at q
      have hsv : h.t.valid (h.t.ch f.n (!f.d)) ∧ h.t.wt (h.t.ch f.n (!f.d)) = f.sib.rootW := by
        cases hcs : f.sib with
        | nil => exact absurd hcs hsn
        | node m w2 c2 =>
          rw [hcs] at g5
          obtain ⟨q1, q2, q3, _⟩ := g5
          rw [q1]; exact ⟨q2, q3⟩
      refine ⟨decide (f.sib.rootW = none), ?_, ?_⟩
      · rw [MH.childOk v]
        simp only
        rw [if_pos hsv.1]
        simp only
        rw [hsv.2]
      · simp only [decide_eq_true_eq]
        constructor
        · intro h; exact .inr ⟨hw1, h⟩
        · rintro (h | ⟨_, h⟩)
          · exact absurd h hw0
          · exact h
    · rw [if_neg hw0, if_neg hw1]
      refine ⟨false, rfl, fun h => Bool.noConfusion h, ?_⟩
      rintro (h | ⟨h, _⟩)
      · exact absurd h hw0
      · exact absurd h hw1

theorem BalI.dr {h : MH} {fs : List Frame} {b bp : Nat} (hb : BalI h.t fs b bp) (dr) : BalI (h.setDr dr).t fs b bp := by
  obtain ⟨pre, post, a1, a2, a3, a4, a5⟩ := hb
  refine ⟨pre, post, a1, a2, a3, ?_, a5⟩
  rw [a4]; cases endLoc .root pre <;> rfl

/-- Step 2. -/
theorem seekLoop_ok {t : T} (ht : t ≠ .nil) (post : List Frame) : ∀ (h : MH) (fs : List Frame) (b bp fuel : Nat),
    Rep h.t h.t.root (plug (fs ++ post) t) → (plug (fs ++ post) t).ids.Nodup → (plug post t).Bal → DRep h.t (fs ++ post) →
    BalI h.t fs b bp → post.length < fuel →
    ∃ b' bp', seekLoop h t.rootId (h.t.gl (endLoc .root fs)) b fuel =
        .ok (h.setDr (upd h.t.dr t.rootId (some (decide (h.t.ch t.rootId false = 0)))), t.rootId, b') ∧ BalI h.t (fs ++ post) b' bp' := by
  induction post with
  | nil =>
    intro h fs b bp fuel r nd hb hd hB hf
    obtain ⟨fuel, rfl⟩ : ∃ j, fuel = j + 1 := ⟨fuel - 1, by simp at hf; omega⟩
    rw [List.append_nil] at r ⊢
    have rt := ((rep_plug (L := .root)).1 r).2
    have h0 := rt.ne_zero.2 ht
    have v := valid_child rt h0
    refine ⟨b, bp, ?_, hB⟩
    rw [← rt.root_eq, seekLoop, if_pos h0, if_pos rfl, MH.childOk v]
    simp only [bind, Except.bind]
    rw [MH.setDir_ok v]
    rfl
  | cons f post ih =>
    intro h fs b bp fuel r nd hb hd hB hf
    obtain ⟨fuel, rfl⟩ : ∃ j, fuel = j + 1 := ⟨fuel - 1, by simp at hf; omega⟩
    obtain ⟨g1, v, g3, g4, g5⟩ := rep_frame r
    have hdf : h.t.dr f.n = some f.d := hd f (by simp)
    have hne : f.n ≠ t.rootId := by
      intro hc
      rw [plug_append] at nd
      refine (nodup_fplug.1 (nodup_plug_sub nd)).1 (mem_plug.2 (.inr ?_))
      rw [hc]
      cases t with
      | nil => exact absurd rfl ht
      | node n w c => exact mem_node n w c
    obtain ⟨c, c1, c2⟩ := stopsHere_ok r hb hdf
    have hB' : ∃ b' bp', b' = (if c then f.n else b) ∧ BalI h.t (fs ++ [f]) b' bp' := by
      cases c with
      | true => exact ⟨f.n, lastn fs, rfl, BalI.snoc_stop g1.symm (c2.1 rfl)⟩
      | false => exact ⟨b, bp, rfl, hB.snoc fun hs => by have := c2.2 hs; cases this⟩
    obtain ⟨b1, bp1, hb1, hB1⟩ := hB'
    obtain ⟨b', bp', i1, i2⟩ := ih h (fs ++ [f]) b1 bp1 fuel (by simpa using r) (by simpa using nd) (bal_mk.1 hb).1 (by simpa using hd) hB1 (by simp at hf; omega)
    refine ⟨b', bp', ?_, by simpa using i2⟩
    rw [← i1, g1, seekLoop, if_pos (by have := v.1; omega), if_neg hne, c1]
    simp only [bind, Except.bind, TH.dirIx, TH.dir, if_pos v, hdf, MH.childOk v, ← hb1]
    rw [endLoc_snoc]; rfl

/-- Step 3, the direction at a node below the node to be removed. -/
def RDir (ev : Nat → α) (k : K) (f : Frame) : Prop := lt (key (ev f.n)) k = true → lt k (key (ev f.n)) = false → f.d = true

theorem replLoop_ok {ev : Nat → α} {k : K} (t : T) : ∀ (s : St α) (fs : List Frame) (b bp fuel : Nat) (d : Bool),
    Rep s.h.t s.h.t.root (plug fs t) → (plug fs t).ids.Nodup → t ≠ .nil → t.Bal → DRep s.h.t fs → (∀ n ∈ t.ids, s.val n = some (ev n)) →
    s.h.t.dr t.rootId = some d → BalI s.h.t fs b bp → t.height < fuel →
    ∃ dr' B rd rn wr y b' bp', replLoop key lt s k t.rootId b fuel = .ok ({ s with h := s.h.setDr dr' }, rn, b') ∧
      t = plug B (mk rd rn wr .nil y) ∧ DRep (s.h.setDr dr').t (fs ++ B) ∧ dr' rn = some rd ∧ BalI (s.h.setDr dr').t (fs ++ B) b' bp' ∧
      (B = [] → rd = d) ∧ (∀ f B', B = f :: B' → f.n = t.rootId ∧ f.d = d ∧ (∀ g ∈ B', RDir key lt ev k g) ∧ RDir key lt ev k ⟨rn, rd, wr, y⟩) := by
  induction t with
  | nil => intro s fs b bp fuel d _ _ h; exact absurd rfl h
  | node n w c ih =>
    intro s fs b bp fuel d r nd _ hb hD hv hd hB hf
    obtain ⟨fuel, rfl⟩ : ∃ j, fuel = j + 1 := ⟨fuel - 1, by omega⟩
    have hsp := plug_sub (n := n) (w := w) (c := c) fs d
    have rt := ((rep_plug (L := .root)).1 r).2
    obtain ⟨e1, v, e2, rc⟩ := rt
    have hd : s.h.t.dr n = some d := hd
    have hn0 : n ≠ 0 := by have := v.1; omega
    have start : ∀ X, (if s.h.t.ch n d = 0 then .ok (s, n, b) else do
        let balance := if ← stopsHere s.h n then n else b
        let v ← read s (s.h.t.ch n d)
        let l ← s.h.t.child (s.h.t.ch n d) false
        let d2 : Bool := if lt k (key v) then false else if lt (key v) k then true else if l ≠ 0 then false else true
        let h ← s.h.setDir (s.h.t.ch n d) (some d2)
        replLoop key lt { s with h := h } k (s.h.t.ch n d) balance fuel) = X → replLoop key lt s k n b (fuel + 1) = X := by
      intro X hX
      rw [← hX, replLoop, if_pos hn0]
      simp only [TH.dirIx, TH.dir, if_pos v, hd, bind, Except.bind, MH.childOk v]
    by_cases hc : c d = .nil
    · have hz : s.h.t.ch n d = 0 := by have := (rc d).root_eq; rw [hc] at this; exact this
      refine ⟨s.h.t.dr, [], d, n, w, c (!d), b, bp, start _ (by rw [if_pos hz]; rfl), ?_, by rw [List.append_nil]; exact hD, hd,
        by rw [List.append_nil]; exact hB, fun _ => rfl, fun f B' hh => by cases hh⟩
      show _ = mk d n w .nil (c (!d))
      rw [← hc, ← node_eq d]
    · have hz : s.h.t.ch n d ≠ 0 := (rc d).ne_zero.2 hc
      have hroot : s.h.t.ch n d = (c d).rootId := (rc d).root_eq
      have hmr := (rc d).mem_root hz
      rw [hroot] at hmr
      obtain ⟨f, hfd⟩ : ∃ f : Frame, f = ⟨n, d, w, c (!d)⟩ := ⟨_, rfl⟩
      rw [← hfd] at hsp
      have hfn : f.n = n := by rw [hfd]
      have hfdd : f.d = d := by rw [hfd]
      have hfp : f.plug (c d) = node n w c := by rw [hfd]; exact (node_eq d n w c).symm
      have vc := valid_child (rc d) hz
      obtain ⟨q, c1, c2⟩ := stopsHere_ok (h := s.h) (fs := fs) (rest := []) (f := f) (t := c d) (by rw [← hsp]; exact r)
        (by show (f.plug (c d)).Bal; rw [hfp]; exact hb) (by rw [hfn, hfdd]; exact hd)
      rw [hfn] at c1
      have hB' : ∃ b' bp', b' = (if q then n else b) ∧ BalI s.h.t (fs ++ [f]) b' bp' := by
        cases q with
        | true => exact ⟨f.n, lastn fs, hfn, BalI.snoc_stop (by rw [hfn]; exact e1.symm) (c2.1 rfl)⟩
        | false => exact ⟨b, bp, rfl, hB.snoc fun hs => by have := c2.2 hs; cases this⟩
      obtain ⟨b1, bp1, hb1, hB1⟩ := hB'
      obtain ⟨d2, hd2⟩ : ∃ d2 : Bool, d2 = (if lt k (key (ev (c d).rootId)) then false else if lt (key (ev (c d).rootId)) k then true
        else if s.h.t.ch (c d).rootId false ≠ 0 then false else true) := ⟨_, rfl⟩
      have hDf : DRep (s.h.setDr (upd s.h.t.dr (c d).rootId (some d2))).t (fs ++ [f]) := by
        intro g hg
        have hne : g.n ≠ (c d).rootId := by
          intro he
          rw [hsp] at nd
          refine nodup_plug_disj nd (m := g.n) ?_ (he ▸ hmr)
          obtain ⟨a, b, hab⟩ := List.append_of_mem hg
          rw [hab, mem_pids_append, mem_pids_cons]; exact .inr (.inl rfl)
        show upd s.h.t.dr _ _ g.n = _
        rw [upd_other _ _ hne]
        rcases List.mem_append.1 hg with hg | hg
        · exact hD g hg
        · simp only [List.mem_singleton] at hg; rw [hg, hfn, hfdd]; exact hd
      obtain ⟨dr', B, rd, rn, wr, y, b', bp', i1, i2, i3, i4, i5, i6, i7⟩ := ih d { s with h := s.h.setDr (upd s.h.t.dr (c d).rootId (some d2)) } (fs ++ [f]) b1 bp1 fuel d2
        (by rw [← hsp]; exact rep_dr r _) (by rw [← hsp]; exact nd) hc (bal_sub hb d) hDf (fun m hm => hv m (mem_sub d hm)) (upd_same _ _ _)
        (BalI.dr hB1 _) (by have := height_sub (n := n) (w := w) (c := c) d; omega)
      have hdir : lt (key (ev (c d).rootId)) k = true → lt k (key (ev (c d).rootId)) = false → d2 = true := by
        intro u1 u2
        rw [hd2, u1, u2]; rfl
      simp only [List.append_assoc, List.singleton_append] at i3 i5
      refine ⟨dr', f :: B, rd, rn, wr, y, b', bp', start _ ?_, ?_, i3, i4, i5, fun h => (List.cons_ne_nil _ _ h).elim, ?_⟩
      · rw [if_neg hz, c1]
        simp only [bind, Except.bind]
        rw [hroot] at vc ⊢
        rw [read_ok vc (hv _ (mem_sub d hmr))]
        simp only
        rw [MH.childOk vc]
        simp only
        rw [MH.setDir_ok vc, ← hd2, ← hb1]
        exact i1
      · rw [← hfp, i2]; rfl
      · intro f' B' hh
        obtain ⟨rfl, rfl⟩ := List.cons.inj hh
        refine ⟨hfn, hfdd, ?_, ?_⟩
        · intro g hg
          cases B with
          | nil => cases hg
          | cons g0 B0 =>
            obtain ⟨j1, j2, j3, j4⟩ := i7 g0 B0 rfl
            rcases List.mem_cons.1 hg with rfl | hg
            · unfold RDir; rw [j1, j2]; exact hdir
            · exact j3 g hg
        · cases B with
          | nil =>
            have : (c d).rootId = rn := by rw [i2]; rfl
            rw [this] at hdir
            show lt (key (ev rn)) k = true → lt k (key (ev rn)) = false → rd = true
            rw [i6 rfl]; exact hdir
          | cons g0 B0 => exact (i7 g0 B0 rfl).2.2.2

end Etl.MTree
