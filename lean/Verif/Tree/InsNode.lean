import Verif.Tree.Insert

/-! # `insert_node`: the search loop and the whole function -/
namespace Etl.Tree
open T

variable {α K : Type} (key : α → K) (lt : K → K → Bool)

def lastn (fs : List Frame) : Nat := match fs.getLast? with | some f => f.n | none => 0

theorem lastn_snoc (fs : List Frame) (f : Frame) : lastn (fs ++ [f]) = f.n := by simp [lastn]

/-- `crit` is the lowest node of the path that is not level (or the root), `cp` its parent. -/
def Crit (fs : List Frame) (crit cp : Nat) : Prop := ∃ pre c post, fs = pre ++ c :: post ∧ (∀ f ∈ post, f.w = none) ∧
  (c.w ≠ none ∨ pre = []) ∧ crit = c.n ∧ cp = lastn pre

/-- At frame `f` the search for `k` goes in direction `f.d`. -/
def Goes (ev : Nat → α) (k : K) (f : Frame) : Prop :=
  f.d = !(lt k (key (ev f.n))) ∧ (lt k (key (ev f.n)) ∨ lt (key (ev f.n)) k)

theorem read_ok {s : St α} {ev : Nat → α} {n : Nat} (v : s.h.valid n) (hv : s.val n = some (ev n)) : read s n = .ok (ev n) := by
  unfold read; rw [if_pos v, hv]

/-- Outcome of the search loop. -/
theorem insLoop_ok {ev : Nat → α} {k : K} (t : T) : ∀ (s : St α) (fs : List Frame) (crit cp fuel : Nat),
    Rep s.h s.h.root (plug fs t) → (plug fs t).ids.Nodup → t ≠ .nil → DRep s.h fs → (∀ n ∈ t.ids, s.val n = some (ev n)) →
    (∀ d sib, Crit (fs ++ [⟨t.rootId, d, t.rootW, sib⟩]) (if t.rootW ≠ none then t.rootId else crit) cp) → t.height < fuel →
    ∃ dr' fs' found crit' cp' stop, insLoop key lt s k (s.h.gl (endLoc .root fs)) crit cp fuel =
        .ok ({ s with h := { s.h with dr := dr' } }, found, crit', cp', stop) ∧
      (∀ f ∈ fs', Goes key lt ev k f) ∧
      ((stop = .slot ∧ t = plug fs' .nil ∧ fs' ≠ [] ∧ found = lastn fs' ∧ DRep { s.h with dr := dr' } (fs ++ fs') ∧ Crit (fs ++ fs') crit' cp') ∨
       (stop = .dup ∧ ∃ w x y, t = plug fs' (mk false found w x y) ∧ lt k (key (ev found)) = false ∧ lt (key (ev found)) k = false)) := by
  induction t with
  | nil => intro s fs crit cp fuel _ _ h; exact absurd rfl h
  | node n w c ih =>
    intro s fs crit cp fuel r nd _ hd hv hc hf
    obtain ⟨fuel, rfl⟩ : ∃ j, fuel = j + 1 := ⟨fuel - 1, by omega⟩
    obtain ⟨pr, rt⟩ := (rep_plug (L := .root)).1 r
    obtain ⟨e1, v, e2, rc⟩ := rt
    have hvn : s.val n = some (ev n) := hv n (by rw [node_eq false, mem_mk]; exact .inl rfl)
    simp only [rootId, rootW] at hc
    rw [e1, insLoop, if_pos (by have := v.1; omega)]
    simp only [TH.weight, if_pos v, bind, Except.bind, e2, read_ok v hvn]
    have hnd : ∀ f ∈ fs, f.n ≠ n := fun f hf he =>
      nodup_plug_disj nd (m := n) (by
        obtain ⟨a, b, rfl⟩ := List.append_of_mem hf
        rw [mem_pids_append, mem_pids_cons]; exact .inr (.inl he.symm)) (by rw [node_eq false, mem_mk]; exact .inl rfl)
    by_cases hlt : lt k (key (ev n)) ∨ lt (key (ev n)) k
    · rw [if_pos hlt]
      generalize hd' : (!(lt k (key (ev n)))) = d
      simp only [TH.setDir, if_pos v, TH.child]
      rw [if_pos (show (s.h.sd n (some d)).valid n from v)]
      simp only
      let f : Frame := ⟨n, d, w, c (!d)⟩
      have hgo : Goes key lt ev k f := ⟨hd'.symm, hlt⟩
      have hsplit : plug fs (node n w c) = plug (fs ++ [f]) (c d) := by
        rw [plug_append, node_eq d n w c]; rfl
      have hd2 : DRep (s.h.sd n (some d)) (fs ++ [f]) := by
        intro g hg
        rcases List.mem_append.1 hg with hg | hg
        · show upd s.h.dr n (some d) g.n = _
          rw [upd_other _ _ (hnd g hg)]; exact hd g hg
        · simp only [List.mem_singleton] at hg; subst hg; exact upd_same _ _ _
      rw [hsplit] at r nd
      have hcz : s.h.ch n d = (c d).rootId := (rc d).root_eq
      by_cases hz : s.h.ch n d = 0
      · rw [if_neg (show ¬ ((s.h.sd n (some d)).ch n d ≠ 0) from fun hc => hc hz)]
        have hnil : c d = .nil := by
          by_contra hcn
          exact ((rc d).ne_zero.2 hcn) hz
        refine ⟨_, [f], n, _, cp, .slot, rfl, by simpa using hgo, .inl ⟨rfl, ?_, by simp, ?_, hd2, hc _ _⟩⟩
        · show _ = mk d n w .nil (c (!d))
          rw [← hnil, ← node_eq d]
        · simp [lastn, f]
      · rw [if_pos (show (s.h.sd n (some d)).ch n d ≠ 0 from hz)]
        obtain ⟨m, w2, c2, hcd⟩ : ∃ m w2 c2, c d = node m w2 c2 := by
          cases hcd : c d with
          | nil => rw [hcd] at hcz; exact absurd hcz hz
          | node m w2 c2 => exact ⟨m, w2, c2, rfl⟩
        have rcd := rc d
        rw [hcd] at rcd
        obtain ⟨e4, v4, e5, _⟩ := rcd
        rw [show (s.h.sd n (some d)).ch n d = m from e4]
        rw [if_pos (show (s.h.sd n (some d)).valid m from v4)]
        simp only [show (s.h.sd n (some d)).wt m = w2 from e5]
        have hsub : ∀ x ∈ (c d).ids, x ∈ (node n w c).ids := fun x hx => by rw [node_eq d, mem_mk]; exact .inr (.inl hx)
        obtain ⟨dr', fs', found, crit', cp', stop, i1, i2, i3⟩ := ih d { s with h := s.h.sd n (some d) } (fs ++ [f])
          (if w ≠ none then n else crit) (if w2 ≠ none then n else cp) fuel (r.sd _ _) nd (by rw [hcd]; simp) hd2
          (fun x hx => hv x (hsub x hx)) (fun d2 sib => by
            rw [hcd]
            show Crit (fs ++ [f] ++ [⟨m, d2, w2, sib⟩]) (if w2 ≠ none then m else if w ≠ none then n else crit) (if w2 ≠ none then n else cp)
            by_cases hw2 : w2 = none
            · rw [if_neg (show ¬ (w2 ≠ none) from fun hc => hc hw2), if_neg (show ¬ (w2 ≠ none) from fun hc => hc hw2)]
              obtain ⟨p1, p2, p3, p4, p5, p6, p7, p8⟩ := hc d (c (!d))
              refine ⟨p1, p2, p3 ++ [⟨m, d2, w2, sib⟩], ?_, ?_, p6, p7, p8⟩
              · show (fs ++ [f]) ++ _ = _
                rw [show fs ++ [f] = p1 ++ p2 :: p3 from p4]; simp
              · intro g hg
                rcases List.mem_append.1 hg with hg | hg
                · exact p5 g hg
                · simp only [List.mem_singleton] at hg; subst hg; exact hw2
            · rw [if_pos hw2, if_pos hw2]
              exact ⟨fs ++ [f], ⟨m, d2, w2, sib⟩, [], rfl, by simp, .inl hw2, rfl, (lastn_snoc fs f).symm⟩)
          (by
            have := height_mk d n w (c d) (c (!d))
            rw [← node_eq d] at this; omega)
        have hgl : (s.h.sd n (some d)).gl (endLoc .root (fs ++ [f])) = m := by
          rw [endLoc_snoc]; exact e4
        simp only at i1
        rw [hgl] at i1
        refine ⟨dr', f :: fs', found, crit', cp', stop, i1, ?_, ?_⟩
        · intro g hg
          rcases List.mem_cons.1 hg with rfl | hg
          · exact hgo
          · exact i2 g hg
        · rcases i3 with ⟨j1, j2, j3, j4, j5, j6⟩ | ⟨j1, w', x, y, j2, j3⟩
          · refine .inl ⟨j1, ?_, by simp, ?_, (by rw [List.append_assoc] at j5; exact j5), by simpa using j6⟩
            · show _ = mk d n w (plug fs' .nil) (c (!d))
              rw [← j2, ← node_eq d]
            · rw [j4]
              rcases List.eq_nil_or_concat fs' with rfl | ⟨a, b, rfl⟩
              · exact absurd rfl j3
              · rw [List.concat_eq_append, ← List.cons_append, lastn_snoc, lastn_snoc]
          · refine .inr ⟨j1, w', x, y, ?_, j3⟩
            show _ = mk d n w (plug fs' _) (c (!d))
            rw [← j2, ← node_eq d]
    · rw [if_neg hlt]
      simp only [TH.setDir, if_pos v]
      have : lt k (key (ev n)) = false ∧ lt (key (ev n)) k = false := by
        constructor <;> (apply Bool.eq_false_iff.2; tauto)
      exact ⟨_, [], n, _, cp, .dup, rfl, by simp, .inr ⟨rfl, w, _, _, node_eq false n w c, this⟩⟩

/-- The free items and the nodes of the tree make up the pool. -/
structure Pool (s : St α) (t : T) : Prop where
  lim : s.h.lim = s.cap
  part : (t.ids ++ s.free).Perm (items s.cap)
  raw : ∀ n ∈ s.free, s.val n = none
  size : s.size = t.ids.length

theorem mem_items {cap n : Nat} : n ∈ items cap ↔ 1 ≤ n ∧ n ≤ cap := by
  simp only [items, List.mem_range'_1]; omega
theorem nodup_items (cap : Nat) : (items cap).Nodup := List.nodup_range' (s := 1) (n := cap)

theorem Pool.nodup {s : St α} {t : T} (p : Pool s t) : (t.ids ++ s.free).Nodup := p.part.nodup_iff.2 (nodup_items _)
theorem Pool.len {s : St α} {t : T} (p : Pool s t) : t.ids.length + s.free.length = s.cap := by
  have := p.part.length_eq
  simpa [items] using this
theorem Pool.valid {s : St α} {t : T} (p : Pool s t) {n : Nat} (h : n ∈ s.free) : s.h.valid n := by
  have := p.part.mem_iff.1 (List.mem_append_right _ h)
  rw [mem_items] at this
  simp only [TH.valid, p.lim]; exact this

/-- `attach_node` at the end of a path. -/
theorem attach_ok {s : St α} {fs : List Frame} {n : Nat} (r : Rep s.h s.h.root (plug fs .nil)) (nd : (plug fs .nil).ids.Nodup)
    (hn : n ∉ (plug fs .nil).ids) (v : s.h.valid n) : ∃ h', attachNode s (endLoc .root fs) n = .ok { s with h := h', size := s.size + 1 } ∧
      Rep h' h'.root (plug fs (leaf n)) ∧ h'.lim = s.h.lim ∧ h'.dr = upd s.h.dr n none := by
  obtain ⟨pr, _⟩ := (rep_plug (L := .root)).1 r
  have lv := lv_end pr
  let h1 : TH := ((((s.h.sw n none).sd n none).sc n false 0).sc n true 0)
  refine ⟨h1.sl (endLoc .root fs) n, ?_, ?_, by rw [sl_lim]; rfl, by rw [sl_dr]; rfl⟩
  · unfold attachNode TH.markAsLeaf
    simp only [TH.setWeight, TH.setDir, TH.setChild, if_pos v, bind, Except.bind]
    rw [if_pos (show (s.h.sw n none).valid n from v)]
    simp only
    rw [if_pos (show ((s.h.sw n none).sd n none).valid n from v)]
    simp only
    rw [if_pos (show (((s.h.sw n none).sd n none).sc n false 0).valid n from v)]
    simp only
    rw [setL_ok (h := h1) (lv_congr (h := s.h) rfl lv)]
  · refine install r nd rfl rfl (fun m hm => ?_) ?_ (fun m hm => ?_)
    · have hne : m ≠ n := fun hc => hn (hc ▸ mem_plug.2 (.inl hm))
      refine ⟨fun d => ?_, sw_ne _ _ hne⟩
      show ((((s.h.sw n none).sd n none).sc n false 0).sc n true 0).ch m d = _
      rw [sc_ne _ _ _ _ hne, sc_ne _ _ _ _ hne]; rfl
    · exact rep_mk.2 ⟨rfl, v, sw_same _ _ _, by
        show ((((s.h.sw n none).sd n none).sc n false 0).sc n (!false) 0).ch n false = 0
        rw [sc_not', sc_same], sc_same _ _ _ _⟩
    · simp only [ids_leaf, List.mem_singleton] at hm; subst hm; exact .inr hn

theorem destroy_ok {s : St α} {n : Nat} (v : s.h.valid n) (hf : n ∉ s.free) {x : α} (hv : s.val n = some x) :
    destroyNode s n = .ok { s with val := upd s.val n none, free := n :: s.free, h := s.h.sc n false (s.free.headD 0) } := by
  unfold destroyNode; rw [if_pos ⟨v, hf⟩, hv]

/-- `insert_node`: `n` is a node that is not in the tree and holds `ev n`. -/
theorem insertNode_ok {ev : Nat → α} {s : St α} {t : T} {n : Nat} (r : Rep s.h s.h.root t) (nd : t.ids.Nodup) (hb : t.Bal)
    (hv : ∀ m ∈ t.ids, s.val m = some (ev m)) (hn : n ∉ t.ids) (vn : s.h.valid n) (hvn : s.val n = some (ev n)) (hnf : n ∉ s.free)
    (hcap : t.ids.length ≤ s.cap) :
    (∃ fs h' t', t = plug fs .nil ∧ (∀ f ∈ fs, Goes key lt ev (key (ev n)) f) ∧
        insertNode key lt s n = .ok ({ s with h := h', size := s.size + 1 }, n) ∧ Rep h' h'.root t' ∧ t'.Bal ∧
        t'.ids = bef fs ++ n :: aft fs ∧ h'.lim = s.h.lim) ∨
    (∃ fs m w x y h', t = plug fs (mk false m w x y) ∧ (∀ f ∈ fs, Goes key lt ev (key (ev n)) f) ∧
        lt (key (ev n)) (key (ev m)) = false ∧ lt (key (ev m)) (key (ev n)) = false ∧
        insertNode key lt s n = .ok ({ s with h := h', val := upd s.val n none, free := n :: s.free }, m) ∧
        Rep h' h'.root t ∧ h'.lim = s.h.lim) := by
  by_cases ht : t = .nil
  · subst ht
    have hr0 : s.h.root = 0 := r
    obtain ⟨h', a1, a2, a3, _⟩ := attach_ok (fs := []) r nd hn vn
    refine .inl ⟨[], h', leaf n, rfl, by simp, ?_, a2, bal_leaf n, rfl, a3⟩
    unfold insertNode
    rw [if_neg (by simpa using hr0)]
    rw [show Loc.root = endLoc .root [] from rfl, a1]
    have : h'.root = n := a2.root_eq
    simp only [bind, Except.bind, this]
  · have hr0 : s.h.root ≠ 0 := r.ne_zero.2 ht
    have hroot := r.root_eq
    obtain ⟨dr', fs, found, crit, cp, stop, i1, i2, i3⟩ := insLoop_ok key lt (ev := ev) (k := key (ev n)) t s [] s.h.root 0 (s.cap + 1)
      r nd ht (by intro f hf; cases hf) hv (fun d sib => ⟨[], _, [], rfl, by simp, .inr rfl, by simp [hroot], rfl⟩)
      (by have := height_le_len t; omega)
    simp only [endLoc, TH.gl, List.nil_append] at i1 i3
    unfold insertNode
    rw [if_pos hr0]
    simp only [read_ok vn hvn, bind, Except.bind, i1]
    let s1 : St α := { s with h := { s.h with dr := dr' } }
    have r1 : Rep s1.h s1.h.root t := r.to _ rfl fun _ _ => ⟨fun _ => rfl, rfl⟩
    rcases i3 with ⟨j1, j2, j3, j4, j5, j6⟩ | ⟨j1, w, x, y, j2, j3, j4⟩
    · subst j1
      rw [j2] at r1 nd hn
      obtain ⟨fsi, fl, rfl⟩ : ∃ a b, fs = a ++ [b] := by
        rcases List.eq_nil_or_concat fs with rfl | ⟨a, b, rfl⟩
        · exact absurd rfl j3
        · exact ⟨a, b, by simp⟩
      obtain ⟨h', a1, a2, a3, a4⟩ := attach_ok (s := s1) r1 nd hn vn
      rw [lastn_snoc] at j4
      subst j4
      have vl : s1.h.valid fl.n := r1.valid_of_mem (mem_plug.2 (.inl (mem_pids_append.2 (.inr (mem_pids_cons.2 (.inl rfl))))))
      have hdl : dr' fl.n = some fl.d := j5 fl (by simp)
      have hL : s1.h.locDir fl.n = .ok (endLoc .root (fsi ++ [fl])) := by
        rw [endLoc_snoc]
        simp only [TH.locDir, TH.dirIx, TH.dir, if_pos vl, bind, Except.bind, s1, hdl]
      rw [show TH.locDir { s.h with dr := dr' } fl.n = _ from hL]
      simp only [show attachNode { s with h := { s.h with dr := dr' } } (endLoc .root (fsi ++ [fl])) n = _ from a1]
      have pr' := (rep_plug (L := .root)).1 a2
      have hget : h'.getL (endLoc .root (fsi ++ [fl])) = .ok n := by
        rw [getL_ok (lv_end pr'.1), pr'.2.root_eq]; rfl
      simp only [hget]
      obtain ⟨pre, c, post, c1, c2, c3, c4, c5⟩ := j6
      have hndp : (plug (fsi ++ [fl]) (leaf n)).ids.Nodup :=
        nodup_plug_swap nd (by simp) (fun m hm => by simp only [ids_leaf, List.mem_singleton] at hm; subst hm; exact .inr hn)
      have hD : DRep h' (fsi ++ [fl]) := by
        intro f hf
        rw [a4]
        have hfn : f.n ≠ n := fun hc => hn (hc ▸ mem_plug.2 (.inl (by
          obtain ⟨a, b, hab⟩ := List.append_of_mem hf
          rw [hab, mem_pids_append, mem_pids_cons]; exact .inr (.inl rfl))))
        rw [upd_other _ _ hfn]; exact j5 f hf
      have hdn : h'.dr n = none := by rw [a4, upd_same]
      have hbal : (plug (pre ++ c :: post) .nil).Bal := by rw [← c1, ← j2]; exact hb
      have hlen : post.length < s.cap + 1 := by
        have h1 := len_le_height (pre ++ c :: post) .nil
        rw [← c1, ← j2, c1] at h1
        have h2 := height_le_len t
        simp at h1; omega
      have hidl : (plug (fsi ++ [fl]) (leaf n)).ids = bef (fsi ++ [fl]) ++ n :: aft (fsi ++ [fl]) := by rw [ids_plug]; simp
      rw [c1] at a2 hndp hD hidl
      obtain ⟨h2, t', b1, b2, b3, b4, b5⟩ := balance_ok (k := s.cap + 1) a2 hndp (hD.mono fun f hf => List.mem_append_right _ hf) hdn c2 c3 hbal hlen
      have hvc : h'.valid c.n := a2.valid_of_mem (mem_plug.2 (.inl (by rw [mem_pids_append, mem_pids_cons]; exact .inr (.inl rfl))))
      have hc0 : crit ≠ 0 := by rw [c4]; have := hvc.1; omega
      rw [if_pos hc0]
      refine .inl ⟨fsi ++ [fl], h2, t', j2, i2, ?_, b2, b4, by rw [b3, hidl, c1], by rw [b5, a3]⟩
      rcases List.eq_nil_or_concat pre with rfl | ⟨pa, pb, rfl⟩
      · have hcr : crit = h'.root := by rw [c4]; exact a2.root_eq.symm
        rw [if_pos ⟨c5, hcr⟩, show Loc.root = endLoc .root [] from rfl, b1]
      · rw [List.concat_eq_append] at *
        rw [lastn_snoc] at c5
        have hvp : h'.valid pb.n := a2.valid_of_mem (mem_plug.2 (.inl (by simp only [mem_pids_append, mem_pids_cons]; tauto)))
        have hcp : cp ≠ 0 := by rw [c5]; have := hvp.1; omega
        have hdp : h'.dr pb.n = some pb.d := hD pb (by simp)
        have hLp : h'.locDir cp = .ok (endLoc .root (pa ++ [pb])) := by
          rw [endLoc_snoc, c5]
          simp only [TH.locDir, TH.dirIx, TH.dir, if_pos hvp, bind, Except.bind, hdp]
        rw [if_neg (fun hc => hcp hc.1), if_pos hcp, hLp]
        simp only [show h'.balanceNode (endLoc .root (pa ++ [pb])) (s1.cap + 1) = _ from b1]
        rfl
    · subst j1
      have hdes := destroy_ok (s := s1) (n := n) vn hnf hvn
      rw [show destroyNode { s with h := { s.h with dr := dr' } } n = _ from hdes]
      simp only [s1, ne_eq, not_true_eq_false, if_false]
      refine .inr ⟨fs, found, w, x, y, _, j2, i2, j3, j4, rfl, ?_, rfl⟩
      refine r.to _ rfl fun m hm => ⟨fun d => ?_, rfl⟩
      exact sc_ne { s.h with dr := dr' } _ _ _ (fun hc => hn (hc ▸ hm))

end Etl.Tree
