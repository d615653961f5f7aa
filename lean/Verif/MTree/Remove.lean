import Verif.MTree.RemLoop
import Verif.Tree.Search

/-! # `remove_node` -/
namespace Etl.MTree
open Etl.Tree T

variable {α K : Type} (key : α → K) (lt : K → K → Bool)

theorem perm_other {A B : List Frame} {a : Frame} {rd : Bool} {rn : Nat} {wr : Option Bool} {y : T} :
    (plug (A ++ a :: B) (mk rd rn wr .nil y)).ids.Perm (a.n :: (plug (A ++ { a with n := rn } :: B) y).ids) := by
  rw [List.perm_iff_count]
  intro m
  simp only [ids_plug, bef_append, aft_append, bef, aft, List.count_append, List.count_cons]
  rcases a with ⟨an, ad, aw, as⟩
  cases ad <;> cases rd <;>
    simp only [Frame.bef, Frame.aft, Bool.false_eq_true, if_true, if_false, ids_mk_f, ids_mk_t, List.count_append, List.count_cons, List.count_nil, show T.nil.ids = [] from rfl] <;> omega

theorem perm_self {A : List Frame} {rd : Bool} {rn : Nat} {wr : Option Bool} :
    (plug A (mk rd rn wr .nil .nil)).ids.Perm (rn :: (plug A .nil).ids) := by
  obtain ⟨X, Y, h1, h2⟩ := ids_self (d := rd) (n := rn) (w := wr) (y := .nil) (fs := A)
  rw [h1, h2]; exact List.perm_middle

theorem ids_left {A B : List Frame} {a : Frame} {rn : Nat} {u v : T} (hd : a.d = false) :
    (plug (A ++ a :: B) u).ids = (bef A ++ (plug B u).ids) ++ a.n :: (a.sib.ids ++ aft A) ∧
    (plug (A ++ { a with n := rn } :: B) v).ids = (bef A ++ (plug B v).ids ++ [rn]) ++ (a.sib.ids ++ aft A) := by
  rcases a with ⟨an, ad, aw, as⟩
  cases hd
  simp [plug_append, ids_plug, plug, Frame.plug, ids_mk_f]

/-- The node to be removed on the path after step 4. -/
theorem split_path {F B pre post : List Frame} {a : Frame} {X : T} (he : F ++ a :: B = pre ++ post) (hb : (plug post X).Bal) (hX : X.height ≠ 0) :
    ∃ A' a' B', pre ++ post.flatMap step2 = A' ++ a' :: B' ∧ a'.n = a.n ∧ a'.d = a.d ∧ ∀ e, (∀ f ∈ B, f.d = e) → ∀ f ∈ B', f.d = e := by
  have inP : ∀ P1, F = pre ++ P1 → post = P1 ++ a :: B → ∃ A' a' B', pre ++ post.flatMap step2 = A' ++ a' :: B' ∧ a'.n = a.n ∧ a'.d = a.d ∧
      ∀ e, (∀ f ∈ B, f.d = e) → ∀ f ∈ B', f.d = e := by
    intro P1 q1 q2
    rw [q2, plug_append] at hb
    have hb2 := bal_plug_sub hb
    obtain ⟨_, _, s3, l, g, s4, s5, _⟩ := step2_shape (f := a) hb2 (by have := len_le_height B X; omega)
    refine ⟨pre ++ P1.flatMap step2 ++ l, g, B.flatMap step2, ?_, s5, s3 g (by rw [s4]; simp), fun e h => dirs_flat hX B (bal_mk.1 hb2).1 h⟩
    rw [q2, List.flatMap_append, List.flatMap_cons, s4]; simp
  rcases List.append_eq_append_iff.1 he with ⟨P1, q1, q2⟩ | ⟨P1, q1, q2⟩
  · cases P1 with
    | nil => exact inP [] (by simpa using q1.symm) (by simpa using q2.symm)
    | cons a1 P1 =>
      obtain ⟨rfl, rfl⟩ : a = a1 ∧ B = P1 ++ post := by simpa using q2
      refine ⟨F, a, P1 ++ post.flatMap step2, by rw [q1]; simp, rfl, rfl, fun e h f hf => ?_⟩
      rcases List.mem_append.1 hf with hf | hf
      · exact h f (List.mem_append_left _ hf)
      · exact dirs_flat hX post hb (fun g hg => h g (List.mem_append_right _ hg)) f hf
  · exact inP P1 q1 q2

theorem locDir_ok {h : MH} {fs : List Frame} {g : Frame} {t : T} (r : Rep h.t h.t.root (plug (fs ++ [g]) t)) (hd : DRep h.t (fs ++ [g])) :
    h.t.locDir g.n = .ok (endLoc .root (fs ++ [g])) := by
  obtain ⟨_, v, _⟩ := rep_frame (B := []) r
  rw [endLoc_snoc]
  simp only [TH.locDir, TH.dirIx, TH.dir, if_pos v, hd g (by simp), bind, Except.bind]

/-- The elements before `n`, in the order of iteration, are all smaller than it. -/
def First (ev : Nat → α) (ids : List Nat) (n : Nat) : Prop := ∀ X Y, ids = X ++ n :: Y → ∀ m ∈ X, lt (key (ev m)) (key (ev n)) = true

theorem removeNode_ok {ev : Nat → α} {s : St α} {t : T} {found : Nat} (hlt : StrictWeak lt) (r : Rep s.h.t s.h.t.root t) (hb : t.Bal)
    (hp : Par s.h.par 0 t) (hv : ∀ m ∈ t.ids, s.val m = some (ev m)) (hpool : Pool s.b t) (hm : found ∈ t.ids) :
    ∃ h' t', removeNode key lt s found = .ok { s with h := h', val := upd s.val found none, free := found :: s.free, size := s.size - 1 } ∧
      Rep h'.t h'.t.root t' ∧ t'.Bal ∧ Par h'.par 0 t' ∧ t.ids.Perm (found :: t'.ids) ∧ h'.t.lim = s.h.t.lim ∧
      (First key lt ev t.ids found → t'.ids = t.ids.erase found) ∧ (∀ X Y, t.ids = X ++ found :: Y → ∃ X', X'.Perm X ∧ t'.ids = X' ++ Y) := by
  have nd : t.ids.Nodup := (List.nodup_append.1 hpool.nodup).1
  have hlen : t.ids.length ≤ s.cap := by have : t.ids.length + s.free.length = s.cap := hpool.len; omega
  obtain ⟨fs, w, x, z, ht⟩ := split_at t hm
  obtain ⟨u, hu⟩ : ∃ u, u = mk false found w x z := ⟨_, rfl⟩
  have huN : u ≠ .nil := by rw [hu]; simp [mk]
  have hur : u.rootId = found := by rw [hu]; rfl
  rw [← hu] at ht
  have vf := r.valid_of_mem hm
  have hf0 : found ≠ 0 := by have := vf.1; omega
  have hlenfs : ∀ fs u, t = plug fs u → fs.length + u.height ≤ s.cap := by
    intro fs u hu
    have a1 := len_le_height fs u
    rw [← hu] at a1
    have a2 := height_le_len t
    omega
  have hfs := hlenfs _ _ ht
  have bu : u.Bal := by rw [ht] at hb; exact bal_plug_sub hb
  -- steps 1 and 2
  obtain ⟨dr1, a1, a2, a3⟩ := markLoop_ok fs s.h u (s.cap + 1) huN (ht ▸ r) (ht ▸ nd) (ht ▸ hp) (by omega)
  rw [hur] at a1
  have r1 : Rep (s.h.setDr dr1).t (s.h.setDr dr1).t.root (plug fs u) := rep_dr (ht ▸ r) _
  obtain ⟨b1, bp1, c1, c2⟩ := seekLoop_ok huN fs (s.h.setDr dr1) [] s.h.t.root 0 (s.cap + 1) r1 (ht ▸ nd) (ht ▸ hb) a2
    ⟨[], [], rfl, by simp, .inl rfl, rfl, rfl⟩ (by omega)
  obtain ⟨d, hd⟩ : ∃ d, d = decide ((s.h.setDr dr1).t.ch u.rootId false = 0) := ⟨_, rfl⟩
  rw [← hd, hur] at c1
  rw [List.nil_append] at c2
  obtain ⟨dr2, hdr2⟩ : ∃ dr2, dr2 = upd dr1 found (some d) := ⟨_, rfl⟩
  have c1 : seekLoop (s.h.setDr dr1) found s.h.t.root s.h.t.root (s.cap + 1) = .ok (s.h.setDr dr2, found, b1) := by rw [hdr2]; exact c1
  have hD2 : DRep (s.h.setDr dr2).t fs := by
    intro g hg
    have hne : g.n ≠ found := by
      intro he
      rw [ht] at nd
      refine nodup_plug_disj nd (m := g.n) ?_ (he ▸ hur ▸ mem_rootId huN)
      obtain ⟨a, b, hab⟩ := List.append_of_mem hg
      rw [hab, mem_pids_append, mem_pids_cons]; exact .inr (.inl rfl)
    show dr2 g.n = _
    rw [hdr2, upd_other _ _ hne]; exact a2 g hg
  -- step 3
  obtain ⟨dr3, B, rd, rn, wr, y, b2, bp2, i1, i2, i3, i4, i5, i6, i7⟩ := replLoop_ok key lt (ev := ev) (k := key (ev found)) u { s with h := s.h.setDr dr2 } fs b1 bp1 (s.cap + 1) d
    (rep_dr (ht ▸ r) _) (ht ▸ nd) huN bu hD2 (fun m hm => hv m (by rw [ht]; exact mem_plug.2 (.inr hm)))
    (by rw [hur]; show dr2 found = _; rw [hdr2]; exact upd_same _ _ _) (BalI.dr (h := s.h.setDr dr1) c2 dr2) (by omega)
  rw [hur] at i1
  have e3 : (s.h.setDr dr2).setDr dr3 = s.h.setDr dr3 := rfl
  simp only [e3] at i1 i3 i5
  -- the left subtree of the node
  have ru : Rep s.h.t (s.h.t.gl (endLoc .root fs)) u := ((rep_plug (L := .root)).1 (ht ▸ r)).2
  obtain ⟨hdl, hdx⟩ : (d = true → x = .nil) ∧ (d = false → x ≠ .nil) := by
    rw [hu] at ru
    obtain ⟨_, _, _, rx, _⟩ := rep_mk.1 ru
    have hd' : d = decide (s.h.t.ch found false = 0) := by rw [hd, hur]; rfl
    constructor
    · intro h
      rw [h] at hd'
      have h0 : s.h.t.ch found false = 0 := of_decide_eq_true hd'.symm
      by_contra hn
      exact (rx.ne_zero.2 hn) h0
    · intro h hx
      rw [h] at hd'
      rw [hx] at rx
      exact of_decide_eq_false hd'.symm rx
  have htb : t = plug (fs ++ B) (mk rd rn wr .nil y) := by rw [plug_append, ← i2]; exact ht
  have hX : (mk rd rn wr .nil y).height ≠ 0 := by rw [height_mk]; omega
  obtain ⟨pre, post, p1, p2, p3, p4, p5⟩ := i5
  have hpl : post.length < s.cap + 1 := by
    have := hlenfs _ _ htb; rw [p1] at this; simp at this; omega
  have hbp : (plug post (mk rd rn wr .nil y)).Bal := by rw [htb, p1, plug_append] at hb; exact bal_plug_sub hb
  -- step 4
  obtain ⟨h4, l1, l2, l3, l4, l5, l6⟩ := loop_ok post (s.h.setDr dr3) pre (s.cap + 1) (by rw [← p1, ← htb]; exact rep_dr r _)
    (by rw [← p1, ← htb]; exact nd) (by rw [← p1, ← htb]; exact hp) hbp (by rw [← p1]; exact i3) i4 hpl
  rw [← p4] at l1
  have hsh := shape_all hX post hbp
  have hid : (plug (pre ++ post.flatMap step2) (mk rd rn wr .nil y)).ids = t.ids := by
    rw [htb, p1, ids_plug, ids_plug]; simp only [bef_append, aft_append, hsh]
  have hhy : (mk rd rn wr .nil y).height = y.height + 1 := by rw [height_mk]; simp
  have hby : y.Bal := (bal_mk.1 (bal_plug_sub (htb ▸ hb))).2.1
  have hpb : (plug (pre ++ post.flatMap step2) y).Bal := by
    rw [htb, p1] at hb; exact pre_post_bal hby hhy hb p2 p3
  have hval : s.val found = some (ev found) := hv _ hm
  have hnf : found ∉ s.free := fun hc => (List.nodup_append.1 hpool.nodup).2.2 found hm found hc rfl
  have l4' : h4.t.lim = s.h.t.lim := l4
  have vf4 : h4.t.valid found := by simp only [TH.valid, l4'] at *; exact vf
  -- the end
  have fin : ∀ (h5 : MH) (t' : T), (if h4.par found ≠ 0 then do h4.detachNode (← h4.t.locDir (h4.par found)) (← h4.t.locDir (h4.par rn))
      else if h4.par rn ≠ 0 then do h4.detachNode .root (← h4.t.locDir (h4.par rn)) else h4.detachNode .root .root : Res MH) = .ok h5 →
      Rep h5.t h5.t.root t' → t'.Bal → Par h5.par 0 t' → h5.t.lim = h4.t.lim → t.ids.Perm (found :: t'.ids) →
      (First key lt ev t.ids found → t'.ids = t.ids.erase found) → (∀ X Y, t.ids = X ++ found :: Y → ∃ X', X'.Perm X ∧ t'.ids = X' ++ Y) →
      ∃ h' t', removeNode key lt s found = .ok { s with h := h', val := upd s.val found none, free := found :: s.free, size := s.size - 1 } ∧
        Rep h'.t h'.t.root t' ∧ t'.Bal ∧ Par h'.par 0 t' ∧ t.ids.Perm (found :: t'.ids) ∧ h'.t.lim = s.h.t.lim ∧
        (First key lt ev t.ids found → t'.ids = t.ids.erase found) ∧ (∀ X Y, t.ids = X ++ found :: Y → ∃ X', X'.Perm X ∧ t'.ids = X' ++ Y) := by
    intro h5 t' run r5 b5 q5 lim5 perm5 ex5 tl5
    have hnt : found ∉ t'.ids := (List.nodup_cons.1 (perm5.nodup_iff.1 nd)).1
    refine ⟨⟨h5.t, upd h5.par found (s.free.headD 0)⟩, t', ?_, r5, b5, q5.congr fun m hm => upd_other _ _ (fun hc => hnt (hc ▸ hm)), perm5, by rw [← l4', ← lim5], ex5, tl5⟩
    unfold removeNode
    rw [if_pos hf0, read_ok vf hval]
    simp only [bind, Except.bind]
    rw [a1]
    simp only
    rw [show (s.h.setDr dr1).t.root = s.h.t.root from rfl, c1]
    simp only
    rw [i1]
    simp only
    rw [l1]
    simp only
    have vr4 : h4.t.valid rn := l2.valid_of_mem (mem_plug.2 (.inr (mem_mk.2 (.inl rfl))))
    rw [MH.parent_ok vf4]
    simp only
    rw [MH.parent_ok vr4]
    simp only
    simp only [bind, Except.bind] at run
    have dz : destroyNode { s with h := h5, size := s.size - 1 } found = .ok { s with h := ⟨h5.t, upd h5.par found (s.free.headD 0)⟩, val := upd s.val found none, free := found :: s.free, size := s.size - 1 } := by
      unfold destroyNode
      rw [if_pos ⟨by have : h5.t.lim = s.h.t.lim := by rw [lim5, l4']
                     simp only [TH.valid, this] at *; exact vf, hnf⟩]
      simp only [hval]
    rw [run]
    simp only
    exact dz
  cases B with
  | nil =>
    -- a leaf
    have hrd : rd = d := i6 rfl
    have i2 : u = mk rd rn wr .nil y := i2
    have hrn : found = rn := by rw [← hur, i2]; rfl
    have hd1 : d = true := by
      cases hd0 : d with
      | true => rfl
      | false =>
        rw [hrd, hd0, hu] at i2
        have := congrArg (fun t => match t with | .nil => T.nil | .node _ _ c => c false) i2
        exact absurd this (hdx hd0)
    have hy : y = .nil := by
      have hx := hdl hd1
      rw [hrd, hd1, hu, hx] at i2
      have := congrArg (fun t => match t with | .nil => T.nil | .node _ _ c => c false) i2
      exact this.symm
    subst hy
    subst hrn
    rw [List.append_nil] at p1 i3 htb
    obtain ⟨h5, d1, d2, d3, d4⟩ := detach_self l2 (by rw [hid]; exact nd) l3 l6
    have hpf : h4.par found = lastn (pre ++ post.flatMap step2) := by
      rw [← lastD_zero]; exact (par_mk.1 (par_plug.1 l3).2).1
    obtain ⟨X, Y, x1, x2⟩ := ids_self (d := rd) (n := found) (w := wr) (y := .nil) (fs := pre ++ post.flatMap step2)
    refine fin h5 _ ?_ d2 hpb d3 d4 ?_ ?_ ?_
    · rw [hpf]
      rcases List.eq_nil_or_concat (pre ++ post.flatMap step2) with e | ⟨q, g, e⟩
      · rw [e] at d1 ⊢
        rw [if_neg (by simp [lastn]), if_neg (by simp [lastn])]; exact d1
      · rw [List.concat_eq_append] at e
        rw [e] at l2 l5 d1 ⊢
        rw [lastn_snoc]
        have v := (rep_frame (B := []) l2).2.1
        rw [if_pos (by have := v.1; omega), locDir_ok l2 l5]
        exact d1
    · rw [← hid]; exact perm_self
    · intro _
      rw [x2, ← hid, x1, erase_mid]; rw [← x1, hid]; exact nd
    · intro X1 Y1 e
      obtain ⟨rfl, rfl⟩ := nodup_split (e ▸ nd) (e.symm.trans (hid.symm.trans x1))
      exact ⟨X1, .refl _, x2⟩
  | cons a B =>
    obtain ⟨j1, j2, j3, j4⟩ := i7 a B rfl
    rw [hur] at j1
    obtain ⟨A', a', B', s1, s2, s3, s4⟩ := split_path p1 hbp hX
    rw [s1] at l2 l3 l5 hid hpb
    obtain ⟨h5, d1, d2, d3, d4⟩ := detach_ok l2 (by rw [hid]; exact nd) l3 l6
    have hpf : h4.par found = lastn A' := by rw [← j1, ← s2]; exact par_frame l3
    obtain ⟨q, g, e⟩ : ∃ q g, A' ++ a' :: B' = q ++ [g] := by
      rcases List.eq_nil_or_concat (A' ++ a' :: B') with e | ⟨q, g, e⟩
      · simp at e
      · exact ⟨q, g, by rw [e, List.concat_eq_append]⟩
    have hpr : h4.par rn = g.n := by
      have := (par_mk.1 (par_plug.1 l3).2).1
      rw [this, e, lastD_snoc]
    have hlr : h4.t.locDir g.n = .ok (endLoc .root (A' ++ a' :: B')) := by
      rw [e] at l2 l5 ⊢; exact locDir_ok l2 l5
    have hg0 : g.n ≠ 0 := by
      rw [e] at l2
      have v := (rep_frame (B := []) l2).2.1
      have := v.1; omega
    have keyT : d = true → ∃ wr', mk rd rn wr .nil y = mk (!a'.d) rn wr' .nil y ∧ ∀ f ∈ B', f.d = !a'.d := by
      intro hd0
      rw [s3, j2, hd0]
      have hx := hdl hd0
      have huz : z = plug B (mk rd rn wr .nil y) := by
        have h1 := i2
        rw [hu] at h1
        have := congrArg (fun t => match t with | .nil => T.nil | .node _ _ c => c true) h1
        simp only [plug, Frame.plug, mk] at this
        rw [j2, hd0] at this
        exact this
      have hz1 : z.height ≤ 1 := by
        rw [hu, hx] at bu
        obtain ⟨_, _, b3⟩ := bal_mk.1 bu
        rcases b3 with ⟨_, q⟩ | ⟨_, q⟩ | ⟨_, q⟩ <;> simp at q <;> omega
      have hlB := len_le_height B (mk rd rn wr .nil y)
      rw [← huz, height_mk] at hlB
      have hB0 : B = [] := List.length_eq_zero_iff.1 (by omega)
      have hy0 : y = .nil := by
        cases y with
        | nil => rfl
        | node _ _ _ => simp only [height] at hlB; omega
      subst hy0
      refine ⟨wr, ?_, s4 false (by rw [hB0]; simp)⟩
      cases rd
      · rfl
      · exact mk_flip false rn wr .nil .nil
    have exact1 : (∃ wr', mk rd rn wr .nil y = mk (!a'.d) rn wr' .nil y ∧ ∀ f ∈ B', f.d = !a'.d) → ∃ X Y, t.ids = X ++ found :: Y ∧
        (plug (A' ++ { a' with n := rn } :: B') y).ids = X ++ Y := by
      rintro ⟨wr', k1, k2⟩
      have hid := hid
      rw [k1] at hid
      obtain ⟨X, Y, x1, x2⟩ := ids_other (A := A') (B := B') (a := a') (rn := rn) (wr := wr') (y := y) k2
      exact ⟨X, Y, by rw [← hid, x1, ← j1, ← s2], x2⟩
    refine fin h5 _ ?_ d2 (bal_ren hpb) d3 d4 ?_ ?_ ?_
    · rw [hpf, hpr]
      rcases List.eq_nil_or_concat A' with e0 | ⟨q0, g0, e0⟩
      · rw [if_neg (by rw [e0]; simp [lastn]), if_pos hg0, hlr]
        rw [e0] at d1 ⊢; exact d1
      · rw [List.concat_eq_append] at e0
        rw [e0] at l2 l5
        have l2' : Rep h4.t h4.t.root (plug (q0 ++ [g0]) (plug (a' :: B') (mk rd rn wr .nil y))) := by rw [← plug_append]; exact l2
        have v := (rep_frame (B := []) l2').2.1
        have hl0 := locDir_ok l2' (l5.mono fun x hx => List.mem_append_left _ hx)
        rw [hlr, e0, lastn_snoc, if_pos (by have := v.1; omega), hl0]
        rw [e0] at d1; exact d1
    · rw [← hid, ← j1, ← s2]; exact perm_other
    · intro hF
      -- the replacement is the neighbour
      have key1 : ∃ wr', mk rd rn wr .nil y = mk (!a'.d) rn wr' .nil y ∧ ∀ f ∈ B', f.d = !a'.d := by
        cases hd0 : d with
        | false =>
          rw [s3, j2, hd0]
          have hlx : ∀ m ∈ x.ids, lt (key (ev m)) (key (ev found)) = true := by
            intro m hmx
            refine hF (bef fs ++ x.ids) (z.ids ++ aft fs) ?_ m (List.mem_append_right _ hmx)
            rw [ht, hu, ids_plug, ids_mk_f]; simp
          have hux : x = plug B (mk rd rn wr .nil y) := by
            have h1 := i2
            rw [hu] at h1
            have := congrArg (fun t => match t with | .nil => T.nil | .node _ _ c => c false) h1
            simp only [plug, Frame.plug, mk] at this
            rw [j2, hd0] at this
            exact this
          have hdir : ∀ f : Frame, f.n ∈ x.ids → RDir key lt ev (key (ev found)) f → f.d = true := fun f hf hR =>
            hR (hlx _ hf) (hlt.asymm (hlx _ hf))
          have hBt : ∀ f ∈ B, f.d = true := fun f hf => hdir f (by
            rw [hux, mem_plug]; left
            obtain ⟨a, b, hab⟩ := List.append_of_mem hf
            rw [hab, mem_pids_append, mem_pids_cons]; exact .inr (.inl rfl)) (j3 f hf)
          have hrd : rd = true := hdir ⟨rn, rd, wr, y⟩ (by rw [hux, mem_plug]; exact .inr (mem_mk.2 (.inl rfl))) j4
          exact ⟨wr, by rw [hrd]; rfl, s4 true hBt⟩
        | true => exact keyT hd0
      obtain ⟨X, Y, x1, x2⟩ := exact1 key1
      rw [x2, x1, erase_mid]; rw [← x1]; exact nd
    · intro X1 Y1 e
      cases hd0 : d with
      | true =>
        obtain ⟨X, Y, x1, x2⟩ := exact1 (keyT hd0)
        obtain ⟨rfl, rfl⟩ := nodup_split (e ▸ nd) (e.symm.trans x1)
        exact ⟨X1, .refl _, x2⟩
      | false =>
        have hd' : a'.d = false := by rw [s3, j2, hd0]
        have hn' : a'.n = found := by rw [s2, j1]
        obtain ⟨q1, q2⟩ := ids_left (A := A') (B := B') (a := a') (rn := rn) (u := mk rd rn wr .nil y) (v := y) hd'
        rw [hn'] at q1
        obtain ⟨rfl, rfl⟩ := nodup_split (e ▸ nd) (e.symm.trans (hid.symm.trans q1))
        refine ⟨_, ?_, q2⟩
        rw [List.append_assoc]
        refine List.Perm.append_left _ ?_
        rw [List.perm_iff_count]
        intro m
        rw [ids_plug, ids_plug]
        cases rd <;> simp only [ids_mk_f, ids_mk_t, List.count_append, List.count_cons, List.count_nil, show T.nil.ids = [] from rfl] <;> omega

end Etl.MTree
