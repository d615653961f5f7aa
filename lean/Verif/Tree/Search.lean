import Verif.Tree.Remove
import Mathlib.Data.List.Induction

/-! # Searching and iterating -/
namespace Etl.Tree
open T

variable {α K : Type} (key : α → K) (lt : K → K → Bool)

/-- The state holds the tree `t` with the elements `ev`, in order and balanced. -/
structure Inv (s : St α) (t : T) (ev : Nat → α) : Prop where
  rep : Rep s.h s.h.root t
  bal : t.Bal
  vals : ∀ m ∈ t.ids, s.val m = some (ev m)
  pool : Pool s t
  ord : t.ids.Pairwise (fun a b => lt (key (ev a)) (key (ev b)))

variable {key lt} {s : St α} {t : T} {ev : Nat → α}

theorem Inv.nodup (hi : Inv key lt s t ev) : t.ids.Nodup := (List.nodup_append.1 hi.pool.nodup).1
theorem Inv.len (hi : Inv key lt s t ev) : t.ids.length ≤ s.cap := by have := hi.pool.len; omega
theorem Inv.hfuel (hi : Inv key lt s t ev) : t.height < s.cap + 1 := by have := height_le_len t; have := hi.len; omega
theorem Inv.pos (hi : Inv key lt s t ev) {n : Nat} (h : n ∈ t.ids) : n ≠ 0 := by have := (hi.rep.valid_of_mem h).1; omega

theorem sorted_node {R : Nat → Nat → Prop} {n : Nat} {w : Option Bool} {c : Bool → T} (h : (node n w c).ids.Pairwise R) :
    (c false).ids.Pairwise R ∧ (c true).ids.Pairwise R ∧ (∀ m ∈ (c false).ids, R m n) ∧ (∀ m ∈ (c true).ids, R n m) := by
  have hid : (node n w c).ids = (c false).ids ++ n :: (c true).ids := by rw [node_eq false]; exact ino_mk false n w _ _
  rw [hid, List.pairwise_append, List.pairwise_cons] at h
  exact ⟨h.1, h.2.1.2, fun m hm => h.2.2 m hm n (by simp), h.2.1.1⟩

theorem mem_node_iff {n m : Nat} {w : Option Bool} {c : Bool → T} : m ∈ (node n w c).ids ↔ m = n ∨ m ∈ (c false).ids ∨ m ∈ (c true).ids := by
  rw [node_eq false, mem_mk]; rfl

/-! ## `find` -/

theorem findLoop_ok (hlt : StrictWeak lt) {k : K} (t : T) : ∀ (p fuel : Nat), Rep s.h p t → (∀ m ∈ t.ids, s.val m = some (ev m)) →
    t.ids.Pairwise (fun a b => lt (key (ev a)) (key (ev b))) → t.height < fuel →
    ∃ q, findLoop key lt s k p fuel = .ok q ∧ ((q = 0 ∧ ∀ m ∈ t.ids, lt (key (ev m)) k ∨ lt k (key (ev m))) ∨
      (q ∈ t.ids ∧ lt (key (ev q)) k = false ∧ lt k (key (ev q)) = false)) := by
  induction t with
  | nil =>
    intro p fuel r _ _ hf
    obtain ⟨fuel, rfl⟩ : ∃ j, fuel = j + 1 := ⟨fuel - 1, by omega⟩
    have : p = 0 := r
    subst this
    exact ⟨0, by rw [findLoop, if_neg (by simp)], .inl ⟨rfl, by simp [T.ids, T.ino]⟩⟩
  | node n w c ih =>
    intro p fuel r hv ho hf
    obtain ⟨fuel, rfl⟩ : ∃ j, fuel = j + 1 := ⟨fuel - 1, by omega⟩
    obtain ⟨rfl, v, _, rc⟩ := r
    obtain ⟨o1, o2, o3, o4⟩ := sorted_node ho
    have hs : ∀ d, (c d).height < fuel := fun d => by have := height_sub (n := p) (w := w) (c := c) d; omega
    rw [findLoop, if_pos (by have := v.1; omega)]
    simp only [read_ok v (hv p (mem_node _ _ _)), bind, Except.bind]
    by_cases h1 : lt k (key (ev p)) = true
    · rw [if_pos h1]
      simp only [TH.child, if_pos v]
      obtain ⟨q, i1, i2⟩ := ih false _ fuel (rc false) (fun m hm => hv m (mem_sub false hm)) o1 (hs false)
      refine ⟨q, i1, ?_⟩
      rcases i2 with ⟨rfl, i2⟩ | ⟨i2, i3⟩
      · refine .inl ⟨rfl, fun m hm => ?_⟩
        rcases mem_node_iff.1 hm with rfl | hm | hm
        · exact .inr h1
        · exact i2 m hm
        · exact .inr (hlt.trans _ _ _ h1 (o4 m hm))
      · exact .inr ⟨mem_sub false i2, i3⟩
    · rw [if_neg h1]
      by_cases h2 : lt (key (ev p)) k = true
      · rw [if_pos h2]
        simp only [TH.child, if_pos v]
        obtain ⟨q, i1, i2⟩ := ih true _ fuel (rc true) (fun m hm => hv m (mem_sub true hm)) o2 (hs true)
        refine ⟨q, i1, ?_⟩
        rcases i2 with ⟨rfl, i2⟩ | ⟨i2, i3⟩
        · refine .inl ⟨rfl, fun m hm => ?_⟩
          rcases mem_node_iff.1 hm with rfl | hm | hm
          · exact .inl h2
          · exact .inl (hlt.trans _ _ _ (o3 m hm) h2)
          · exact i2 m hm
        · exact .inr ⟨mem_sub true i2, i3⟩
      · rw [if_neg h2]
        exact ⟨p, rfl, .inr ⟨mem_node _ _ _, by simpa using h2, by simpa using h1⟩⟩

/-! ## The extreme nodes -/

theorem limit_ok {h : TH} {d : Bool} (t : T) : ∀ (p fuel : Nat), Rep h p t → t.height < fuel → h.limitLoop d p fuel = .ok ((t.ino d).headD 0) := by
  induction t with
  | nil =>
    intro p fuel r hf
    obtain ⟨fuel, rfl⟩ : ∃ j, fuel = j + 1 := ⟨fuel - 1, by omega⟩
    have : p = 0 := r
    subst this
    rw [TH.limitLoop, if_neg (by simp)]; rfl
  | node n w c ih =>
    intro p fuel r hf
    obtain ⟨fuel, rfl⟩ : ∃ j, fuel = j + 1 := ⟨fuel - 1, by omega⟩
    obtain ⟨rfl, v, _, rc⟩ := r
    have hs : ∀ d, (c d).height < fuel := fun d => by have := height_sub (n := p) (w := w) (c := c) d; omega
    rw [TH.limitLoop, if_pos (by have := v.1; omega)]
    simp only [TH.child, if_pos v, bind, Except.bind]
    by_cases hz : h.ch p d = 0
    · rw [if_neg (by simpa using hz)]
      have hnil : c d = .nil := by
        by_contra hc
        exact ((rc d).ne_zero.2 hc) hz
      simp [T.ino, hnil]
    · rw [if_pos hz, ih d _ fuel (rc d) (hs d)]
      cases hc : c d with
      | nil => have r' := rc d; rw [hc] at r'; exact absurd r' hz
      | node m w2 c2 =>
        simp only [T.ino, hc]
        cases hx : (c2 d).ino d <;> simp

/-! ## Parents -/

theorem split_at {n : Nat} (t : T) (h : n ∈ t.ids) : ∃ fs w x y, t = plug fs (mk false n w x y) := by
  induction t with
  | nil => simp [T.ids, T.ino] at h
  | node m w c ih =>
    rcases mem_node_iff.1 h with rfl | h | h
    · exact ⟨[], w, _, _, node_eq false _ _ _⟩
    · obtain ⟨fs, w', x, y, e⟩ := ih _ h
      exact ⟨⟨m, false, w, c true⟩ :: fs, w', x, y, by rw [plug, ← e]; exact node_eq false m w c⟩
    · obtain ⟨fs, w', x, y, e⟩ := ih _ h
      exact ⟨⟨m, true, w, c false⟩ :: fs, w', x, y, by rw [plug, ← e]; exact node_eq true m w c⟩

theorem sorted_frame {R : Nat → Nat → Prop} {f : Frame} {u : T} (h : (f.plug u).ids.Pairwise R) :
    u.ids.Pairwise R ∧ ∀ m ∈ u.ids, if f.d then R f.n m else R m f.n := by
  rw [ids_fplug, List.pairwise_append, List.pairwise_append] at h
  obtain ⟨⟨_, h2, h3⟩, _, h5⟩ := h
  refine ⟨h2, fun m hm => ?_⟩
  cases hd : f.d
  · exact h5 m (List.mem_append_right _ hm) f.n (by simp [Frame.aft, hd])
  · exact h3 f.n (by simp [Frame.bef, hd]) m hm

theorem mem_rootId {t : T} (h : t ≠ .nil) : t.rootId ∈ t.ids := by
  cases t with
  | nil => exact absurd rfl h
  | node n w c => exact mem_node n w c

/-- At a node of a path that is not yet the parent of `n`, the search continues along the path. -/
theorem path_step (hlt : StrictWeak lt) {p n : Nat} {g : Frame} {u : T} (r : Rep s.h p (g.plug u)) (nd : (g.plug u).ids.Nodup)
    (hv : ∀ m ∈ (g.plug u).ids, s.val m = some (ev m)) (ho : (g.plug u).ids.Pairwise (fun a b => lt (key (ev a)) (key (ev b))))
    (hn : n ∈ u.ids) (hr : n ≠ u.rootId) :
    p = g.n ∧ s.h.valid g.n ∧ Rep s.h (s.h.ch g.n g.d) u ∧ s.h.ch g.n false ≠ n ∧ s.h.ch g.n true ≠ n ∧
      read s g.n = .ok (ev g.n) ∧ read s n = .ok (ev n) ∧
      (g.d = false → lt (key (ev n)) (key (ev g.n)) = true) ∧
      (g.d = true → lt (key (ev g.n)) (key (ev n)) = true ∧ lt (key (ev n)) (key (ev g.n)) = false) := by
  have hn2 : n ∈ (g.plug u).ids := mem_mk.2 (.inr (.inl hn))
  have vn := r.valid_of_mem hn2
  obtain ⟨e, v, _, ru, rs⟩ := rep_mk.1 r
  obtain ⟨n1, n2, n3, n4, n5⟩ := nodup_fplug.1 nd
  have c1 : s.h.ch g.n g.d ≠ n := by rw [ru.root_eq]; exact fun hc => hr hc.symm
  have c2 : s.h.ch g.n (!g.d) ≠ n := by
    intro hc
    have : n ∈ g.sib.ids := by rw [← hc]; exact rs.mem_root (by rw [hc]; have := vn.1; omega)
    exact n5 n hn this
  obtain ⟨_, so⟩ := sorted_frame ho
  have so := so n hn
  refine ⟨e, v, ru, ?_, ?_, read_ok v (hv _ (mem_mk.2 (.inl rfl))), read_ok vn (hv _ hn2), fun hd => ?_, fun hd => ?_⟩
  · cases hd : g.d
    · rw [hd] at c1; exact c1
    · rw [hd] at c2; exact c2
  · cases hd : g.d
    · rw [hd] at c2; exact c2
    · rw [hd] at c1; exact c1
  · rw [hd] at so; exact so
  · rw [hd] at so; exact ⟨so, hlt.asymm so⟩

theorem root_deep {fs : List Frame} {f : Frame} {x : T} {n : Nat} (nd : (plug (fs ++ [f]) x).ids.Nodup) (hx : n ∈ x.ids) :
    n ≠ (plug (fs ++ [f]) x).rootId := by
  intro hc
  cases fs with
  | nil =>
    have : (f.plug x).ids.Nodup := nd
    exact (nodup_fplug.1 this).1 (by have : n = f.n := hc; rw [← this]; exact hx)
  | cons g fs =>
    have : (g.plug (plug (fs ++ [f]) x)).ids.Nodup := nd
    exact (nodup_fplug.1 this).1 (by have : n = g.n := hc; rw [← this]; exact mem_plug.2 (.inr hx))

theorem last_step {p n : Nat} {f : Frame} {x : T} (r : Rep s.h p (f.plug x)) (hn : n = x.rootId) :
    p = f.n ∧ s.h.valid f.n ∧ s.h.ch f.n f.d = n := by
  obtain ⟨e, v, _, rx, _⟩ := rep_mk.1 r
  exact ⟨e, v, by rw [rx.root_eq, hn]⟩

theorem parentLoop_ok (hlt : StrictWeak lt) {n : Nat} {f : Frame} {x : T} (hx : x ≠ .nil) (hn : n = x.rootId) (fs : List Frame) : ∀ (p fuel : Nat),
    Rep s.h p (plug (fs ++ [f]) x) → (plug (fs ++ [f]) x).ids.Nodup → (∀ m ∈ (plug (fs ++ [f]) x).ids, s.val m = some (ev m)) →
    (plug (fs ++ [f]) x).ids.Pairwise (fun a b => lt (key (ev a)) (key (ev b))) → fs.length < fuel →
    parentLoop key lt s n p fuel = .ok f.n := by
  have hmx : n ∈ x.ids := hn ▸ mem_rootId hx
  induction fs with
  | nil =>
    intro p fuel r nd hv ho hf
    obtain ⟨fuel, rfl⟩ : ∃ j, fuel = j + 1 := ⟨fuel - 1, by omega⟩
    obtain ⟨rfl, v, e2⟩ := last_step (f := f) r hn
    rw [parentLoop, if_pos (by have := v.1; omega)]
    simp only [TH.child, if_pos v, bind, Except.bind]
    rw [if_neg]
    rintro ⟨h1, h2⟩
    cases hd : f.d
    · rw [hd] at e2; exact h1 e2
    · rw [hd] at e2; exact h2 e2
  | cons g fs ih =>
    intro p fuel r nd hv ho hf
    obtain ⟨fuel, rfl⟩ : ∃ j, fuel = j + 1 := ⟨fuel - 1, by omega⟩
    obtain ⟨rfl, v, ru, c1, c2, r1, r2, d1, d2⟩ := path_step hlt (g := g) (u := plug (fs ++ [f]) x) r nd hv ho (mem_plug.2 (.inr hmx))
      (root_deep ((nodup_fplug (f := g)).1 nd).2.2.1 hmx)
    have ihr := ih _ fuel ru ((nodup_fplug (f := g)).1 nd).2.2.1 (fun m hm => hv m (mem_mk.2 (.inr (.inl hm)))) (sorted_frame (f := g) ho).1 (by simp at hf; omega)
    rw [parentLoop, if_pos (by have := v.1; omega)]
    simp only [TH.child, if_pos v, bind, Except.bind]
    rw [if_pos ⟨c1, c2⟩]
    simp only [r1, r2]
    cases hd : g.d
    · rw [hd] at ihr; rw [if_pos (d1 hd)]; exact ihr
    · rw [hd] at ihr; rw [if_neg (by rw [(d2 hd).2]; simp), if_pos (d2 hd).1]; exact ihr

theorem findParent_snoc (hlt : StrictWeak lt) (hi : Inv key lt s t ev) {fs : List Frame} {f : Frame} {x : T} (hx : x ≠ .nil) (ht : t = plug (fs ++ [f]) x) :
    findParent key lt s x.rootId = .ok f.n := by
  have hmx : x.rootId ∈ x.ids := mem_rootId hx
  have hmt : x.rootId ∈ t.ids := by rw [ht]; exact mem_plug.2 (.inr hmx)
  have hne := root_deep (ht ▸ hi.nodup) hmx
  have hroot := hi.rep.root_eq
  unfold findParent
  have hr0 : s.h.root ≠ 0 := by
    rw [hroot, ht]; intro hc
    have hm := mem_rootId (t := t) (by rintro rfl; simp [T.ids, T.ino] at hmt)
    exact hi.pos hm (by rw [ht]; exact hc)
  rw [if_pos ⟨hr0, hi.pos hmt, fun hc => hne (by rw [← ht, ← hc, hroot])⟩]
  · have hl := len_le_height (fs ++ [f]) x
    have := hi.hfuel
    rw [ht] at this
    exact parentLoop_ok hlt hx rfl fs _ _ (by rw [← ht]; exact hi.rep) (by rw [← ht]; exact hi.nodup) (by rw [← ht]; exact hi.vals)
      (by rw [← ht]; exact hi.ord) (by simp at hl; omega)

theorem findParent_root (hi : Inv key lt s t ev) : findParent key lt s t.rootId = .ok 0 := by
  unfold findParent
  rw [if_neg (by rintro ⟨_, _, h⟩; exact h hi.rep.root_eq)]

theorem climb_ok (hlt : StrictWeak lt) (hi : Inv key lt s t ev) {d : Bool} : ∀ (fs : List Frame) (x : T) (fuel : Nat), x ≠ .nil → t = plug fs x → fs.length < fuel →
    climbLoop key lt s d x.rootId fuel = .ok (if d then (aft fs).headD 0 else (bef fs).getLastD 0) := by
  intro fs
  induction fs using List.reverseRecOn with
  | nil =>
    intro x fuel hx ht hf
    obtain ⟨fuel, rfl⟩ : ∃ j, fuel = j + 1 := ⟨fuel - 1, by omega⟩
    have ht' : t = x := ht
    subst ht'
    rw [climbLoop, findParent_root hi]
    simp [bind, Except.bind, bef, aft]
  | append_singleton fs f ih =>
    intro x fuel hx ht hf
    obtain ⟨fuel, rfl⟩ : ∃ j, fuel = j + 1 := ⟨fuel - 1, by omega⟩
    have hmx := mem_rootId hx
    rw [climbLoop, findParent_snoc hlt hi hx ht]
    have hr := hi.rep
    rw [ht, plug_append] at hr
    obtain ⟨_, rt⟩ := (rep_plug (L := .root)).1 hr
    obtain ⟨_, v, _, rx, rs⟩ := rep_mk.1 rt
    have nd := hi.nodup
    rw [ht, plug_append] at nd
    obtain ⟨_, _, _, _, n5⟩ := nodup_fplug.1 (nodup_plug_sub nd)
    have hx0 : x.rootId ≠ 0 := hi.pos (by rw [ht]; exact mem_plug.2 (.inr hmx))
    simp only [bind, Except.bind]
    rw [if_pos (by have := v.1; omega)]
    simp only [TH.child, if_pos v]
    by_cases hd : f.d = d
    · have : s.h.ch f.n d = x.rootId := by rw [← hd]; exact rx.root_eq
      rw [if_pos this]
      have := ih (f.plug x) fuel (by simp [Frame.plug, mk]) (by rw [ht, plug_append]; rfl) (by simp at hf; omega)
      rw [show (f.plug x).rootId = f.n from rfl] at this
      rw [this, aft_append, bef_append]
      subst hd
      cases hfd : f.d <;> simp [aft, bef, Frame.aft, Frame.bef, hfd]
    · have hd' : d = !f.d := by cases d <;> cases hfd : f.d <;> simp_all
      have : ¬ s.h.ch f.n d = x.rootId := by
        rw [hd']; intro hc
        have hm : x.rootId ∈ f.sib.ids := by rw [← hc]; exact rs.mem_root (by rw [hc]; exact hx0)
        exact n5 _ hmx hm
      rw [if_neg this, aft_append, bef_append, hd']
      cases hfd : f.d <;> simp [aft, bef, Frame.aft, Frame.bef, hfd]

theorem nodup_split {X Y X' Y' : List Nat} {n : Nat} (h : (X ++ n :: Y).Nodup) (e : X ++ n :: Y = X' ++ n :: Y') : X = X' ∧ Y = Y' := by
  have h1 : n ∉ X := fun hc => (List.nodup_append.1 h).2.2 n hc n (by simp) rfl
  rw [e] at h
  have h2 : n ∉ X' := fun hc => (List.nodup_append.1 h).2.2 n hc n (by simp) rfl
  induction X generalizing X' with
  | nil =>
    cases X' with
    | nil => simpa using e
    | cons a X' =>
      simp only [List.nil_append, List.cons_append, List.cons.injEq] at e
      rw [← e.1] at h2; simp at h2
  | cons a X ih =>
    cases X' with
    | nil =>
      simp only [List.nil_append, List.cons_append, List.cons.injEq] at e
      rw [e.1] at h1; simp at h1
    | cons b X' =>
      simp only [List.cons_append, List.cons.injEq] at e
      obtain ⟨rfl, e⟩ := e
      obtain ⟨i1, i2⟩ := ih (List.nodup_cons.1 h).2 e (fun hc => h1 (List.mem_cons_of_mem _ hc)) (fun hc => h2 (List.mem_cons_of_mem _ hc))
      exact ⟨by rw [i1], i2⟩

/-- `++it`. -/
theorem next_ok (hlt : StrictWeak lt) (hi : Inv key lt s t ev) {X Y : List Nat} {n : Nat} (h : t.ids = X ++ n :: Y) : next key lt s n = .ok (Y.headD 0) := by
  have hmn : n ∈ t.ids := by rw [h]; simp
  obtain ⟨fs, w, x, y, ht⟩ := split_at t hmn
  have hid : t.ids = (bef fs ++ x.ids) ++ n :: (y.ids ++ aft fs) := by rw [ht, ids_plug, ids_mk_f]; simp
  obtain ⟨_, hY⟩ := nodup_split (h ▸ hi.nodup) (h.symm.trans hid)
  have hr := hi.rep
  rw [ht] at hr
  obtain ⟨_, rt⟩ := (rep_plug (L := .root)).1 hr
  obtain ⟨_, v, _, rx, ry⟩ := rep_mk.1 rt
  have hl := len_le_height fs (mk false n w x y)
  have hfu := hi.hfuel
  rw [ht] at hfu
  rw [height_mk] at hl
  unfold next
  rw [if_pos (hi.pos hmn)]
  simp only [TH.child, if_pos v, bind, Except.bind]
  rw [hY]
  by_cases hz : s.h.ch n true = 0
  · rw [if_neg (by simpa using hz)]
    have hnil : y = .nil := by
      by_contra hc
      exact (ry.ne_zero.2 hc) hz
    have := climb_ok hlt hi (d := true) fs (mk false n w x y) (s.cap + 1) (by simp [mk]) ht (by omega)
    rw [show (mk false n w x y).rootId = n from rfl] at this
    rw [this, hnil]; rfl
  · rw [if_pos hz, limit_ok (d := false) y (s.h.ch n true) _ ry (show y.height < s.cap + 1 by omega)]
    have : y ≠ .nil := ry.ne_zero.1 hz
    have hne : y.ids ≠ [] := fun hc => by have := mem_rootId this; rw [hc] at this; simp at this
    cases hy : y.ids with
    | nil => exact absurd hy hne
    | cons a b => rw [show y.ino false = y.ids from rfl, hy]; rfl

/-- `--it`. -/
theorem prev_ok (hlt : StrictWeak lt) (hi : Inv key lt s t ev) {X Y : List Nat} {n : Nat} (h : t.ids = X ++ n :: Y) : prev key lt s n = .ok (X.getLastD 0) := by
  have hmn : n ∈ t.ids := by rw [h]; simp
  obtain ⟨fs, w, x, y, ht⟩ := split_at t hmn
  have hid : t.ids = (bef fs ++ x.ids) ++ n :: (y.ids ++ aft fs) := by rw [ht, ids_plug, ids_mk_f]; simp
  obtain ⟨hX, _⟩ := nodup_split (h ▸ hi.nodup) (h.symm.trans hid)
  have hr := hi.rep
  rw [ht] at hr
  obtain ⟨_, rt⟩ := (rep_plug (L := .root)).1 hr
  obtain ⟨_, v, _, rx, ry⟩ := rep_mk.1 rt
  have hl := len_le_height fs (mk false n w x y)
  have hfu := hi.hfuel
  rw [ht] at hfu
  rw [height_mk] at hl
  unfold prev
  rw [if_neg (hi.pos hmn)]
  simp only [TH.child, if_pos v, bind, Except.bind]
  rw [hX]
  by_cases hz : s.h.ch n false = 0
  · rw [if_neg (by simpa using hz)]
    have hnil : x = .nil := by
      by_contra hc
      exact (rx.ne_zero.2 hc) hz
    have := climb_ok hlt hi (d := false) fs (mk false n w x y) (s.cap + 1) (by simp [mk]) ht (by omega)
    rw [show (mk false n w x y).rootId = n from rfl] at this
    rw [this, hnil]; simp [T.ids, T.ino]
  · rw [if_pos hz, limit_ok x _ _ rx (show x.height < s.cap + 1 by omega)]
    have : x ≠ .nil := rx.ne_zero.1 hz
    have hne : x.ids ≠ [] := fun hc => by have := mem_rootId this; rw [hc] at this; simp at this
    have hrev : x.ino true = x.ids.reverse := ino_rev false x
    rw [hrev]
    rcases List.eq_nil_or_concat x.ids with hc | ⟨a, b, hc⟩
    · exact absurd hc hne
    · rw [hc]; simp [List.getLastD_eq_getLast?]

theorem prev_end (hi : Inv key lt s t ev) : prev key lt s 0 = .ok (t.ids.getLastD 0) := by
  unfold prev
  rw [if_pos rfl, limit_ok t _ _ hi.rep hi.hfuel]
  have hrev : t.ino true = t.ids.reverse := ino_rev false t
  rw [hrev, List.getLastD_eq_getLast?, List.headD_eq_head?_getD, List.head?_reverse]

theorem begin_ok (hi : Inv key lt s t ev) : begin s = .ok (t.ids.headD 0) := limit_ok t _ _ hi.rep hi.hfuel

/-! ## `find_node(position, node)` -/

theorem findRef_ok (hlt : StrictWeak lt) {n : Nat} {x : T} (hx : x ≠ .nil) (hn : n = x.rootId) (fs : List Frame) : ∀ (p fuel : Nat),
    Rep s.h p (plug fs x) → (plug fs x).ids.Nodup → (∀ m ∈ (plug fs x).ids, s.val m = some (ev m)) →
    (plug fs x).ids.Pairwise (fun a b => lt (key (ev a)) (key (ev b))) → fs.length < fuel →
    findRefLoop key lt s n p fuel = .ok (endLoc .root fs) := by
  have hmx : n ∈ x.ids := hn ▸ mem_rootId hx
  induction fs with
  | nil =>
    intro p fuel r nd hv ho hf
    obtain ⟨fuel, rfl⟩ : ∃ j, fuel = j + 1 := ⟨fuel - 1, by omega⟩
    cases x with
    | nil => exact absurd rfl hx
    | node m w c =>
      have hnm : n = m := hn
      subst hnm
      have hnd : (node n w c).ids.Nodup := nd
      have hc : ∀ d, s.h.ch n d ≠ n := by
        intro d hc
        rw [node_eq d] at hnd
        have hm := (r.2.2.2 d).mem_root (by rw [hc]; have := r.2.1.1; omega)
        rw [hc] at hm
        exact (nodup_mk.1 hnd).1 hm
      obtain ⟨rfl, v, _, rc⟩ := r
      rw [findRefLoop, if_pos (by have := v.1; omega)]
      simp only [TH.child, if_pos v, bind, Except.bind]
      rw [if_neg (hc false), if_neg (hc true)]
      simp only [read_ok v (hv _ (mem_node _ _ _)), hlt.irrefl]
      rfl
  | cons g fs ih =>
    intro p fuel r nd hv ho hf
    obtain ⟨fuel, rfl⟩ : ∃ j, fuel = j + 1 := ⟨fuel - 1, by omega⟩
    cases fs with
    | nil =>
      obtain ⟨rfl, v, e2⟩ := last_step (f := g) r hn
      obtain ⟨n1, n2, n3, n4, n5⟩ := (nodup_fplug (f := g)).1 nd
      rw [findRefLoop, if_pos (by have := v.1; omega)]
      simp only [TH.child, if_pos v, bind, Except.bind]
      have c2 : s.h.ch g.n (!g.d) ≠ n := by
        intro hc
        have vn := Rep.valid_of_mem (t := g.plug x) r (mem_mk.2 (.inr (.inl hmx)))
        have : n ∈ g.sib.ids := by rw [← hc]; exact (rep_mk.1 r).2.2.2.2.mem_root (by rw [hc]; have := vn.1; omega)
        exact n5 n hmx this
      cases hd : g.d
      · rw [hd] at e2; rw [if_pos e2, endLoc, endLoc, hd]
      · rw [hd] at e2 c2; rw [if_neg (show ¬ s.h.ch g.n false = n from c2), if_pos e2, endLoc, endLoc, hd]
    | cons g2 fs =>
      have hdeep : n ≠ (plug (g2 :: fs) x).rootId := by
        rcases List.eq_nil_or_concat (g2 :: fs) with hc | ⟨a, b, hc⟩
        · cases hc
        · rw [hc, List.concat_eq_append]
          refine root_deep ?_ hmx
          rw [← List.concat_eq_append, ← hc]
          exact ((nodup_fplug (f := g)).1 nd).2.2.1
      obtain ⟨rfl, v, ru, c1, c2, r1, r2, d1, d2⟩ := path_step hlt (g := g) (u := plug (g2 :: fs) x) r nd hv ho (mem_plug.2 (.inr hmx)) hdeep
      have ihr := ih _ fuel ru ((nodup_fplug (f := g)).1 nd).2.2.1 (fun m hm => hv m (mem_mk.2 (.inr (.inl hm)))) (sorted_frame (f := g) ho).1 (by simp at hf ⊢; omega)
      rw [findRefLoop, if_pos (by have := v.1; omega)]
      simp only [TH.child, if_pos v, bind, Except.bind]
      rw [if_neg c1, if_neg c2]
      simp only [r1, r2]
      have he : endLoc .root (g :: g2 :: fs) = endLoc .root (g2 :: fs) := rfl
      rw [he]
      cases hd : g.d
      · rw [hd] at ihr; rw [if_pos (d1 hd)]; exact ihr
      · rw [hd] at ihr; rw [if_neg (by rw [(d2 hd).2]; simp), if_pos (d2 hd).1]; exact ihr

/-- The reference found for a node holds it. -/
theorem findRef_get (hlt : StrictWeak lt) (hi : Inv key lt s t ev) {n : Nat} (hn : n ∈ t.ids) :
    ∃ L, findRefLoop key lt s n s.h.root (s.cap + 1) = .ok L ∧ s.h.getL L = .ok n := by
  obtain ⟨fs, w, x, y, ht⟩ := split_at t hn
  have hl := len_le_height fs (mk false n w x y)
  have hfu := hi.hfuel
  rw [ht] at hfu
  refine ⟨_, findRef_ok hlt (x := mk false n w x y) (by simp [mk]) rfl fs _ _ (by rw [← ht]; exact hi.rep) (by rw [← ht]; exact hi.nodup)
    (by rw [← ht]; exact hi.vals) (by rw [← ht]; exact hi.ord) (by omega), ?_⟩
  obtain ⟨pr, rt⟩ := (rep_plug (L := .root)).1 (ht ▸ hi.rep)
  rw [getL_ok (lv_end pr), (rep_mk.1 rt).1]

/-! ## Bounds -/

theorem find?_all_false {p : Nat → Bool} {l : List Nat} (h : ∀ m ∈ l, p m = false) : l.find? p = none := by
  rw [List.find?_eq_none]; intro m hm; rw [h m hm]; simp

theorem ids_node (n : Nat) (w : Option Bool) (c : Bool → T) : (node n w c).ids = (c false).ids ++ n :: (c true).ids := by
  rw [node_eq false]; exact ino_mk false n w _ _

theorem find?_mid {p : Nat → Bool} {X Y : List Nat} {n : Nat} (hn : p n = true) (b : Nat) : ((X ++ n :: Y).find? p).getD b = (X.find? p).getD n := by
  rw [List.find?_append, List.find?_cons]
  simp only [hn]
  cases X.find? p <;> rfl

theorem find?_right {p : Nat → Bool} {X Y : List Nat} {n : Nat} (hX : ∀ m ∈ X, p m = false) (hn : p n = false) : (X ++ n :: Y).find? p = Y.find? p := by
  rw [List.find?_append, find?_all_false hX, List.find?_cons]
  simp only [hn]; rfl

theorem lowerLoop_ok (hlt : StrictWeak lt) {k : K} (t : T) : ∀ (p best fuel : Nat), Rep s.h p t → (∀ m ∈ t.ids, s.val m = some (ev m)) →
    t.ids.Pairwise (fun a b => lt (key (ev a)) (key (ev b))) → t.height < fuel →
    lowerLoop key lt s k p best fuel = .ok ((t.ids.find? (fun m => !lt (key (ev m)) k)).getD best) := by
  induction t with
  | nil =>
    intro p best fuel r _ _ hf
    obtain ⟨fuel, rfl⟩ : ∃ j, fuel = j + 1 := ⟨fuel - 1, by omega⟩
    have : p = 0 := r
    subst this
    rw [lowerLoop, if_neg (by simp)]; rfl
  | node n w c ih =>
    intro p best fuel r hv ho hf
    obtain ⟨fuel, rfl⟩ : ∃ j, fuel = j + 1 := ⟨fuel - 1, by omega⟩
    obtain ⟨rfl, v, _, rc⟩ := r
    obtain ⟨o1, o2, o3, o4⟩ := sorted_node ho
    have hs : ∀ d, (c d).height < fuel := fun d => by have := height_sub (n := p) (w := w) (c := c) d; omega
    rw [lowerLoop, if_pos (by have := v.1; omega), ids_node]
    simp only [read_ok v (hv p (mem_node _ _ _)), bind, Except.bind]
    by_cases h1 : lt k (key (ev p)) = true
    · rw [if_pos h1]
      simp only [TH.child, if_pos v]
      have hp : (fun m => !lt (key (ev m)) k) p = true := by simp [hlt.asymm h1]
      rw [find?_mid hp]
      by_cases hz : s.h.ch p false = 0
      · rw [if_neg (by simpa using hz)]
        have hnil : c false = .nil := by
          by_contra hc
          exact ((rc false).ne_zero.2 hc) hz
        rw [hnil]; rfl
      · rw [if_pos hz]
        exact ih false _ p fuel (rc false) (fun m hm => hv m (mem_sub false hm)) o1 (hs false)
    · rw [if_neg h1]
      by_cases h2 : lt (key (ev p)) k = true
      · rw [if_pos h2]
        simp only [TH.child, if_pos v]
        rw [find?_right (p := fun m => !lt (key (ev m)) k) (fun m hm => by simp [hlt.trans _ _ _ (o3 m hm) h2]) (by simp [h2])]
        exact ih true _ best fuel (rc true) (fun m hm => hv m (mem_sub true hm)) o2 (hs true)
      · rw [if_neg h2]
        simp only [TH.child, if_pos v]
        have hp : (fun m => !lt (key (ev m)) k) p = true := by simpa using h2
        rw [find?_mid hp]
        exact ih false _ p fuel (rc false) (fun m hm => hv m (mem_sub false hm)) o1 (hs false)

theorem upperLoop_ok (hlt : StrictWeak lt) {k : K} (t : T) : ∀ (p best fuel : Nat), Rep s.h p t → (∀ m ∈ t.ids, s.val m = some (ev m)) →
    t.ids.Pairwise (fun a b => lt (key (ev a)) (key (ev b))) → t.height < fuel → t.height < s.cap + 1 →
    upperLoop key lt s k p best fuel = .ok ((t.ids.find? (fun m => lt k (key (ev m)))).getD best) := by
  induction t with
  | nil =>
    intro p best fuel r _ _ hf _
    obtain ⟨fuel, rfl⟩ : ∃ j, fuel = j + 1 := ⟨fuel - 1, by omega⟩
    have : p = 0 := r
    subst this
    rw [upperLoop, if_neg (by simp)]; rfl
  | node n w c ih =>
    intro p best fuel r hv ho hf hc
    obtain ⟨fuel, rfl⟩ : ∃ j, fuel = j + 1 := ⟨fuel - 1, by omega⟩
    obtain ⟨rfl, v, _, rc⟩ := r
    obtain ⟨o1, o2, o3, o4⟩ := sorted_node ho
    have hs : ∀ d, (c d).height < fuel := fun d => by have := height_sub (n := p) (w := w) (c := c) d; omega
    have hs2 : ∀ d, (c d).height < s.cap + 1 := fun d => by have := height_sub (n := p) (w := w) (c := c) d; omega
    rw [upperLoop, if_pos (by have := v.1; omega), ids_node]
    simp only [read_ok v (hv p (mem_node _ _ _)), bind, Except.bind]
    by_cases h1 : lt k (key (ev p)) = true
    · rw [if_pos h1]
      simp only [TH.child, if_pos v]
      rw [find?_mid (p := fun m => lt k (key (ev m))) h1]
      exact ih false _ p fuel (rc false) (fun m hm => hv m (mem_sub false hm)) o1 (hs false) (hs2 false)
    · rw [if_neg h1]
      have hk1 : lt k (key (ev p)) = false := by simpa using h1
      have hX : ∀ m ∈ (c false).ids, lt k (key (ev m)) = false := by
        intro m hm
        cases hk : lt k (key (ev m))
        · rfl
        · have := hlt.trans _ _ _ hk (o3 m hm); rw [hk1] at this; cases this
      rw [find?_right (p := fun m => lt k (key (ev m))) hX hk1]
      by_cases h2 : lt (key (ev p)) k = true
      · rw [if_pos h2]
        simp only [TH.child, if_pos v]
        exact ih true _ best fuel (rc true) (fun m hm => hv m (mem_sub true hm)) o2 (hs true) (hs2 true)
      · rw [if_neg h2]
        simp only [TH.child, if_pos v]
        by_cases hz : s.h.ch p true = 0
        · rw [if_neg (by simpa using hz)]
          have hnil : c true = .nil := by
            by_contra hc
            exact ((rc true).ne_zero.2 hc) hz
          rw [hnil]; rfl
        · rw [if_pos hz, limit_ok (c true) _ _ (rc true) (hs2 true), show (c true).ino false = (c true).ids from rfl]
          have hne : c true ≠ .nil := (rc true).ne_zero.1 hz
          cases hids : (c true).ids with
          | nil => have := mem_rootId hne; rw [hids] at this; simp at this
          | cons a b =>
            have : lt k (key (ev a)) = true := hlt.lt_of_le_of_lt (by simpa using h2) (o4 a (by rw [hids]; simp))
            rw [List.find?_cons]; simp only [this]; rfl

end Etl.Tree
