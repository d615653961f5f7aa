import Verif.MTree.Remove
import Mathlib.Data.List.Induction

/-! # Searching and iterating -/
namespace Etl.MTree
open Etl.Tree T

variable {α K : Type} {key : α → K} {lt : K → K → Bool} {s : St α} {t : T} {ev : Nat → α}

/-- The container is sound: it represents the balanced tree `t`, the node `n` holds `ev n`, the other items are in the pool. -/
structure Ok (s : St α) (t : T) (ev : Nat → α) : Prop where
  rep : Rep s.h.t s.h.t.root t
  bal : t.Bal
  par : Par s.h.par 0 t
  vals : ∀ m ∈ t.ids, s.val m = some (ev m)
  pool : Pool s.b t

/-- The elements are in order. -/
def Ord (key : α → K) (lt : K → K → Bool) (ev : Nat → α) (ids : List Nat) : Prop := ids.Pairwise (fun a b => lt (key (ev b)) (key (ev a)) = false)

theorem Ok.nodup (hi : Ok s t ev) : t.ids.Nodup := (List.nodup_append.1 hi.pool.nodup).1
theorem Ok.len (hi : Ok s t ev) : t.ids.length ≤ s.cap := by have : t.ids.length + s.free.length = s.cap := hi.pool.len; omega
theorem Ok.hfuel (hi : Ok s t ev) : t.height < s.cap + 1 := by have := height_le_len t; have := hi.len; omega
theorem Ok.pos (hi : Ok s t ev) {n : Nat} (h : n ∈ t.ids) : n ≠ 0 := by have := (hi.rep.valid_of_mem h).1; omega
theorem Ok.read (hi : Ok s t ev) {n : Nat} (h : n ∈ t.ids) : MTree.read s n = .ok (ev n) := read_ok (hi.rep.valid_of_mem h) (hi.vals n h)

theorem climb_ok (hi : Ok s t ev) {d : Bool} : ∀ (fs : List Frame) (x : T) (fuel : Nat), x ≠ .nil → t = plug fs x → fs.length < fuel →
    s.h.climbLoop d x.rootId fuel = .ok (if d then (aft fs).headD 0 else (bef fs).getLastD 0) := by
  intro fs
  induction fs using List.reverseRecOn with
  | nil =>
    intro x fuel hx ht hf
    obtain ⟨fuel, rfl⟩ : ∃ j, fuel = j + 1 := ⟨fuel - 1, by omega⟩
    have ht' : t = x := ht
    subst ht'
    have v := hi.rep.valid_of_mem (mem_rootId hx)
    have hq : s.h.par t.rootId = 0 := by
      have hp := hi.par
      cases t with
      | nil => exact absurd rfl hx
      | node n w c => exact hp.1
    rw [MH.climbLoop, MH.parent_ok v, hq]
    simp [bind, Except.bind, bef, aft]
  | append_singleton fs f ih =>
    intro x fuel hx ht hf
    obtain ⟨fuel, rfl⟩ : ∃ j, fuel = j + 1 := ⟨fuel - 1, by omega⟩
    have hmx := mem_rootId hx
    have v0 := hi.rep.valid_of_mem (show x.rootId ∈ t.ids by rw [ht]; exact mem_plug.2 (.inr hmx))
    have hq : s.h.par x.rootId = f.n := by
      have hp := hi.par
      rw [ht] at hp
      have hp := (par_plug.1 hp).2
      rw [lastD_snoc] at hp
      cases x with
      | nil => exact absurd rfl hx
      | node n w c => exact hp.1
    rw [MH.climbLoop, MH.parent_ok v0, hq]
    have hr := hi.rep
    rw [ht, plug_append] at hr
    obtain ⟨_, rt⟩ := (rep_plug (L := .root)).1 hr
    obtain ⟨_, v, _, rx, rs⟩ := rep_mk.1 rt
    have nd := hi.nodup
    rw [ht, plug_append] at nd
    obtain ⟨_, _, _, _, n5⟩ := nodup_fplug.1 (nodup_plug_sub nd)
    have hx0 : x.rootId ≠ 0 := hi.pos (by rw [ht]; exact mem_plug.2 (.inr hmx))
    simp only [bind, Except.bind]
    rw [if_pos (by have := v.1; omega)]
    simp only [TH.child, if_pos v]
    by_cases hd : f.d = d
    · have : s.h.t.ch f.n d = x.rootId := by rw [← hd]; exact rx.root_eq
      rw [if_pos this]
      have := ih (f.plug x) fuel (by simp [Frame.plug, mk]) (by rw [ht, plug_append]; rfl) (by simp at hf; omega)
      rw [show (f.plug x).rootId = f.n from rfl] at this
      rw [this, aft_append, bef_append]
      subst hd
      cases hfd : f.d <;> simp [aft, bef, Frame.aft, Frame.bef, hfd]
    · have hd' : d = !f.d := by cases d <;> cases hfd : f.d <;> simp_all
      have : ¬ s.h.t.ch f.n d = x.rootId := by
        rw [hd']; intro hc
        have hm : x.rootId ∈ f.sib.ids := by rw [← hc]; exact rs.mem_root (by rw [hc]; exact hx0)
        exact n5 _ hmx hm
      rw [if_neg this, aft_append, bef_append, hd']
      cases hfd : f.d <;> simp [aft, bef, Frame.aft, Frame.bef, hfd]

/-- `++it`. -/
theorem next_ok (hi : Ok s t ev) {X Y : List Nat} {n : Nat} (h : t.ids = X ++ n :: Y) : next s n = .ok (Y.headD 0) := by
  have hmn : n ∈ t.ids := by rw [h]; simp
  obtain ⟨fs, w, x, y, ht⟩ := split_at t hmn
  have hid : t.ids = (bef fs ++ x.ids) ++ n :: (y.ids ++ aft fs) := by rw [ht, ids_plug, ids_mk_f]; simp
  obtain ⟨_, hY⟩ := nodup_split (h ▸ hi.nodup) (h.symm.trans hid)
  have hr := hi.rep
  rw [ht] at hr
  obtain ⟨_, rt⟩ := (rep_plug (L := .root)).1 hr
  obtain ⟨_, v, _, rx, ry⟩ := rep_mk.1 rt
  have hl := len_le_height fs (mk false n w x y)
  have hfu := hi.hfuel
  rw [ht] at hfu
  rw [height_mk] at hl
  unfold next
  rw [if_pos (hi.pos hmn)]
  simp only [TH.child, if_pos v, bind, Except.bind]
  rw [hY]
  by_cases hz : s.h.t.ch n true = 0
  · rw [if_neg (by simpa using hz)]
    have hnil : y = .nil := by
      by_contra hc
      exact (ry.ne_zero.2 hc) hz
    have := climb_ok hi (d := true) fs (mk false n w x y) (s.cap + 1) (by simp [mk]) ht (by omega)
    rw [show (mk false n w x y).rootId = n from rfl] at this
    rw [this, hnil]; rfl
  · rw [if_pos hz, limit_ok (d := false) y (s.h.t.ch n true) _ ry (show y.height < s.cap + 1 by omega)]
    have : y ≠ .nil := ry.ne_zero.1 hz
    have hne : y.ids ≠ [] := fun hc => by have := mem_rootId this; rw [hc] at this; simp at this
    cases hy : y.ids with
    | nil => exact absurd hy hne
    | cons a b => rw [show y.ino false = y.ids from rfl, hy]; rfl

/-- `--it`. -/
theorem prev_ok (hi : Ok s t ev) {X Y : List Nat} {n : Nat} (h : t.ids = X ++ n :: Y) : prev s n = .ok (X.getLastD 0) := by
  have hmn : n ∈ t.ids := by rw [h]; simp
  obtain ⟨fs, w, x, y, ht⟩ := split_at t hmn
  have hid : t.ids = (bef fs ++ x.ids) ++ n :: (y.ids ++ aft fs) := by rw [ht, ids_plug, ids_mk_f]; simp
  obtain ⟨hX, _⟩ := nodup_split (h ▸ hi.nodup) (h.symm.trans hid)
  have hr := hi.rep
  rw [ht] at hr
  obtain ⟨_, rt⟩ := (rep_plug (L := .root)).1 hr
  obtain ⟨_, v, _, rx, ry⟩ := rep_mk.1 rt
  have hl := len_le_height fs (mk false n w x y)
  have hfu := hi.hfuel
  rw [ht] at hfu
  rw [height_mk] at hl
  unfold prev
  rw [if_neg (hi.pos hmn)]
  simp only [TH.child, if_pos v, bind, Except.bind]
  rw [hX]
  by_cases hz : s.h.t.ch n false = 0
  · rw [if_neg (by simpa using hz)]
    have hnil : x = .nil := by
      by_contra hc
      exact (rx.ne_zero.2 hc) hz
    have := climb_ok hi (d := false) fs (mk false n w x y) (s.cap + 1) (by simp [mk]) ht (by omega)
    rw [show (mk false n w x y).rootId = n from rfl] at this
    rw [this, hnil]; simp [T.ids, T.ino]
  · rw [if_pos hz, limit_ok x _ _ rx (show x.height < s.cap + 1 by omega)]
    have : x ≠ .nil := rx.ne_zero.1 hz
    have hne : x.ids ≠ [] := fun hc => by have := mem_rootId this; rw [hc] at this; simp at this
    have hrev : x.ino true = x.ids.reverse := ino_rev false x
    rw [hrev]
    rcases List.eq_nil_or_concat x.ids with hc | ⟨a, b, hc⟩
    · exact absurd hc hne
    · rw [hc]; simp [List.getLastD_eq_getLast?]

theorem prev_end (hi : Ok s t ev) : prev s 0 = .ok (t.ids.getLastD 0) := by
  unfold prev
  rw [if_pos rfl, limit_ok t _ _ hi.rep hi.hfuel]
  have hrev : t.ino true = t.ids.reverse := ino_rev false t
  rw [hrev, List.getLastD_eq_getLast?, List.headD_eq_head?_getD, List.head?_reverse]

theorem begin_ok (hi : Ok s t ev) : begin s = .ok (t.ids.headD 0) := limit_ok t _ _ hi.rep hi.hfuel

/-! ## `find`, `lower_bound`, `upper_bound` -/

theorem findLoop_ok (hlt : StrictWeak lt) {k : K} (t : T) : ∀ (p found fuel : Nat), Rep s.h.t p t → (∀ m ∈ t.ids, s.val m = some (ev m)) →
    Ord key lt ev t.ids → t.height < fuel →
    findLoop key lt s k p found fuel = .ok ((t.ids.find? (fun m => !lt (key (ev m)) k && !lt k (key (ev m)))).getD found) := by
  induction t with
  | nil =>
    intro p found fuel r _ _ hf
    obtain ⟨fuel, rfl⟩ : ∃ j, fuel = j + 1 := ⟨fuel - 1, by omega⟩
    have : p = 0 := r
    subst this
    rw [findLoop, if_neg (by simp)]; rfl
  | node n w c ih =>
    intro p found fuel r hv ho hf
    obtain ⟨fuel, rfl⟩ : ∃ j, fuel = j + 1 := ⟨fuel - 1, by omega⟩
    obtain ⟨rfl, v, _, rc⟩ := r
    obtain ⟨o1, o2, o3, o4⟩ := sorted_node ho
    have hs : ∀ d, (c d).height < fuel := fun d => by have := height_sub (n := p) (w := w) (c := c) d; omega
    rw [findLoop, if_pos (by have := v.1; omega), ids_node]
    simp only [read_ok v (hv p (mem_node _ _ _)), bind, Except.bind]
    by_cases h1 : lt k (key (ev p)) = true
    · rw [if_pos h1]
      simp only [MH.childOk v]
      rw [ih false _ found fuel (rc false) (fun m hm => hv m (mem_sub false hm)) o1 (hs false), List.find?_append, List.find?_cons, h1,
        find?_all_false (l := (c true).ids) (fun m hm => by simp [hlt.lt_of_lt_of_le h1 (o4 m hm)])]
      simp
    · rw [if_neg h1]
      by_cases h2 : lt (key (ev p)) k = true
      · rw [if_pos h2]
        simp only [MH.childOk v]
        rw [find?_right (p := fun m => !lt (key (ev m)) k && !lt k (key (ev m))) (fun m hm => by simp [hlt.lt_of_le_of_lt (o3 m hm) h2]) (by simp [h2])]
        exact ih true _ found fuel (rc true) (fun m hm => hv m (mem_sub true hm)) o2 (hs true)
      · rw [if_neg h2]
        simp only [MH.childOk v]
        rw [find?_mid (p := fun m => !lt (key (ev m)) k && !lt k (key (ev m))) (by simp at h1 h2; simp [h1, h2])]
        exact ih false _ p fuel (rc false) (fun m hm => hv m (mem_sub false hm)) o1 (hs false)

theorem lowerLoop_ok (hlt : StrictWeak lt) {k : K} (t : T) : ∀ (p best fuel : Nat), Rep s.h.t p t → (∀ m ∈ t.ids, s.val m = some (ev m)) →
    Ord key lt ev t.ids → t.height < fuel →
    lowerLoop key lt s k p best fuel = .ok ((t.ids.find? (fun m => !lt (key (ev m)) k)).getD best) := by
  induction t with
  | nil =>
    intro p best fuel r _ _ hf
    obtain ⟨fuel, rfl⟩ : ∃ j, fuel = j + 1 := ⟨fuel - 1, by omega⟩
    have : p = 0 := r
    subst this
    rw [lowerLoop, if_neg (by simp)]; rfl
  | node n w c ih =>
    intro p best fuel r hv ho hf
    obtain ⟨fuel, rfl⟩ : ∃ j, fuel = j + 1 := ⟨fuel - 1, by omega⟩
    obtain ⟨rfl, v, _, rc⟩ := r
    obtain ⟨o1, o2, o3, o4⟩ := sorted_node ho
    have hs : ∀ d, (c d).height < fuel := fun d => by have := height_sub (n := p) (w := w) (c := c) d; omega
    rw [lowerLoop, if_pos (by have := v.1; omega), ids_node]
    simp only [read_ok v (hv p (mem_node _ _ _)), bind, Except.bind]
    by_cases h1 : lt k (key (ev p)) = true
    · rw [if_pos h1]
      simp only [MH.childOk v]
      have hp : (fun m => !lt (key (ev m)) k) p = true := by simp [hlt.asymm h1]
      rw [find?_mid hp]
      by_cases hz : s.h.t.ch p false = 0
      · rw [if_neg (by simpa using hz)]
        have hnil : c false = .nil := by
          by_contra hc
          exact ((rc false).ne_zero.2 hc) hz
        rw [hnil]; rfl
      · rw [if_pos hz]
        exact ih false _ p fuel (rc false) (fun m hm => hv m (mem_sub false hm)) o1 (hs false)
    · rw [if_neg h1]
      by_cases h2 : lt (key (ev p)) k = true
      · rw [if_pos h2]
        simp only [MH.childOk v]
        rw [find?_right (p := fun m => !lt (key (ev m)) k) (fun m hm => by simp [hlt.lt_of_le_of_lt (o3 m hm) h2]) (by simp [h2])]
        exact ih true _ best fuel (rc true) (fun m hm => hv m (mem_sub true hm)) o2 (hs true)
      · rw [if_neg h2]
        simp only [MH.childOk v]
        have hp : (fun m => !lt (key (ev m)) k) p = true := by simpa using h2
        rw [find?_mid hp]
        exact ih false _ p fuel (rc false) (fun m hm => hv m (mem_sub false hm)) o1 (hs false)

/-- The second phase of `find_upper_node`: one node after the other. -/
theorem upper_walk {k : K} (hi : Ok s t ev) (Y : List Nat) : ∀ (X : List Nat) (best fuel : Nat), t.ids = X ++ Y → (∀ m ∈ Y, lt (key (ev m)) k = false) → Y.length < fuel →
    upperLoop key lt s k true (Y.headD 0) best fuel = .ok ((Y.find? (fun m => lt k (key (ev m)))).getD best) := by
  induction Y with
  | nil =>
    intro X best fuel _ _ hf
    obtain ⟨fuel, rfl⟩ : ∃ j, fuel = j + 1 := ⟨fuel - 1, by omega⟩
    rw [upperLoop, if_neg (by simp)]; rfl
  | cons y Y ih =>
    intro X best fuel e hk hf
    obtain ⟨fuel, rfl⟩ : ∃ j, fuel = j + 1 := ⟨fuel - 1, by omega⟩
    have hy : y ∈ t.ids := by rw [e]; simp
    have v := hi.rep.valid_of_mem hy
    rw [List.headD_cons, upperLoop, if_pos (hi.pos hy)]
    simp only [hi.read hy, bind, Except.bind]
    rw [if_neg (by rw [hk y (by simp)]; simp), List.find?_cons]
    by_cases h1 : lt k (key (ev y)) = true
    · rw [if_pos h1]
      simp only [MH.childOk v, h1]
      rw [if_neg (by simp)]; rfl
    · rw [if_neg h1]
      simp only [next_ok hi e]
      have h1 : lt k (key (ev y)) = false := by simpa using h1
      rw [h1]
      exact ih (X ++ [y]) best fuel (by rw [e]; simp) (fun m hm => hk m (by simp [hm])) (by simp at hf; omega)

theorem upper_seek (hlt : StrictWeak lt) {k : K} (hi : Ok s t ev) (u : T) : ∀ (p fuel : Nat) (fs : List Frame), t = plug fs u → Rep s.h.t p u → Ord key lt ev t.ids →
    (∀ m ∈ bef fs, lt k (key (ev m)) = false) → (∀ m ∈ aft fs, lt k (key (ev m)) = true) → u.height + t.ids.length < fuel →
    upperLoop key lt s k false p ((aft fs).headD 0) fuel = .ok ((t.ids.find? (fun m => lt k (key (ev m)))).getD 0) := by
  induction u with
  | nil =>
    intro p fuel fs ht r _ hb ha hf
    obtain ⟨fuel, rfl⟩ : ∃ j, fuel = j + 1 := ⟨fuel - 1, by omega⟩
    have : p = 0 := r
    subst this
    rw [upperLoop, if_neg (by simp), ht, ids_plug, List.find?_append, List.find?_append, find?_all_false hb]
    cases hc : aft fs with
    | nil => rfl
    | cons a l =>
      have := ha a (by rw [hc]; simp)
      rw [List.find?_cons]; simp [this, T.ids, T.ino]
  | node n w c ih =>
    intro p fuel fs ht r ho hb ha hf
    obtain ⟨fuel, rfl⟩ : ∃ j, fuel = j + 1 := ⟨fuel - 1, by omega⟩
    obtain ⟨rfl, v, _, rc⟩ := r
    have hid : t.ids = (bef fs ++ (c false).ids) ++ p :: ((c true).ids ++ aft fs) := by rw [ht, ids_plug, ids_node]; simp
    have hmp : p ∈ t.ids := by rw [hid]; simp
    have ho' := ho
    rw [Ord, hid] at ho'
    obtain ⟨q1, q2, q3⟩ := List.pairwise_append.1 ho'
    obtain ⟨q4, q5⟩ := List.pairwise_cons.1 q2
    have hle : ∀ m ∈ (c false).ids, lt (key (ev p)) (key (ev m)) = false := fun m hm => q3 m (by simp [hm]) p (by simp)
    have hs : ∀ d, (c d).height + t.ids.length < fuel := fun d => by have := height_sub (n := p) (w := w) (c := c) d; omega
    rw [upperLoop, if_pos (by have := v.1; omega)]
    simp only [hi.read hmp, bind, Except.bind]
    by_cases h2 : lt (key (ev p)) k = true
    · rw [if_pos h2]
      simp only [MH.childOk v]
      have haf : aft (fs ++ [⟨p, true, w, c false⟩]) = aft fs := by rw [aft_append]; simp [aft, Frame.aft]
      have := ih true _ fuel (fs ++ [⟨p, true, w, c false⟩]) (by rw [ht]; exact plug_sub fs true) (rc true) ho ?_ (by rw [haf]; exact ha) (hs true)
      · rw [haf] at this; exact this
      · intro m hm
        rw [bef_append] at hm
        simp only [bef, Frame.bef, if_true, List.append_nil, List.mem_append, List.mem_singleton] at hm
        rcases hm with hm | hm | rfl
        · exact hb m hm
        · exact hlt.asymm (hlt.lt_of_le_of_lt (hle m hm) h2)
        · exact hlt.asymm h2
    · rw [if_neg h2]
      by_cases h1 : lt k (key (ev p)) = true
      · rw [if_pos h1]
        simp only [MH.childOk v]
        have hl : (s.h.t.ch p false ≠ 0) ↔ c false ≠ .nil := (rc false).ne_zero
        by_cases hc : c false = .nil
        · rw [if_neg (fun h => hl.1 h.2 hc), hid, hc, List.find?_append, List.find?_append, find?_all_false hb, List.find?_cons]
          simp [h1, T.ids, T.ino]
        · rw [if_pos ⟨trivial, hl.2 hc⟩]
          have haf : aft (fs ++ [⟨p, false, w, c true⟩]) = p :: (c true).ids ++ aft fs := by rw [aft_append]; simp [aft, Frame.aft]
          have hbf : bef (fs ++ [⟨p, false, w, c true⟩]) = bef fs := by rw [bef_append]; simp [bef, Frame.bef]
          have := ih false _ fuel (fs ++ [⟨p, false, w, c true⟩]) (by rw [ht]; exact plug_sub fs false) (rc false) ho (by rw [hbf]; exact hb) ?_ (hs false)
          · rw [haf] at this; exact this
          · intro m hm
            rw [haf] at hm
            simp only [List.cons_append, List.mem_cons, List.mem_append] at hm
            rcases hm with rfl | hm | hm
            · exact h1
            · exact hlt.lt_of_lt_of_le h1 (q4 m (by simp [hm]))
            · exact ha m hm
      · rw [if_neg h1]
        simp only [next_ok hi hid]
        have h1 : lt k (key (ev p)) = false := by simpa using h1
        have h2 : lt (key (ev p)) k = false := by simpa using h2
        rw [upper_walk hi ((c true).ids ++ aft fs) ((bef fs ++ (c false).ids) ++ [p]) _ fuel (by rw [hid]; simp) ?_ ?_]
        · rw [hid, find?_right ?_ h1]
          · cases hf : ((c true).ids ++ aft fs).find? (fun m => lt k (key (ev m))) with
            | some m => rfl
            | none =>
              rw [List.find?_eq_none] at hf
              cases hc : aft fs with
              | nil => rfl
              | cons a l =>
                have h3 := hf a (by rw [hc]; simp)
                have h4 := ha a (by rw [hc]; simp)
                exact absurd h4 h3
          · intro m hm
            rcases List.mem_append.1 hm with hm | hm
            · exact hb m hm
            · exact hlt.le_trans (hle m hm) h1
        · intro m hm
          rcases List.mem_append.1 hm with hm | hm
          · exact hlt.le_trans h2 (q4 m (by simp [hm]))
          · exact hlt.asymm (ha m hm)
        · have := congrArg List.length hid
          simp at this ⊢
          omega

theorem find_ok (hlt : StrictWeak lt) (hi : Ok s t ev) (ho : Ord key lt ev t.ids) (k : K) :
    find key lt s k = .ok ((t.ids.find? (fun m => !lt (key (ev m)) k && !lt k (key (ev m)))).getD 0) :=
  findLoop_ok hlt t s.h.t.root 0 (s.cap + 1) hi.rep hi.vals ho hi.hfuel
theorem lower_ok (hlt : StrictWeak lt) (hi : Ok s t ev) (ho : Ord key lt ev t.ids) (k : K) :
    lowerBound key lt s k = .ok ((t.ids.find? (fun m => !lt (key (ev m)) k)).getD 0) :=
  lowerLoop_ok hlt t s.h.t.root 0 (s.cap + 1) hi.rep hi.vals ho hi.hfuel
theorem upper_ok (hlt : StrictWeak lt) (hi : Ok s t ev) (ho : Ord key lt ev t.ids) (k : K) :
    upperBound key lt s k = .ok ((t.ids.find? (fun m => lt k (key (ev m)))).getD 0) :=
  upper_seek hlt hi t s.h.t.root (2 * s.cap + 2) [] rfl hi.rep ho (by simp [bef]) (by simp [aft]) (by have := hi.hfuel; have := hi.len; omega)

/-- The elements smaller than, equivalent to and greater than a key. -/
theorem split3 (hlt : StrictWeak lt) (k : K) {ids : List Nat} (ho : Ord key lt ev ids) : ∃ A B C, ids = A ++ B ++ C ∧ (∀ m ∈ A, lt (key (ev m)) k = true) ∧
    (∀ m ∈ B, lt (key (ev m)) k = false ∧ lt k (key (ev m)) = false) ∧ (∀ m ∈ C, lt k (key (ev m)) = true) := by
  induction ids with
  | nil => exact ⟨[], [], [], rfl, by simp, by simp, by simp⟩
  | cons a l ih =>
    obtain ⟨o1, o2⟩ := List.pairwise_cons.1 ho
    obtain ⟨A, B, C, e, h1, h2, h3⟩ := ih o2
    by_cases c1 : lt (key (ev a)) k = true
    · refine ⟨a :: A, B, C, by rw [e]; simp, ?_, h2, h3⟩
      intro m hm
      rcases List.mem_cons.1 hm with rfl | hm
      · exact c1
      · exact h1 m hm
    · have c1 : lt (key (ev a)) k = false := by simpa using c1
      have hA : A = [] := by
        cases A with
        | nil => rfl
        | cons b A =>
          have h4 := h1 b (by simp)
          have h5 := o1 b (by rw [e]; simp)
          have := hlt.lt_of_le_of_lt h5 h4
          rw [c1] at this; cases this
      subst hA
      by_cases c2 : lt k (key (ev a)) = true
      · refine ⟨[], [], a :: l, rfl, by simp, by simp, ?_⟩
        intro m hm
        rcases List.mem_cons.1 hm with rfl | hm
        · exact c2
        · exact hlt.lt_of_lt_of_le c2 (o1 m hm)
      · refine ⟨[], a :: B, C, by rw [e]; simp, by simp, ?_, h3⟩
        intro m hm
        rcases List.mem_cons.1 hm with rfl | hm
        · exact ⟨c1, by simpa using c2⟩
        · exact h2 m hm

theorem find?_headD {p : Nat → Bool} {A Y : List Nat} (hA : ∀ m ∈ A, p m = false) (hY : ∀ m ∈ Y, p m = true) : ((A ++ Y).find? p).getD 0 = Y.headD 0 := by
  rw [List.find?_append, find?_all_false hA]
  cases Y with
  | nil => rfl
  | cons y Y => rw [List.find?_cons, hY y (by simp)]; rfl

/-- The bounds of a key. -/
theorem bounds_ok (hlt : StrictWeak lt) (hi : Ok s t ev) (ho : Ord key lt ev t.ids) (k : K) : ∃ A B C, t.ids = A ++ B ++ C ∧ (∀ m ∈ A, lt (key (ev m)) k = true) ∧
    (∀ m ∈ B, lt (key (ev m)) k = false ∧ lt k (key (ev m)) = false) ∧ (∀ m ∈ C, lt k (key (ev m)) = true) ∧
    lowerBound key lt s k = .ok ((B ++ C).headD 0) ∧ upperBound key lt s k = .ok (C.headD 0) := by
  obtain ⟨A, B, C, e, h1, h2, h3⟩ := split3 hlt k ho
  refine ⟨A, B, C, e, h1, h2, h3, ?_, ?_⟩
  · rw [lower_ok hlt hi ho, e, List.append_assoc, find?_headD]
    · intro m hm; simp [h1 m hm]
    · intro m hm
      rcases List.mem_append.1 hm with hm | hm
      · simp [(h2 m hm).1]
      · simp [hlt.asymm (h3 m hm)]
  · rw [upper_ok hlt hi ho, e, find?_headD]
    · intro m hm
      rcases List.mem_append.1 hm with hm | hm
      · exact hlt.asymm (h1 m hm)
      · exact (h2 m hm).2
    · exact h3

end Etl.MTree
