import Verif.Tree.InsNode

/-! # Step 2 of `remove_node`: rebalancing on the way to the replacement node -/
namespace Etl.Tree
open T

/-- What one iteration of the rebalancing loop makes of a frame. -/
def step2 (f : Frame) : List Frame :=
  if f.w = none then [{ f with w := some (!f.d) }]
  else if f.w = some f.d then [{ f with w := none }]
  else match f.sib with
    | .nil => [f]
    | .node m ws c =>
      if ws = some f.d then match c f.d with
        | .nil => [f]
        | .node e we cc => [⟨e, f.d, none, mk (!f.d) m (if we = some f.d then some (!f.d) else none) (c (!f.d)) (cc (!f.d))⟩,
            ⟨f.n, f.d, if we = some (!f.d) then some f.d else none, cc f.d⟩]
      else if ws = none then [⟨m, f.d, some f.d, c (!f.d)⟩, ⟨f.n, f.d, some (!f.d), c f.d⟩]
      else [⟨m, f.d, none, c (!f.d)⟩, ⟨f.n, f.d, none, c f.d⟩]

/-- Below a frame with this property the height of the whole does not change. -/
def stop (f : Frame) : Prop := f.w = none ∨ (f.w = some (!f.d) ∧ f.sib.rootW = none)

theorem not_ne (d : Bool) : d ≠ !d := by cases d <;> simp
theorem some_not_ne (d : Bool) : some d ≠ some (!d) := by cases d <;> simp

/-- The cases of `step2` on a balanced frame. -/
theorem step2_cases {f : Frame} {X : T} (hb : (f.plug X).Bal) (hX : X.height ≠ 0) :
    (f.w = none ∧ X.height = f.sib.height ∧ step2 f = [{ f with w := some (!f.d) }]) ∨
    (f.w = some f.d ∧ X.height = f.sib.height + 1 ∧ step2 f = [{ f with w := none }]) ∨
    (∃ m e we p q y, f.w = some (!f.d) ∧ f.sib.height = X.height + 1 ∧ f.sib = mk f.d m (some f.d) (mk f.d e we p q) y ∧
      step2 f = [⟨e, f.d, none, mk (!f.d) m (if we = some f.d then some (!f.d) else none) y q⟩,
        ⟨f.n, f.d, if we = some (!f.d) then some f.d else none, p⟩]) ∨
    (∃ m x y, f.w = some (!f.d) ∧ f.sib.height = X.height + 1 ∧ f.sib = mk f.d m none x y ∧
      step2 f = [⟨m, f.d, some f.d, y⟩, ⟨f.n, f.d, some (!f.d), x⟩]) ∨
    (∃ m x y, f.w = some (!f.d) ∧ f.sib.height = X.height + 1 ∧ f.sib = mk f.d m (some (!f.d)) x y ∧
      step2 f = [⟨m, f.d, none, y⟩, ⟨f.n, f.d, none, x⟩]) := by
  obtain ⟨b1, b2, b3⟩ := bal_mk.1 hb
  rcases b3 with ⟨bw, bh⟩ | ⟨bw, bh⟩ | ⟨bw, bh⟩
  · exact .inl ⟨bw, bh, by simp [step2, bw]⟩
  · exact .inr (.inl ⟨bw, bh, by simp [step2, bw]⟩)
  · refine .inr (.inr ?_)
    obtain ⟨m, ws, x, y, hs⟩ := height_pos (t := f.sib) (by omega) f.d
    rw [hs] at b2 bh
    obtain ⟨c1, c2, c3⟩ := bal_mk.1 b2
    rw [height_mk] at bh
    have hst : step2 f = (if ws = some f.d then match x with
        | .nil => [f]
        | .node e we cc => [⟨e, f.d, none, mk (!f.d) m (if we = some f.d then some (!f.d) else none) y (cc (!f.d))⟩,
            ⟨f.n, f.d, if we = some (!f.d) then some f.d else none, cc f.d⟩]
      else if ws = none then [⟨m, f.d, some f.d, y⟩, ⟨f.n, f.d, some (!f.d), x⟩]
      else [⟨m, f.d, none, y⟩, ⟨f.n, f.d, none, x⟩]) := by
      unfold step2
      rw [bw, if_neg (by simp), if_neg (Ne.symm (some_not_ne _)), hs]
      simp only [mk, sel_same, sel_not]
    rcases c3 with ⟨rfl, ch⟩ | ⟨rfl, ch⟩ | ⟨rfl, ch⟩
    · refine .inr (.inl ⟨m, x, y, bw, by rw [hs, height_mk]; exact bh, hs, ?_⟩)
      rw [hst, if_neg (by simp), if_pos rfl]
    · obtain ⟨e, we, p, q, hx⟩ := height_pos (t := x) (by omega) f.d
      subst hx
      refine .inl ⟨m, e, we, p, q, y, bw, by rw [hs, height_mk]; exact bh, hs, ?_⟩
      rw [hst, if_pos rfl]
      simp only [mk, sel_same, sel_not]
    · refine .inr (.inr ⟨m, x, y, bw, by rw [hs, height_mk]; exact bh, hs, ?_⟩)
      rw [hst, if_neg (Ne.symm (some_not_ne _)), if_neg (by simp)]

theorem ids_mk_t (n w x y) : (mk true n w x y).ids = y.ids ++ n :: x.ids := ino_mk' true n w x y
theorem ids_mk_f (n w x y) : (mk false n w x y).ids = x.ids ++ n :: y.ids := ino_mk false n w x y

theorem step2_bal {f : Frame} {X X' : T} (hb : (f.plug X).Bal) (hX' : X'.Bal) (hh : X.height = X'.height + 1) :
    (plug (step2 f) X').Bal ∧ (stop f → (plug (step2 f) X').height = (f.plug X).height) ∧
      (¬ stop f → (plug (step2 f) X').height + 1 = (f.plug X).height) := by
  obtain ⟨_, b2, _⟩ := bal_mk.1 hb
  have hw := some_not_ne f.d
  rcases step2_cases hb (by omega) with ⟨hw1, h1, e⟩ | ⟨hw1, h1, e⟩ | ⟨m, e', we, p, q, y, hw1, h1, hs, e⟩ | ⟨m, x, y, hw1, h1, hs, e⟩ |
    ⟨m, x, y, hw1, h1, hs, e⟩ <;> rw [e]
  · simp only [plug, Frame.plug, bal_mk, height_mk]
    refine ⟨⟨hX', b2, .inr (.inr ⟨rfl, by omega⟩)⟩, fun _ => by omega, fun hn => absurd (.inl hw1) hn⟩
  · simp only [plug, Frame.plug, bal_mk, height_mk]
    refine ⟨⟨hX', b2, .inl ⟨rfl, by omega⟩⟩, fun hn => ?_, fun hn => by omega⟩
    rcases hn with hn | ⟨hn, _⟩
    · rw [hw1] at hn; cases hn
    · rw [hw1] at hn; exact absurd hn hw
  · rw [hs] at b2 h1
    obtain ⟨c1, c2, c3⟩ := bal_mk.1 b2
    obtain ⟨d1, d2, d3⟩ := bal_mk.1 c1
    simp only [height_mk] at h1 c3
    have c3' : max p.height q.height = y.height := by
      rcases c3 with ⟨c, _⟩ | ⟨_, c⟩ | ⟨c, _⟩
      · cases c
      · omega
      · exact absurd c hw
    have hst : ¬ stop f := by
      rintro (h | ⟨_, h⟩)
      · rw [hw1] at h; cases h
      · rw [hs] at h; cases h
    have bw' : BalW (!f.d) we q.height p.height := by
      rcases d3 with ⟨a, b⟩ | ⟨a, b⟩ | ⟨a, b⟩
      · exact .inl ⟨a, b.symm⟩
      · exact .inr (.inr ⟨by rw [Bool.not_not]; exact a, b⟩)
      · exact .inr (.inl ⟨a, b⟩)
    have hr := bal_rot3 (d := !f.d) (a := f.n) (b := m) (e := e') (x := y) (f := q) (g := p) (z := X') c2 d2 d1 hX' bw' (by omega) (by omega)
    rw [Bool.not_not] at hr
    have heq : plug [⟨e', f.d, none, mk (!f.d) m (if we = some f.d then some (!f.d) else none) y q⟩,
        ⟨f.n, f.d, if we = some (!f.d) then some f.d else none, p⟩] X' =
        mk (!f.d) e' none (mk (!f.d) m (if we = some f.d then some (!f.d) else none) y q)
          (mk (!f.d) f.n (if we = some (!f.d) then some f.d else none) p X') := by
      simp only [plug, Frame.plug]
      rw [← mk_flip f.d e', ← mk_flip f.d f.n]
    rw [heq]
    refine ⟨hr.1, fun h => absurd h hst, fun _ => ?_⟩
    rw [hr.2]
    simp only [Frame.plug, height_mk, hs]; omega
  · rw [hs] at b2 h1
    obtain ⟨c1, c2, c3⟩ := bal_mk.1 b2
    simp only [height_mk] at h1
    have c3' : x.height = y.height := by
      rcases c3 with ⟨_, c⟩ | ⟨c, _⟩ | ⟨c, _⟩
      · exact c
      · cases c
      · cases c
    have hst : stop f := .inr ⟨hw1, by rw [hs]; rfl⟩
    simp only [plug, Frame.plug, bal_mk, height_mk, hs]
    refine ⟨⟨⟨hX', c1, .inr (.inr ⟨rfl, by omega⟩)⟩, c2, .inr (.inl ⟨rfl, by omega⟩)⟩, fun _ => by omega, fun h => absurd hst h⟩
  · rw [hs] at b2 h1
    obtain ⟨c1, c2, c3⟩ := bal_mk.1 b2
    simp only [height_mk] at h1
    have c3' : y.height = x.height + 1 := by
      rcases c3 with ⟨c, _⟩ | ⟨c, _⟩ | ⟨_, c⟩
      · cases c
      · exact absurd c.symm hw
      · exact c
    have hst : ¬ stop f := by
      rintro (h | ⟨_, h⟩)
      · rw [hw1] at h; cases h
      · rw [hs] at h; cases h
    simp only [plug, Frame.plug, bal_mk, height_mk, hs]
    refine ⟨⟨⟨hX', c1, .inl ⟨rfl, by omega⟩⟩, c2, .inl ⟨rfl, by omega⟩⟩, fun h => absurd h hst, fun _ => by omega⟩

/-- The rebalanced path: the lowest frame that stops, or the root, is rebalanced together with everything below it. -/
theorem post_bal {X X' : T} (hX' : X'.Bal) (hh : X.height = X'.height + 1) (post : List Frame) (hb : (plug post X).Bal) :
    (∀ f ∈ post, ¬ stop f) → (plug (post.flatMap step2) X').Bal ∧ (plug (post.flatMap step2) X').height + 1 = (plug post X).height := by
  induction post with
  | nil => intro _; exact ⟨hX', hh.symm⟩
  | cons f post ih =>
    intro hs
    obtain ⟨i1, i2⟩ := ih (bal_mk.1 hb).1 (fun g hg => hs g (List.mem_cons_of_mem _ hg))
    obtain ⟨s1, _, s3⟩ := step2_bal (X' := plug (post.flatMap step2) X') hb i1 i2.symm
    rw [List.flatMap_cons, plug_append]
    exact ⟨s1, s3 (hs f (List.mem_cons_self ..))⟩

theorem pre_post_bal {X X' : T} (hX' : X'.Bal) (hh : X.height = X'.height + 1) {pre post : List Frame} (hb : (plug (pre ++ post) X).Bal)
    (ht : ∀ f ∈ post.tail, ¬ stop f) (hp : pre = [] ∨ ∃ f fs, post = f :: fs ∧ stop f) :
    (plug (pre ++ post.flatMap step2) X').Bal := by
  rw [plug_append] at hb ⊢
  cases post with
  | nil =>
    rcases hp with rfl | ⟨f, fs, h, _⟩
    · exact hX'
    · cases h
  | cons f post =>
    have hb2 := bal_plug_sub hb
    obtain ⟨i1, i2⟩ := post_bal hX' hh post (bal_mk.1 hb2).1 ht
    obtain ⟨s1, s2, s3⟩ := step2_bal (X' := plug (post.flatMap step2) X') hb2 i1 i2.symm
    rw [List.flatMap_cons, plug_append]
    by_cases hst : stop f
    · exact (plug_swap hb s1 (s2 hst)).1
    · rcases hp with rfl | ⟨g, fs, h, hg⟩
      · exact s1
      · cases h; exact absurd hg hst

/-- `step2` keeps the nodes in order and ends with the node of the frame. -/
theorem step2_shape {f : Frame} {X : T} (hb : (f.plug X).Bal) (hX : X.height ≠ 0) :
    bef (step2 f) = f.bef ∧ aft (step2 f) = f.aft ∧ (∀ g ∈ step2 f, g.d = f.d) ∧
    ∃ l g, step2 f = l ++ [g] ∧ g.n = f.n ∧ (l = [] ∨ (f.w = some (!f.d) ∧ ∃ r, l = [r] ∧ r.n ∈ f.sib.ids)) := by
  rcases f with ⟨n, d, w, sib⟩
  rcases step2_cases hb hX with ⟨hw1, h1, e⟩ | ⟨hw1, h1, e⟩ | ⟨m, e', we, p, q, y, hw1, h1, hs, e⟩ | ⟨m, x, y, hw1, h1, hs, e⟩ |
    ⟨m, x, y, hw1, h1, hs, e⟩ <;> rw [e] <;> dsimp only at *
  · exact ⟨by simp [bef, Frame.bef], by simp [aft, Frame.aft], by simp, [], _, rfl, rfl, .inl rfl⟩
  · exact ⟨by simp [bef, Frame.bef], by simp [aft, Frame.aft], by simp, [], _, rfl, rfl, .inl rfl⟩
  · subst hs
    refine ⟨?_, ?_, by simp, [_], _, rfl, rfl, .inr ⟨hw1, _, rfl, by simp only [mem_mk]; tauto⟩⟩
    · cases d <;> simp [bef, Frame.bef, ids_mk_t, ids_mk_f]
    · cases d <;> simp [aft, Frame.aft, ids_mk_t, ids_mk_f]
  · subst hs
    refine ⟨?_, ?_, by simp, [_], _, rfl, rfl, .inr ⟨hw1, _, rfl, by simp only [mem_mk]; tauto⟩⟩
    · cases d <;> simp [bef, Frame.bef, ids_mk_t, ids_mk_f]
    · cases d <;> simp [aft, Frame.aft, ids_mk_t, ids_mk_f]
  · subst hs
    refine ⟨?_, ?_, by simp, [_], _, rfl, rfl, .inr ⟨hw1, _, rfl, by simp only [mem_mk]; tauto⟩⟩
    · cases d <;> simp [bef, Frame.bef, ids_mk_t, ids_mk_f]
    · cases d <;> simp [aft, Frame.aft, ids_mk_t, ids_mk_f]

theorem shape_all {X : T} (hX : X.height ≠ 0) (post : List Frame) (hb : (plug post X).Bal) :
    bef (post.flatMap step2) = bef post ∧ aft (post.flatMap step2) = aft post := by
  induction post with
  | nil => exact ⟨rfl, rfl⟩
  | cons f post ih =>
    obtain ⟨i1, i2⟩ := ih (bal_mk.1 hb).1
    have hh : (plug post X).height ≠ 0 := by have := len_le_height post X; omega
    obtain ⟨s1, s2, _⟩ := step2_shape hb hh
    rw [List.flatMap_cons, bef_append, aft_append, s1, s2, i1, i2]
    exact ⟨rfl, rfl⟩

end Etl.Tree
