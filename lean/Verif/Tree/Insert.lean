import Verif.Tree.Rot
import Verif.Tree.Model

/-! # `insert_node` -/
namespace Etl.Tree
open T

def leaf (n : Nat) : T := mk false n none .nil .nil

theorem leaf_eq (n : Nat) (d : Bool) : leaf n = mk d n none .nil .nil := by
  cases d
  · rfl
  · show _ = mk (!false) n none .nil .nil
    rw [mk_flip]; rfl

@[simp] theorem ids_leaf (n : Nat) : (leaf n).ids = [n] := rfl
@[simp] theorem height_leaf (n : Nat) : (leaf n).height = 1 := rfl
theorem bal_leaf (n : Nat) : (leaf n).Bal := bal_mk.2 ⟨bal_nil, bal_nil, .inl ⟨rfl, rfl⟩⟩

def grow (f : Frame) : Frame := { f with w := some f.d }

theorem ids_w {d n w w' x y} : (mk d n w x y).ids = (mk d n w' x y).ids := rfl

theorem bef_grow (fs : List Frame) : bef (fs.map grow) = bef fs := by
  induction fs with
  | nil => rfl
  | cons f fs ih => simp only [List.map_cons, bef, ih]; rfl
theorem aft_grow (fs : List Frame) : aft (fs.map grow) = aft fs := by
  induction fs with
  | nil => rfl
  | cons f fs ih => simp only [List.map_cons, aft, ih]; rfl

theorem grow_bal {fs : List Frame} {n : Nat} (hb : (plug fs .nil).Bal) (hw : ∀ f ∈ fs, f.w = none) :
    (plug (fs.map grow) (leaf n)).Bal ∧ (plug (fs.map grow) (leaf n)).height = (plug fs .nil).height + 1 := by
  induction fs with
  | nil => exact ⟨bal_leaf n, rfl⟩
  | cons f fs ih =>
    obtain ⟨b1, b2, b3⟩ := bal_mk.1 hb
    obtain ⟨i1, i2⟩ := ih b1 (fun g hg => hw g (List.mem_cons_of_mem _ hg))
    have hf := hw f (List.mem_cons_self ..)
    rcases b3 with ⟨_, b3⟩ | ⟨b3, _⟩ | ⟨b3, _⟩
    · simp only [List.map_cons, plug, Frame.plug, grow, bal_mk, height_mk]
      refine ⟨⟨i1, b2, .inr (.inl ⟨rfl, ?_⟩)⟩, ?_⟩
      · show (plug (fs.map grow) (leaf n)).height = f.sib.height + 1
        omega
      · show max (plug (fs.map grow) (leaf n)).height f.sib.height + 1 = _
        omega
    · rw [hf] at b3; cases b3
    · rw [hf] at b3; cases b3

theorem bal_rot3 {d : Bool} {a b e : Nat} {we : Option Bool} {x f g z : T} (hx : x.Bal) (hf : f.Bal) (hg : g.Bal) (hz : z.Bal)
    (bw : BalW d we f.height g.height) (h1 : x.height = z.height) (h2 : max f.height g.height = z.height) :
    (mk d e none (mk d b (if we = some (!d) then some d else none) x f) (mk d a (if we = some d then some (!d) else none) g z)).Bal ∧
    (mk d e none (mk d b (if we = some (!d) then some d else none) x f)
      (mk d a (if we = some d then some (!d) else none) g z)).height = z.height + 2 := by
  have hd : some d ≠ some (!d) := by cases d <;> simp
  rcases bw with ⟨rfl, e1⟩ | ⟨rfl, e1⟩ | ⟨rfl, e1⟩
  · rw [if_neg (by simp), if_neg (by simp)]
    simp only [bal_mk, height_mk]
    refine ⟨⟨⟨hx, hf, .inl ⟨rfl, by omega⟩⟩, ⟨hg, hz, .inl ⟨rfl, by omega⟩⟩, .inl ⟨rfl, by omega⟩⟩, by omega⟩
  · rw [if_neg hd, if_pos rfl]
    simp only [bal_mk, height_mk]
    refine ⟨⟨⟨hx, hf, .inl ⟨rfl, by omega⟩⟩, ⟨hg, hz, .inr (.inr ⟨rfl, by omega⟩)⟩, .inl ⟨rfl, by omega⟩⟩, by omega⟩
  · rw [if_pos rfl, if_neg (Ne.symm hd)]
    simp only [bal_mk, height_mk]
    refine ⟨⟨⟨hx, hf, .inr (.inl ⟨rfl, by omega⟩)⟩, ⟨hg, hz, .inl ⟨rfl, by omega⟩⟩, .inl ⟨rfl, by omega⟩⟩, by omega⟩

theorem DRep.mono {h : TH} {a b : List Frame} (hd : DRep h b) (hs : ∀ f ∈ a, f ∈ b) : DRep h a := fun f hf => hd f (hs f hf)

/-- Step 1 of `balance_node`: the weights on the way to the new node. -/
theorem weightLoop_ok {n : Nat} (post : List Frame) : ∀ (h : TH) (fs0 : List Frame) (k : Nat),
    Rep h h.root (plug (fs0 ++ post) (leaf n)) → (plug (fs0 ++ post) (leaf n)).ids.Nodup → DRep h post → h.dr n = none →
    (∀ f ∈ post, f.w = none) → post.length < k →
    ∃ h', h.weightLoop (h.gl (endLoc .root fs0)) k = .ok h' ∧ Rep h' h'.root (plug (fs0 ++ post.map grow) (leaf n)) ∧
      h'.dr = h.dr ∧ h'.lim = h.lim := by
  induction post with
  | nil =>
    intro h fs0 k r nd _ hn _ hk
    obtain ⟨k, rfl⟩ : ∃ j, k = j + 1 := ⟨k - 1, by simp at hk; omega⟩
    rw [List.append_nil] at r
    obtain ⟨pr, rt⟩ := (rep_plug (L := .root)).1 r
    obtain ⟨e1, v, _⟩ := rep_mk.1 rt
    refine ⟨h, ?_, by simpa using r, rfl, rfl⟩
    rw [TH.weightLoop, e1, if_pos (by have := v.1; omega)]
    simp only [TH.dir, if_pos v, hn, bind, Except.bind]
  | cons f post ih =>
    intro h fs0 k r nd hd hn hw hk
    obtain ⟨k, rfl⟩ : ∃ j, k = j + 1 := ⟨k - 1, by simp at hk; omega⟩
    have hsplit : plug (fs0 ++ f :: post) (leaf n) = plug fs0 (mk f.d f.n f.w (plug post (leaf n)) f.sib) := by rw [plug_append]; rfl
    have hsplit' : plug fs0 (mk f.d f.n (some f.d) (plug post (leaf n)) f.sib) = plug ((fs0 ++ [grow f]) ++ post) (leaf n) := by
      rw [plug_append, plug_append]; rfl
    rw [hsplit] at r nd
    obtain ⟨s1, s2⟩ := setWeight_ok (some f.d) r nd
    obtain ⟨pr, rt⟩ := (rep_plug (L := .root)).1 r
    obtain ⟨e1, v, e2, _, _⟩ := rep_mk.1 rt
    rw [hsplit'] at s2
    have nd' : (plug ((fs0 ++ [grow f]) ++ post) (leaf n)).ids.Nodup := by
      rw [← hsplit', ids_plug, ids_w (w' := f.w), ← ids_plug]; exact nd
    obtain ⟨h', i1, i2, i3, i4⟩ := ih (h.sw f.n (some f.d)) (fs0 ++ [grow f]) k s2 nd' (hd.mono fun g hg => List.mem_cons_of_mem _ hg)
      hn (fun g hg => hw g (List.mem_cons_of_mem _ hg)) (by simp at hk; omega)
    rw [endLoc_snoc] at i1
    refine ⟨h', ?_, by simpa using i2, i3, i4⟩
    rw [TH.weightLoop, e1, if_pos (by have := v.1; omega)]
    have hdf : h.dr f.n = some f.d := hd f (List.mem_cons_self ..)
    have hwf : h.wt f.n = none := by rw [e2]; exact hw f (List.mem_cons_self ..)
    simp only [TH.dir, if_pos v, hdf, bind, Except.bind, TH.weight, hwf, reduceCtorEq, if_false, s1, TH.child]
    rw [if_pos (show (h.sw f.n (some f.d)).valid f.n from v)]
    exact i1

/-- `balance_node` restores the balance after a leaf was attached. -/
theorem balance_ok {h : TH} {pre post : List Frame} {c : Frame} {n k : Nat}
    (r : Rep h h.root (plug (pre ++ c :: post) (leaf n))) (nd : (plug (pre ++ c :: post) (leaf n)).ids.Nodup)
    (hd : DRep h (c :: post)) (hn : h.dr n = none) (hw : ∀ f ∈ post, f.w = none) (hc : c.w ≠ none ∨ pre = [])
    (hb : (plug (pre ++ c :: post) .nil).Bal) (hk : post.length < k) :
    ∃ h' t', h.balanceNode (endLoc .root pre) k = .ok h' ∧ Rep h' h'.root t' ∧ t'.ids = (plug (pre ++ c :: post) (leaf n)).ids ∧
      t'.Bal ∧ h'.lim = h.lim := by
  have hs1 : plug (pre ++ c :: post) (leaf n) = plug ((pre ++ [c]) ++ post) (leaf n) := by simp
  obtain ⟨pr, rt⟩ := (rep_plug (L := .root)).1 (by rw [plug_append] at r; exact r)
  obtain ⟨e1, v, e2, rc, _⟩ := rep_mk.1 rt
  have lv := lv_end pr
  have hdc : h.dr c.n = some c.d := hd c (List.mem_cons_self ..)
  rw [hs1] at r nd
  obtain ⟨h1, w1, w2, w3, w4⟩ := weightLoop_ok post h (pre ++ [c]) k r nd (hd.mono fun g hg => List.mem_cons_of_mem _ hg) hn hw hk
  rw [endLoc_snoc] at w1
  rw [plug_append] at hb
  obtain ⟨b1, b2, b3⟩ := bal_mk.1 (bal_plug_sub hb)
  obtain ⟨g1, g2⟩ := grow_bal (n := n) b1 hw
  have nd1 : (plug (pre ++ [c] ++ post.map grow) (leaf n)).ids.Nodup := by
    rw [plug_append, ids_plug, ids_plug, bef_grow, aft_grow, ← ids_plug, ← ids_plug, ← plug_append]; exact nd
  have hids : (plug (pre ++ [c] ++ post.map grow) (leaf n)).ids = (plug (pre ++ [c] ++ post) (leaf n)).ids := by
    rw [plug_append, ids_plug, ids_plug, bef_grow, aft_grow, ← ids_plug, ← ids_plug, ← plug_append]
  have hsh : plug (pre ++ [c] ++ post.map grow) (leaf n) = plug pre (mk c.d c.n c.w (plug (post.map grow) (leaf n)) c.sib) := by
    rw [plug_append, plug_append]; rfl
  rw [hsh] at w2 nd1 hids
  rw [hs1, ← hids]
  obtain ⟨_, rt1⟩ := (rep_plug (L := .root)).1 w2
  obtain ⟨f1, v1, f2, rb, _⟩ := rep_mk.1 rt1
  have hstart : ∀ (X : Res TH), (do
      let w ← h1.weight c.n
      if w = none then h1.setWeight c.n (some c.d)
      else if some c.d ≠ w then h1.setWeight c.n none
      else do
        let b ← h1.child c.n c.d
        if w = (← h1.dir b) then h1.rotate2 (endLoc .root pre) c.d
        else do
          let e ← h1.child b (!c.d)
          h1.rotate3 (endLoc .root pre) c.d (← h1.dir e)) = X → h.balanceNode (endLoc .root pre) k = X := by
    intro X hX
    rw [← hX]
    unfold TH.balanceNode
    rw [getL_ok lv, e1]
    simp only [TH.dirIx, TH.dir, if_pos v, hdc, bind, Except.bind, TH.child]
    rw [show h.ch c.n c.d = h.gl (.child c.n c.d) from rfl, w1]
  rcases b3 with ⟨bw, bh⟩ | ⟨bw, bh⟩ | ⟨bw, bh⟩
  · -- the tree was balanced all the way down
    have hp : pre = [] := by rcases hc with h | h; exact absurd bw h; exact h
    subst hp
    obtain ⟨s1, s2⟩ := setWeight_ok (some c.d) w2 nd1
    refine ⟨_, _, hstart _ ?_, s2, ids_w, ?_, w4⟩
    · simp only [TH.weight, if_pos v1, f2, bw, bind, Except.bind, if_true, s1]
    · simp only [plug, bal_mk]; exact ⟨g1, b2, .inr (.inl ⟨rfl, by omega⟩)⟩
  · -- a rotation is needed
    cases post with
    | nil => simp [plug] at bh
    | cons b post2 =>
      obtain ⟨b1a, b1b, b1c⟩ := bal_mk.1 b1
      have hbw := hw b (List.mem_cons_self ..)
      have hbh : (plug post2 .nil).height = b.sib.height := by
        rcases b1c with ⟨_, q⟩ | ⟨q, _⟩ | ⟨q, _⟩
        · exact q
        · rw [hbw] at q; cases q
        · rw [hbw] at q; cases q
      obtain ⟨g3, g4⟩ := grow_bal (n := n) b1a (fun f hf => hw f (List.mem_cons_of_mem _ hf))
      have hhb : (plug (b :: post2) .nil).height = b.sib.height + 1 := by
        simp only [plug, Frame.plug, height_mk]; omega
      have hdb : h1.dr b.n = some b.d := by rw [w3]; exact hd b (by simp)
      have hu : plug ((b :: post2).map grow) (leaf n) = mk b.d b.n (some b.d) (plug (post2.map grow) (leaf n)) b.sib := rfl
      rw [hu] at w2 nd1 rb hids g1 g2 ⊢
      obtain ⟨q1, vb, _, rb2, _⟩ := rep_mk.1 rb
      rcases eq_or_not b.d c.d with hbd | hbd
      · rw [hbd] at w2 nd1 hids hdb ⊢
        obtain ⟨h', x1, x2, x3, x4⟩ := rotate2_ok w2 nd1
        have hbal : (mk c.d b.n none (plug (post2.map grow) (leaf n)) (mk c.d c.n none b.sib c.sib)).Bal ∧
            (mk c.d b.n none (plug (post2.map grow) (leaf n)) (mk c.d c.n none b.sib c.sib)).height = c.sib.height + 2 := by
          simp only [bal_mk, height_mk]
          exact ⟨⟨g3, ⟨b1b, b2, .inl ⟨rfl, by omega⟩⟩, .inl ⟨rfl, by omega⟩⟩, by omega⟩
        refine ⟨h', _, hstart _ ?_, x2, ?_, (plug_swap hb hbal.1 ?_).1, by rw [x4, w4]⟩
        · simp only [TH.weight, if_pos v1, f2, bw, bind, Except.bind, reduceCtorEq, if_false, ne_eq, not_true_eq_false, TH.child, q1,
            TH.dir, if_pos vb, hdb, if_true, x1]
        · rw [ids_plug, ids_plug]
          congr 2
          exact ino_congr (d := c.d) (by simp only [ino_mk, List.append_assoc, List.cons_append]) false
        · rw [hbal.2]; show _ = (T.mk c.d c.n c.w (plug (b :: post2) .nil) c.sib).height
          rw [height_mk]; omega
      · have hne : some c.d ≠ some b.d := by rw [hbd]; cases c.d <;> simp
        rw [hbd, mk_flip] at w2 nd1 hids
        rw [hbd] at rb2
        rw [hbd, mk_flip]
        obtain ⟨e, we, f, g, hu2⟩ := height_pos (t := plug (post2.map grow) (leaf n)) (by omega) c.d
        have hde : h1.dr e = we := by
          cases post2 with
          | nil =>
            have : leaf n = mk c.d e we f g := hu2
            rw [leaf_eq n c.d] at this
            injection this with t1 t2 _
            rw [← t1, ← t2, w3]; exact hn
          | cons p post3 =>
            have hi : p.n = e ∧ some p.d = we := by
              have : mk p.d p.n (some p.d) (plug (post3.map grow) (leaf n)) p.sib = mk c.d e we f g := hu2
              injection this with t1 t2 _
              exact ⟨t1, t2⟩
            rw [← hi.1, ← hi.2, w3]; exact hd p (by simp)
        rw [hu2] at w2 nd1 hids rb2 g3 g4 ⊢
        obtain ⟨q2, ve, _, _, _⟩ := rep_mk.1 rb2
        obtain ⟨g5, g6, g7⟩ := bal_mk.1 g3
        rw [height_mk] at g4
        obtain ⟨h', x1, x2, x3, x4⟩ := rotate3_ok we w2 nd1
        obtain ⟨y1, y2⟩ := bal_rot3 (a := c.n) (b := b.n) (e := e) b1b g5 g6 b2 g7 (by omega) (by omega)
        refine ⟨h', _, hstart _ ?_, x2, ?_, (plug_swap hb y1 ?_).1, by rw [x4, w4]⟩
        · simp only [TH.weight, if_pos v1, f2, bw, bind, Except.bind, reduceCtorEq, if_false, ne_eq, not_true_eq_false, TH.child, q1,
            TH.dir, if_pos vb, hdb, hne, q2, if_pos ve, hde, x1]
        · rw [ids_plug, ids_plug]
          congr 2
          exact ino_congr (d := c.d) (by simp only [ino_mk, List.append_assoc, List.cons_append]) false
        · rw [y2]; show _ = (T.mk c.d c.n c.w (plug (b :: post2) .nil) c.sib).height
          rw [height_mk]; omega
  · -- the insertion levels the critical node
    obtain ⟨s1, s2⟩ := setWeight_ok none w2 nd1
    have hne : some c.d ≠ some (!c.d) := by cases c.d <;> simp
    refine ⟨_, _, hstart _ ?_, s2, by rw [ids_plug, ids_plug, ids_w], (plug_swap hb ?_ ?_).1, w4⟩
    · simp only [TH.weight, if_pos v1, f2, bw, bind, Except.bind, reduceCtorEq, if_false, ne_eq, hne, not_false_eq_true, if_true, s1]
    · simp only [bal_mk]; exact ⟨g1, b2, .inl ⟨rfl, by omega⟩⟩
    · show _ = (T.mk c.d c.n c.w (plug post .nil) c.sib).height
      simp only [height_mk]; omega

end Etl.Tree
