import Verif.MTree.Search
import Verif.Tree.Refine

/-! # The operations of a multimap or multiset -/
namespace Etl.MTree
open Etl.Tree T

variable {α K : Type} {key : α → K} {lt : K → K → Bool} {s : St α} {t : T} {ev : Nat → α}

theorem ok_init (cap : Nat) (junk : MH) (ev : Nat → α) : Ok (init cap junk) .nil ev :=
  { rep := rfl, bal := trivial, par := trivial, vals := by simp [T.ids, T.ino],
    pool := { lim := rfl, part := by simp [T.ids, T.ino, init, St.b], raw := fun _ _ => rfl, size := rfl } }

theorem goes_split_multi {ev : Nat → α} {k : K} (hlt : StrictWeak lt) {u : T} (fs : List Frame) (hg : ∀ f ∈ fs, Goes key lt ev k f)
    (hs : Ord key lt ev (plug fs u).ids) : (∀ m ∈ bef fs, lt k (key (ev m)) = false) ∧ (∀ m ∈ aft fs, lt k (key (ev m)) = true) := by
  induction fs with
  | nil => simp [bef, aft]
  | cons f fs ih =>
    have hf := hg f (by simp)
    unfold Goes at hf
    unfold Ord at hs
    rw [plug, ids_fplug] at hs
    rw [List.pairwise_append, List.pairwise_append] at hs
    obtain ⟨⟨h1, h2, h3⟩, h4, h5⟩ := hs
    obtain ⟨i1, i2⟩ := ih (fun g hg' => hg g (List.mem_cons_of_mem _ hg')) h2
    unfold bef aft
    cases hd : f.d
    · have hk : lt k (key (ev f.n)) = true := by rw [hd] at hf; simpa using hf
      simp only [Frame.bef, Frame.aft, hd, Bool.false_eq_true, if_false, List.nil_append] at h3 h4 h5 ⊢
      refine ⟨i1, fun m hm => ?_⟩
      rcases List.mem_append.1 hm with hm | hm
      · exact i2 m hm
      · rcases List.mem_cons.1 hm with rfl | hm
        · exact hk
        · exact hlt.lt_of_lt_of_le hk ((List.pairwise_cons.1 h4).1 m hm)
    · have hk : lt k (key (ev f.n)) = false := by rw [hd] at hf; simpa using hf.symm
      simp only [Frame.bef, Frame.aft, hd, if_true, List.append_nil] at h1 h3 h4 h5 ⊢
      refine ⟨fun m hm => ?_, i2⟩
      rcases List.mem_append.1 hm with hm | hm
      · rcases List.mem_append.1 hm with hm | hm
        · have := (List.pairwise_append.1 h1).2.2 m hm f.n (by simp)
          by_contra hc
          have hc : lt k (key (ev m)) = true := by simpa using hc
          have := hlt.lt_of_lt_of_le hc this
          rw [hk] at this; cases this
        · rw [List.mem_singleton.1 hm]; exact hk
      · exact i1 m hm

/-- A new node is taken from the pool and inserted. -/
theorem addNew (hi : Ok s t ev) (hf : s.size ≠ s.cap) (v : α) : ∃ n s1 s2 t', allocate s v = .ok (some (n, s1)) ∧
    insertNode key lt s1 n = .ok (s2, n) ∧ s2.cap = s.cap ∧ n ∉ t.ids ∧ n ≠ 0 ∧ Ok s2 t' (upd ev n v) ∧
    (∃ X Y, t.ids = X ++ Y ∧ t'.ids = X ++ n :: Y) ∧
    (StrictWeak lt → Ord key lt ev t.ids → Ord key lt (upd ev n v) t'.ids ∧
      t'.ids = t.ids.filter (fun m => !lt (key v) (key (ev m))) ++ n :: t.ids.filter (fun m => lt (key v) (key (ev m)))) := by
  have hlen : t.ids.length + s.free.length = s.cap := hi.pool.len
  have hsz : s.size = t.ids.length := hi.pool.size
  obtain ⟨n, f, hfree⟩ : ∃ n f, s.free = n :: f := by
    cases h : s.free with
    | nil => rw [h] at hlen; simp at hlen; omega
    | cons n f => exact ⟨n, f, rfl⟩
  have hnd : (t.ids ++ s.free).Nodup := hi.pool.nodup
  have hpart : (t.ids ++ s.free).Perm (items s.cap) := hi.pool.part
  have hraw : ∀ m ∈ s.free, s.val m = none := hi.pool.raw
  rw [hfree] at hnd hpart
  have hn : n ∉ t.ids := fun hc => (List.nodup_append.1 hnd).2.2 n hc n (by simp) rfl
  have hnf : n ∉ f := (List.nodup_cons.1 (List.nodup_append.1 hnd).2.1).1
  have hni : 1 ≤ n ∧ n ≤ s.cap := mem_items.1 (hpart.subset (by simp))
  have hlim : s.h.t.lim = s.cap := hi.pool.lim
  have vn : s.h.t.valid n := ⟨hni.1, by rw [hlim]; exact hni.2⟩
  obtain ⟨s1, hs1⟩ : ∃ s1 : St α, s1 = { s with val := upd s.val n (some v), free := f } := ⟨_, rfl⟩
  obtain ⟨ev1, hev1⟩ : ∃ ev1, ev1 = upd ev n v := ⟨_, rfl⟩
  have hev : ∀ m ∈ t.ids, ev1 m = ev m := fun m hm => by rw [hev1]; exact upd_other _ _ (fun hc => hn (hc ▸ hm))
  have hv1 : ∀ m ∈ t.ids, s1.val m = some (ev1 m) := by
    intro m hm
    rw [hev m hm, ← hi.vals m hm, hs1]
    exact upd_other _ _ (fun hc => hn (hc ▸ hm))
  have hevn : ev1 n = v := by rw [hev1]; exact upd_same _ _ _
  have hal : allocate s v = .ok (some (n, s1)) := by
    unfold allocate
    rw [hfree]
    simp only [hraw n (by rw [hfree]; simp), hs1]
  obtain ⟨fs, h', t', e1, e2, e3, e4, e4p, e5, e6, e7⟩ := insertNode_ok key lt (ev := ev1) (s := s1) (t := t) (n := n) (by rw [hs1]; exact hi.rep) hi.nodup hi.bal
    (by rw [hs1]; exact hi.par) hv1 hn (by rw [hs1]; exact vn) (by rw [hevn, hs1]; exact upd_same _ _ _) (by rw [hs1]; exact hi.len)
  rw [hevn] at e2
  have hids : t.ids = bef fs ++ aft fs := by rw [e1, ids_plug]; simp [T.ids, T.ino]
  refine ⟨n, s1, _, t', hal, e3, by rw [hs1], hn, by omega, ?_, ⟨bef fs, aft fs, hids, e6⟩, ?_⟩
  · have hperm : (t'.ids ++ f).Perm (t.ids ++ n :: f) := by
      rw [e6, hids, List.append_assoc, List.append_assoc, List.cons_append]
      exact (List.perm_middle.symm).append_left (bef fs)
    subst hs1
    refine { rep := e4, bal := e5, par := e4p, vals := ?_, pool := { lim := e7.trans hlim, part := hperm.trans hpart, raw := ?_, size := ?_ } }
    · intro m hm
      rw [e6] at hm
      by_cases hc : m = n
      · subst hc; show upd s.val m (some v) m = some (upd ev m v m); rw [upd_same, upd_same]
      · rw [← hev1]; exact hv1 m (by rw [hids]; simpa [hc] using hm)
    · intro m hm
      show upd s.val n (some v) m = none
      rw [upd_other _ _ (by rintro rfl; exact hnf hm)]
      exact hraw m (by rw [hfree]; exact List.mem_cons_of_mem _ hm)
    · show s.size + 1 = _
      rw [e6, hsz, hids]; simp; omega
  · intro hlt ho
    have ho1 : Ord key lt ev1 t.ids := List.Pairwise.imp_of_mem (fun {a b} ha hb h => by rw [hev a ha, hev b hb]; exact h) ho
    have hsp := goes_split_multi hlt fs e2 (by rw [← e1]; exact ho1)
    have hb : ∀ m ∈ bef fs, lt (key v) (key (ev m)) = false := fun m hm => by rw [← hev m (by rw [hids]; simp [hm])]; exact hsp.1 m hm
    have ha : ∀ m ∈ aft fs, lt (key v) (key (ev m)) = true := fun m hm => by rw [← hev m (by rw [hids]; simp [hm])]; exact hsp.2 m hm
    constructor
    · rw [← hev1, e6]
      rw [hids] at ho1
      obtain ⟨o1, o2, o3⟩ := List.pairwise_append.1 ho1
      refine List.pairwise_append.2 ⟨o1, List.pairwise_cons.2 ⟨fun m hm => ?_, o2⟩, fun a h1 b hb' => ?_⟩
      · rw [hevn]; exact hlt.asymm (hsp.2 m hm)
      · rcases List.mem_cons.1 hb' with rfl | h2
        · rw [hevn]; exact hsp.1 a h1
        · exact o3 a h1 b h2
    · rw [e6, hids, filter_left (fun m hm => by rw [hb m hm]; rfl) (fun m hm => by rw [ha m hm]; rfl), filter_right hb ha]

/-- `remove_node` in any order. -/
theorem removeOk (hlt : StrictWeak lt) (hi : Ok s t ev) {n : Nat} (hm : n ∈ t.ids) : ∃ s' t', removeNode key lt s n = .ok s' ∧ s'.cap = s.cap ∧ Ok s' t' ev ∧
    (First key lt ev t.ids n → t'.ids = t.ids.erase n) ∧ ∀ X Y, t.ids = X ++ n :: Y → ∃ X', X'.Perm X ∧ t'.ids = X' ++ Y := by
  obtain ⟨h', t', e1, e2, e3, e4, e5, e6, e7⟩ := removeNode_ok key lt (ev := ev) hlt hi.rep hi.bal hi.par hi.vals hi.pool hm
  refine ⟨_, t', e1, rfl, ?_, e7⟩
  have hnt := hi.nodup
  have hnd' := e5.nodup_iff.1 hnt
  have hmem : ∀ m ∈ t'.ids, m ∈ t.ids ∧ m ≠ n := by
    intro m hm
    exact ⟨e5.mem_iff.2 (by simp [hm]), fun hc => (List.nodup_cons.1 hnd').1 (hc ▸ hm)⟩
  refine { rep := e2, bal := e3, par := e4, vals := ?_, pool := { lim := e6.trans hi.pool.lim, part := ?_, raw := ?_, size := ?_ } }
  · intro m hm
    show upd s.val n none m = _
    rw [upd_other _ _ (hmem m hm).2]; exact hi.vals m (hmem m hm).1
  · show (t'.ids ++ n :: s.free).Perm _
    exact (List.perm_middle.trans (e5.symm.append_right s.free)).trans hi.pool.part
  · intro m hm
    show upd s.val n none m = _
    by_cases hc : m = n
    · subst hc; exact upd_same _ _ _
    · rw [upd_other _ _ hc]
      refine hi.pool.raw m ?_
      rcases List.mem_cons.1 hm with h | h
      · exact absurd h hc
      · exact h
  · show s.size - 1 = _
    have : s.size = t.ids.length := hi.pool.size
    rw [this, e5.length_eq]; simp

/-- `erase(iterator)`: whatever the iterator points to, exactly that element goes, the result is the iterator to what came after it, and what came after it stays in order. -/
theorem erase_ok (hlt : StrictWeak lt) (hi : Ok s t ev) {X Y : List Nat} {p : Nat} (e : t.ids = X ++ p :: Y) :
    ∃ s' t', eraseAt key lt s p = .ok (s', Y.headD 0) ∧ s'.cap = s.cap ∧ Ok s' t' ev ∧ (∃ X', X'.Perm X ∧ t'.ids = X' ++ Y) ∧
      ((∀ m ∈ X, lt (key (ev m)) (key (ev p)) = true) → t'.ids = X ++ Y) := by
  have hp : p ∈ t.ids := by rw [e]; simp
  obtain ⟨s', t', r1, r2, r3, r5, r4⟩ := removeOk (key := key) hlt hi hp
  refine ⟨s', t', ?_, r2, r3, r4 X Y e, fun h => ?_⟩
  · unfold eraseAt
    simp only [next_ok hi e, r1, bind, Except.bind]
  · rw [r5, e, erase_mid (e ▸ hi.nodup)]
    intro X' Y' e'
    have := nodup_split (e ▸ hi.nodup) (e.symm.trans e')
    rw [← this.1]; exact h

/-- Removal of a range: exactly these elements go.  What comes after them stays in order, and so does what comes before them if it is smaller. -/
theorem eraseLoop_ok (hlt : StrictWeak lt) {Z : List Nat} (Y : List Nat) : ∀ {s : St α} {t : T} (X : List Nat) (n fuel : Nat), Ok s t ev → t.ids = X ++ Y ++ Z →
    Y.length ≤ fuel → ∃ s' t' X', eraseLoop key lt s ((Y ++ Z).headD 0) (Z.headD 0) n fuel = .ok (s', n + Y.length) ∧ s'.cap = s.cap ∧ Ok s' t' ev ∧
      t'.ids = X' ++ Z ∧ X'.Perm X ∧ ((∀ y ∈ Y, ∀ m ∈ X, lt (key (ev m)) (key (ev y)) = true) → X' = X) := by
  induction Y with
  | nil =>
    intro s t X n fuel hi e _
    refine ⟨s, t, X, ?_, rfl, hi, by simpa using e, .refl _, fun _ => rfl⟩
    cases fuel <;> simp [eraseLoop]
  | cons y Y ih =>
    intro s t X n fuel hi e hf
    obtain ⟨fuel, rfl⟩ : ∃ j, fuel = j + 1 := ⟨fuel - 1, by simp at hf; omega⟩
    have hnd := hi.nodup
    have hy0 : y ≠ 0 := hi.pos (by rw [e]; simp)
    have hne : y ≠ Z.headD 0 := by
      cases Z with
      | nil => exact hy0
      | cons z Z =>
        intro hc
        have : y = z := hc
        subst this
        rw [e, List.append_assoc] at hnd
        have := (List.nodup_append.1 hnd).2.1
        simp at this
    have e2 : t.ids = X ++ y :: (Y ++ Z) := by rw [e]; simp
    obtain ⟨s', t', a1, a2, a3, ⟨X1, x1, x2⟩, a4⟩ := erase_ok (key := key) hlt hi e2
    obtain ⟨s'', t'', X2, b1, b2, b3, b4, b5, b6⟩ := ih X1 (n + 1) fuel a3 (by rw [x2]; simp) (by simp at hf; omega)
    refine ⟨s'', t'', X2, ?_, b2.trans a2, b3, b4, b5.trans x1, fun hx => ?_⟩
    · rw [eraseLoop, if_pos (by simpa using hne)]
      simp only [List.cons_append, List.headD_cons, a1, bind, Except.bind]
      rw [b1]
      simp only [List.length_cons]
      congr 2; omega
    · have : X1 = X := List.append_cancel_right (x2.symm.trans (a4 (hx y (by simp))))
      subst this
      exact b6 fun y' hy' => hx y' (by simp [hy'])

theorem nil_of_ids {t : T} (h : t.ids = []) : t = .nil := by
  by_contra hc
  have := mem_rootId hc
  rw [h] at this; simp at this

theorem clear_ok (hlt : StrictWeak lt) (hi : Ok s t ev) : ∃ s', clear key lt s = .ok s' ∧ s'.cap = s.cap ∧ Ok s' .nil ev := by
  obtain ⟨s', t', X', a1, a2, a3, a4, a5, _⟩ := eraseLoop_ok (key := key) hlt (Z := []) t.ids [] 0 (s.cap + 1) hi (by simp) (by have := hi.len; omega)
  rw [List.perm_nil.1 a5] at a4
  refine ⟨s', ?_, a2, nil_of_ids a4 ▸ a3⟩
  unfold clear
  rw [begin_ok hi]
  simp only [bind, Except.bind]
  rw [show eraseLoop key lt s (t.ids.headD 0) 0 0 (s.cap + 1) = _ by simpa using a1]

theorem Ord.sublist {ids ids' : List Nat} (h : Ord key lt ev ids) (hs : ids'.Sublist ids) : Ord key lt ev ids' := List.Pairwise.sublist hs h

/-- `erase(key)`. -/
theorem eraseKey_ok (hlt : StrictWeak lt) (hi : Ok s t ev) (ho : Ord key lt ev t.ids) (k : K) : ∃ A B C s' t', t.ids = A ++ B ++ C ∧ (∀ m ∈ A, lt (key (ev m)) k = true) ∧
    (∀ m ∈ B, lt (key (ev m)) k = false ∧ lt k (key (ev m)) = false) ∧ (∀ m ∈ C, lt k (key (ev m)) = true) ∧ eraseKey key lt s k = .ok (s', B.length) ∧ s'.cap = s.cap ∧
    Ok s' t' ev ∧ t'.ids = A ++ C := by
  obtain ⟨A, B, C, e, h1, h2, h3, l1, l2⟩ := bounds_ok (key := key) hlt hi ho k
  obtain ⟨s', t', X', a1, a2, a3, a4, _, a6⟩ := eraseLoop_ok (key := key) hlt B A 0 (s.cap + 1) hi e (by have := hi.len; rw [e] at this; simp at this; omega)
  rw [a6 (fun y hy m hm => hlt.lt_of_lt_of_le (h1 m hm) (h2 y hy).1)] at a4
  refine ⟨A, B, C, s', t', e, h1, h2, h3, ?_, a2, a3, a4⟩
  unfold eraseKey
  simp only [l1, l2, bind, Except.bind]
  rw [a1]; simp

/-! ## Iteration -/

theorem listLoop_ok (hi : Ok s t ev) (Y : List Nat) : ∀ (X : List Nat) (fuel : Nat), t.ids = X ++ Y → Y.length ≤ fuel →
    listLoop s (Y.headD 0) fuel = .ok (Y.map ev) := by
  induction Y with
  | nil =>
    intro X fuel e _
    cases fuel <;> simp [listLoop]
  | cons y Y ih =>
    intro X fuel e hf
    obtain ⟨fuel, rfl⟩ : ∃ j, fuel = j + 1 := ⟨fuel - 1, by simp at hf; omega⟩
    have hy : y ∈ t.ids := by rw [e]; simp
    rw [List.headD_cons, listLoop, if_pos (hi.pos hy)]
    simp only [hi.read hy, bind, Except.bind, next_ok hi e]
    rw [ih (X ++ [y]) fuel (by rw [e]; simp) (by simp at hf; omega)]
    rfl

theorem toList_ok (hi : Ok s t ev) : toList s = .ok (t.ids.map ev) := by
  unfold toList
  rw [begin_ok hi]
  exact listLoop_ok hi t.ids [] (s.cap + 1) rfl (by have := hi.len; omega)

/-- The node before a position. -/
theorem prev_mid (hi : Ok s t ev) {X Y : List Nat} {x : Nat} (e : t.ids = X ++ x :: Y) : prev s (Y.headD 0) = .ok x := by
  cases Y with
  | nil => rw [List.headD_nil, prev_end hi, e]; simp
  | cons y Y =>
    have e2 : t.ids = (X ++ [x]) ++ y :: Y := by rw [e]; simp
    rw [List.headD_cons, prev_ok hi e2]; simp

theorem rlistLoop_ok (hi : Ok s t ev) (X : List Nat) : ∀ (Y : List Nat) (fuel : Nat), t.ids = X ++ Y → X.length ≤ fuel →
    rlistLoop s (t.ids.headD 0) (Y.headD 0) fuel = .ok (X.reverse.map ev) := by
  induction X using List.reverseRecOn with
  | nil =>
    intro Y fuel e _
    have : t.ids = Y := e
    rw [this]
    cases fuel <;> simp [rlistLoop]
  | append_singleton X x ih =>
    intro Y fuel e hf
    obtain ⟨fuel, rfl⟩ : ∃ j, fuel = j + 1 := ⟨fuel - 1, by simp at hf; omega⟩
    have hx : x ∈ t.ids := by rw [e]; simp
    have e2 : t.ids = X ++ x :: Y := by rw [e]; simp
    have hnd := hi.nodup
    have hne : Y.headD 0 ≠ t.ids.headD 0 := by
      have hm : t.ids.headD 0 ∈ X ++ [x] := by
        rw [e]; cases X <;> simp
      cases Y with
      | nil =>
        intro hc
        have : t.ids.headD 0 ∈ t.ids := by rw [e] at hm ⊢; simpa using hm
        exact hi.pos this hc.symm
      | cons y Y =>
        intro hc
        rw [e] at hnd
        exact (List.nodup_append.1 hnd).2.2 _ hm y (by simp) hc.symm
    rw [rlistLoop, if_pos hne]
    simp only [prev_mid hi e2, bind, Except.bind, hi.read hx]
    have := ih (x :: Y) fuel e2 (by simp at hf; omega)
    rw [List.headD_cons] at this
    rw [this]
    simp

theorem toListRev_ok (hi : Ok s t ev) : toListRev s = .ok (t.ids.reverse.map ev) := by
  unfold toListRev
  rw [begin_ok hi]
  exact rlistLoop_ok hi t.ids [] (s.cap + 1) (by simp) (by have := hi.len; omega)

/-- `count(key)`. -/
theorem countLoop_ok {k : K} (hi : Ok s t ev) {Z : List Nat} (Y : List Nat) : ∀ (X : List Nat) (n fuel : Nat), t.ids = X ++ Y ++ Z →
    (∀ m ∈ Y, lt (key (ev m)) k = false ∧ lt k (key (ev m)) = false) → Y.length ≤ fuel →
    countLoop key lt s k ((Y ++ Z).headD 0) (Z.headD 0) n fuel = .ok (n + Y.length) := by
  induction Y with
  | nil => intro X n fuel e _ _; cases fuel <;> simp [countLoop]
  | cons y Y ih =>
    intro X n fuel e hy hf
    obtain ⟨fuel, rfl⟩ : ∃ j, fuel = j + 1 := ⟨fuel - 1, by simp at hf; omega⟩
    have hnd := hi.nodup
    have hym : y ∈ t.ids := by rw [e]; simp
    have hne : y ≠ Z.headD 0 := by
      cases Z with
      | nil => exact hi.pos hym
      | cons z Z =>
        intro hc
        have : y = z := hc
        subst this
        rw [e, List.append_assoc] at hnd
        have := (List.nodup_append.1 hnd).2.1
        simp at this
    have e2 : t.ids = X ++ y :: (Y ++ Z) := by rw [e]; simp
    rw [countLoop, if_pos (by simpa using hne)]
    simp only [List.cons_append, List.headD_cons, hi.read hym, next_ok hi e2, bind, Except.bind]
    rw [if_pos ⟨(hy y (by simp)).2, (hy y (by simp)).1⟩, ih (X ++ [y]) (n + 1) fuel (by rw [e]; simp) (fun m hm => hy m (by simp [hm])) (by simp at hf; omega)]
    simp only [List.length_cons]
    congr 1; omega

theorem count_ok (hlt : StrictWeak lt) (hi : Ok s t ev) (ho : Ord key lt ev t.ids) (k : K) :
    count key lt s k = .ok (t.ids.countP (fun m => !lt (key (ev m)) k && !lt k (key (ev m)))) := by
  obtain ⟨A, B, C, e, h1, h2, h3, l1, l2⟩ := bounds_ok (key := key) hlt hi ho k
  unfold count
  simp only [l1, l2, bind, Except.bind]
  rw [countLoop_ok hi B A 0 (s.cap + 1) e h2 (by have := hi.len; rw [e] at this; simp at this; omega), e, List.countP_append, List.countP_append,
    List.countP_eq_zero.2 (fun m hm => by rw [h1 m hm]; simp), List.countP_eq_length.2 (fun m hm => by rw [(h2 m hm).1, (h2 m hm).2]; rfl),
    List.countP_eq_zero.2 (fun m hm => by rw [h3 m hm]; simp)]
  congr 1

/-- Assignment to an element that keeps its key. -/
theorem write_ok (hi : Ok s t ev) {p : Nat} (hp : p ∈ t.ids) {g : α → α} :
    ∃ s', write s p g = .ok s' ∧ s'.cap = s.cap ∧ s' = { s with val := upd s.val p (some (g (ev p))) } ∧ Ok s' t (upd ev p (g (ev p))) := by
  refine ⟨{ s with val := upd s.val p (some (g (ev p))) }, by unfold write; rw [hi.read hp]; rfl, rfl, rfl, ?_⟩
  refine { rep := hi.rep, bal := hi.bal, par := hi.par, vals := ?_, pool := { lim := hi.pool.lim, part := hi.pool.part, raw := ?_, size := hi.pool.size } }
  · intro m hm
    show upd s.val p _ m = _
    by_cases hc : m = p
    · subst hc; rw [upd_same, upd_same]
    · rw [upd_other _ _ hc, upd_other _ _ hc]; exact hi.vals m hm
  · intro m hm
    show upd s.val p _ m = _
    have : m ≠ p := fun hc => (List.nodup_append.1 hi.pool.nodup).2.2 p hp m hm hc.symm
    rw [upd_other _ _ this]; exact hi.pool.raw m hm

theorem Ord.write {ids : List Nat} (ho : Ord key lt ev ids) {p : Nat} {v : α} (hg : key v = key (ev p)) : Ord key lt (upd ev p v) ids := by
  have hk : ∀ m, key (upd ev p v m) = key (ev m) := by
    intro m
    by_cases hc : m = p
    · subst hc; rw [upd_same]; exact hg
    · rw [upd_other _ _ hc]
  exact List.Pairwise.imp (fun {a b} h => by rw [hk a, hk b]; exact h) ho

end Etl.MTree
