import Verif.Tree.Search
import Verif.Tree.Spec

/-! # The operations of a map or set -/
namespace Etl.Tree
open T

variable {α K : Type} {key : α → K} {lt : K → K → Bool} {s : St α} {t : T} {ev : Nat → α}

theorem inv_init (cap : Nat) (junk : TH) (ev : Nat → α) : Inv key lt (init cap junk) .nil ev :=
  { rep := rfl, bal := trivial, vals := by simp [T.ids, T.ino],
    pool := { lim := rfl, part := by simp [T.ids, T.ino, init], raw := fun _ _ => rfl, size := rfl }, ord := by simp [T.ids, T.ino] }

theorem filter_left {X Y : List Nat} {p : Nat → Bool} (h1 : ∀ m ∈ X, p m = true) (h2 : ∀ m ∈ Y, p m = false) : (X ++ Y).filter p = X := by
  rw [List.filter_append, List.filter_eq_self.2 h1, List.filter_eq_nil_iff.2 (fun m hm => by rw [h2 m hm]; simp), List.append_nil]
theorem filter_right {X Y : List Nat} {p : Nat → Bool} (h1 : ∀ m ∈ X, p m = false) (h2 : ∀ m ∈ Y, p m = true) : (X ++ Y).filter p = Y := by
  rw [List.filter_append, List.filter_eq_self.2 h2, List.filter_eq_nil_iff.2 (fun m hm => by rw [h1 m hm]; simp), List.nil_append]

/-- A new node is taken from the pool and inserted. -/
theorem addNew (hlt : StrictWeak lt) (hi : Inv key lt s t ev) (hf : s.size ≠ s.cap) (v : α) : ∃ n s1 s2 r, allocate s v = .ok (some (n, s1)) ∧
    insertNode key lt s1 n = .ok (s2, r) ∧ s2.cap = s.cap ∧
    ((r ∈ t.ids ∧ r ≠ n ∧ lt (key (ev r)) (key v) = false ∧ lt (key v) (key (ev r)) = false ∧ Inv key lt s2 t ev) ∨
     (r = n ∧ n ∉ t.ids ∧ n ≠ 0 ∧ (∀ m ∈ t.ids, lt (key (ev m)) (key v) ∨ lt (key v) (key (ev m))) ∧ ∃ t', Inv key lt s2 t' (upd ev n v) ∧
      t'.ids = t.ids.filter (fun m => lt (key (ev m)) (key v)) ++ n :: t.ids.filter (fun m => lt (key v) (key (ev m))))) := by
  have hlen := hi.pool.len
  have hsz := hi.pool.size
  obtain ⟨n, f, hfree⟩ : ∃ n f, s.free = n :: f := by
    cases h : s.free with
    | nil => rw [h] at hlen; simp at hlen; omega
    | cons n f => exact ⟨n, f, rfl⟩
  have hnd := hi.pool.nodup
  have hpart := hi.pool.part
  have hraw := hi.pool.raw
  rw [hfree] at hnd hpart
  have hn : n ∉ t.ids := fun hc => (List.nodup_append.1 hnd).2.2 n hc n (by simp) rfl
  have hnf : n ∉ f := (List.nodup_cons.1 (List.nodup_append.1 hnd).2.1).1
  have hni : 1 ≤ n ∧ n ≤ s.cap := mem_items.1 (hpart.subset (by simp))
  have vn : s.h.valid n := ⟨hni.1, by rw [hi.pool.lim]; exact hni.2⟩
  let s1 : St α := { s with val := upd s.val n (some v), free := f }
  let ev1 := upd ev n v
  have hev : ∀ m ∈ t.ids, ev1 m = ev m := fun m hm => upd_other _ _ (fun hc => hn (hc ▸ hm))
  have hv1 : ∀ m ∈ t.ids, s1.val m = some (ev1 m) := by
    intro m hm
    rw [hev m hm, ← hi.vals m hm]
    exact upd_other _ _ (fun hc => hn (hc ▸ hm))
  have hevn : ev1 n = v := upd_same _ _ _
  have ho1 : t.ids.Pairwise (fun a b => lt (key (ev1 a)) (key (ev1 b))) :=
    hi.ord.imp_of_mem (fun {a b} ha hb h => by rw [hev a ha, hev b hb]; exact h)
  have key_ins := insertNode_ok key lt (ev := ev1) (s := s1) (t := t) (n := n) hi.rep hi.nodup hi.bal hv1 hn vn
    (by rw [hevn]; exact upd_same _ _ _) hnf hi.len
  refine ⟨n, s1, ?_⟩
  have hal : allocate s v = .ok (some (n, s1)) := by
    unfold allocate
    rw [hfree]
    simp only [hraw n (by rw [hfree]; simp)]
    rfl
  rw [hevn] at key_ins
  rcases key_ins with ⟨fs, h', t', e1, e2, e3, e4, e5, e6, e7⟩ | ⟨fs, m, w, x, y, h', e1, e2, e3, e4, e5, e6, e7⟩
  · have hsp := goes_split key lt hlt fs e2 (by rw [← e1]; exact ho1)
    have hids : t.ids = bef fs ++ aft fs := by rw [e1, ids_plug]; simp [T.ids, T.ino]
    have hb : ∀ m ∈ bef fs, lt (key (ev m)) (key v) = true := fun m hm => by rw [← hev m (by rw [hids]; simp [hm])]; exact hsp.1 m hm
    have ha : ∀ m ∈ aft fs, lt (key v) (key (ev m)) = true := fun m hm => by rw [← hev m (by rw [hids]; simp [hm])]; exact hsp.2 m hm
    refine ⟨_, n, hal, e3, rfl, .inr ⟨rfl, hn, by omega, ?_, t', ?_, ?_⟩⟩
    · intro m hm
      rw [hids, List.mem_append] at hm
      exact hm.elim (fun h => .inl (hb m h)) (fun h => .inr (ha m h))
    · have hperm : (t'.ids ++ f).Perm (t.ids ++ n :: f) := by
        rw [e6, hids, List.append_assoc, List.append_assoc, List.cons_append]
        exact (List.perm_middle.symm).append_left (bef fs)
      refine { rep := e4, bal := e5, vals := ?_, pool := { lim := e7.trans hi.pool.lim, part := hperm.trans hpart, raw := ?_, size := ?_ }, ord := ?_ }
      · intro m hm
        rw [e6] at hm
        by_cases hc : m = n
        · subst hc; show upd s.val m (some v) m = some (upd ev m v m); rw [upd_same, upd_same]
        · exact hv1 m (by rw [hids]; simpa [hc] using hm)
      · intro m hm
        show upd s.val n (some v) m = none
        rw [upd_other _ _ (by rintro rfl; exact hnf hm)]
        exact hraw m (by rw [hfree]; exact List.mem_cons_of_mem _ hm)
      · show s.size + 1 = _
        rw [e6, hsz, hids]; simp; omega
      · rw [e6]
        rw [hids] at ho1
        obtain ⟨o1, o2, o3⟩ := List.pairwise_append.1 ho1
        refine List.pairwise_append.2 ⟨o1, List.pairwise_cons.2 ⟨fun m hm => ?_, o2⟩, fun a h1 b hb' => ?_⟩
        · show lt (key (ev1 n)) (key (ev1 m)) = true; rw [hevn]; exact hsp.2 m hm
        · rcases List.mem_cons.1 hb' with rfl | h2
          · show lt (key (ev1 a)) (key (ev1 b)) = true; rw [hevn]; exact hsp.1 a h1
          · exact o3 a h1 b h2
    · rw [e6, hids, filter_left hb (fun m hm => hlt.asymm (ha m hm)), filter_right (fun m hm => hlt.asymm (hb m hm)) ha]
  · have hm : m ∈ t.ids := by rw [e1]; exact mem_plug.2 (.inr (mem_mk.2 (.inl rfl)))
    rw [hev m hm] at e3 e4
    refine ⟨_, m, hal, e5, rfl, .inl ⟨hm, fun hc => hn (hc ▸ hm), e4, e3, ?_⟩⟩
    refine { rep := e6, bal := hi.bal, vals := ?_, pool := { lim := e7.trans hi.pool.lim, part := hpart, raw := ?_, size := hsz }, ord := hi.ord }
    · intro a ha'
      have han : a ≠ n := fun hc => hn (hc ▸ ha')
      show upd (upd s.val n (some v)) n none a = _
      rw [upd_other _ _ han, upd_other _ _ han]; exact hi.vals a ha'
    · intro a ha'
      show upd (upd s.val n (some v)) n none a = _
      by_cases han : a = n
      · subst han; exact upd_same _ _ _
      · rw [upd_other _ _ han, upd_other _ _ han]; exact hraw a (by rw [hfree]; exact ha')

/-- `remove_node`. -/
theorem removeInv (hlt : StrictWeak lt) (hi : Inv key lt s t ev) (k : K) : ∃ s' r, removeNode key lt s k = .ok (s', r) ∧ s'.cap = s.cap ∧
    ((r = 0 ∧ Inv key lt s' t ev ∧ ∀ m ∈ t.ids, lt (key (ev m)) k ∨ lt k (key (ev m))) ∨
     (r ∈ t.ids ∧ lt (key (ev r)) k = false ∧ lt k (key (ev r)) = false ∧ ∃ t', Inv key lt s' t' ev ∧ t'.ids = t.ids.erase r)) := by
  rcases removeNode_ok key lt (k := k) hlt hi.rep hi.bal hi.vals hi.pool hi.ord with ⟨h', e1, e2, e3, e4⟩ | ⟨n, h', t', e1, e2, e3, e4, e5, e6, e7, e8⟩
  · refine ⟨_, 0, e1, rfl, .inl ⟨rfl, ?_, e4⟩⟩
    exact { rep := e2, bal := hi.bal, vals := hi.vals, pool := { lim := e3.trans hi.pool.lim, part := hi.pool.part, raw := hi.pool.raw, size := hi.pool.size }, ord := hi.ord }
  · refine ⟨_, n, e4, rfl, .inr ⟨e1, e3, e2, t', ?_, e7⟩⟩
    have hnd := hi.pool.nodup
    have hnt := hi.nodup
    have hmem : ∀ m ∈ t'.ids, m ∈ t.ids ∧ m ≠ n := by
      intro m hm
      rw [e7] at hm
      exact ⟨List.mem_of_mem_erase hm, fun hc => by subst hc; exact (List.Nodup.not_mem_erase hnt) hm⟩
    refine { rep := e5, bal := e6, vals := ?_, pool := { lim := e8.trans hi.pool.lim, part := ?_, raw := ?_, size := ?_ }, ord := ?_ }
    · intro m hm
      show upd s.val n none m = _
      rw [upd_other _ _ (hmem m hm).2]; exact hi.vals m (hmem m hm).1
    · show (t'.ids ++ n :: s.free).Perm _
      rw [e7]
      refine List.Perm.trans ?_ hi.pool.part
      exact List.perm_middle.trans ((List.perm_cons_erase e1).symm.append_right s.free)
    · intro m hm
      show upd s.val n none m = _
      by_cases hc : m = n
      · subst hc; exact upd_same _ _ _
      · rw [upd_other _ _ hc]
        refine hi.pool.raw m ?_
        rcases List.mem_cons.1 hm with h | h
        · exact absurd h hc
        · exact h
    · show s.size - 1 = _
      rw [e7, List.length_erase_of_mem e1, hi.pool.size]
    · rw [e7]; exact hi.ord.sublist (List.erase_sublist ..)

/-- In a sorted sequence equivalent nodes are the same. -/
theorem Inv.uniq (hlt : StrictWeak lt) (hi : Inv key lt s t ev) {a b : Nat} (ha : a ∈ t.ids) (hb : b ∈ t.ids) (h1 : lt (key (ev a)) (key (ev b)) = false)
    (h2 : lt (key (ev b)) (key (ev a)) = false) : a = b := by
  by_contra hne
  obtain ⟨X, Y, e⟩ := List.append_of_mem ha
  have ho := hi.ord
  rw [e] at ho hb
  obtain ⟨_, o2, o3⟩ := List.pairwise_append.1 ho
  rcases List.mem_append.1 hb with h | h
  · have := o3 b h a (by simp); rw [h2] at this; cases this
  · rcases List.mem_cons.1 h with h | h
    · exact hne h.symm
    · have := (List.pairwise_cons.1 o2).1 b h; rw [h1] at this; cases this

theorem erase_inv (hlt : StrictWeak lt) (hi : Inv key lt s t ev) {X Y : List Nat} {p : Nat} (e : t.ids = X ++ p :: Y) :
    ∃ s' t', eraseAt key lt s p = .ok (s', Y.headD 0) ∧ s'.cap = s.cap ∧ Inv key lt s' t' ev ∧ t'.ids = X ++ Y := by
  have hp : p ∈ t.ids := by rw [e]; simp
  obtain ⟨L, l1, l2⟩ := findRef_get hlt hi hp
  obtain ⟨s', r, r1, r2, r3⟩ := removeInv hlt hi (key (ev p))
  have hr := read_ok (hi.rep.valid_of_mem hp) (hi.vals p hp)
  unfold eraseAt
  simp only [l1, l2, bind, Except.bind, next_ok hlt hi e, hr, r1]
  rcases r3 with ⟨_, _, r5⟩ | ⟨r3, r4, r5, t', r6, r7⟩
  · exfalso
    rcases r5 p hp with h | h <;> rw [hlt.irrefl] at h <;> cases h
  · have : r = p := hi.uniq hlt r3 hp r4 r5
    subst this
    exact ⟨s', t', rfl, r2, r6, by rw [r7, e]; exact erase_mid (e ▸ hi.nodup)⟩

theorem eraseLoop_ok (hlt : StrictWeak lt) {X Z : List Nat} (Y : List Nat) : ∀ {s : St α} {t : T} (fuel : Nat), Inv key lt s t ev → t.ids = X ++ Y ++ Z →
    Y.length ≤ fuel → ∃ s' t', eraseLoop key lt s ((Y ++ Z).headD 0) (Z.headD 0) fuel = .ok s' ∧ s'.cap = s.cap ∧ Inv key lt s' t' ev ∧ t'.ids = X ++ Z := by
  induction Y with
  | nil =>
    intro s t fuel hi e _
    refine ⟨s, t, ?_, rfl, hi, by simpa using e⟩
    cases fuel <;> simp [eraseLoop]
  | cons y Y ih =>
    intro s t fuel hi e hf
    obtain ⟨fuel, rfl⟩ : ∃ j, fuel = j + 1 := ⟨fuel - 1, by simp at hf; omega⟩
    have hnd := hi.nodup
    have hy0 : y ≠ 0 := hi.pos (by rw [e]; simp)
    have hne : y ≠ Z.headD 0 := by
      cases Z with
      | nil => exact hy0
      | cons z Z =>
        intro hc
        have : y = z := hc
        subst this
        rw [e, List.append_assoc] at hnd
        have := (List.nodup_append.1 hnd).2.1
        simp at this
    have e2 : t.ids = X ++ y :: (Y ++ Z) := by rw [e]; simp
    obtain ⟨s', t', a1, a2, a3, a4⟩ := erase_inv hlt hi e2
    obtain ⟨s'', t'', b1, b2, b3, b4⟩ := ih fuel a3 (by rw [a4]; simp) (by simp at hf; omega)
    refine ⟨s'', t'', ?_, b2.trans a2, b3, b4⟩
    rw [eraseLoop, if_pos (by simpa using hne)]
    simp only [List.cons_append, List.headD_cons, a1, bind, Except.bind]
    exact b1

theorem clear_inv (hlt : StrictWeak lt) (hi : Inv key lt s t ev) : ∃ s', clear key lt s = .ok s' ∧ s'.cap = s.cap ∧ Inv key lt s' .nil ev := by
  obtain ⟨s', t', a1, a2, a3, a4⟩ := eraseLoop_ok hlt (X := []) (Z := []) t.ids (s.cap + 1) hi (by simp) (by have := hi.len; omega)
  refine ⟨s', ?_, a2, ?_⟩
  · unfold clear
    rw [begin_ok hi]
    simp only [bind, Except.bind]
    simpa using a1
  · have : t' = .nil := by
      by_contra hc
      have := mem_rootId hc
      rw [a4] at this; simp at this
    exact this ▸ a3

/-! ## Iteration -/

theorem listLoop_ok (hlt : StrictWeak lt) (hi : Inv key lt s t ev) (Y : List Nat) : ∀ (X : List Nat) (fuel : Nat), t.ids = X ++ Y → Y.length ≤ fuel →
    listLoop key lt s (Y.headD 0) fuel = .ok (Y.map ev) := by
  induction Y with
  | nil =>
    intro X fuel e _
    cases fuel <;> simp [listLoop]
  | cons y Y ih =>
    intro X fuel e hf
    obtain ⟨fuel, rfl⟩ : ∃ j, fuel = j + 1 := ⟨fuel - 1, by simp at hf; omega⟩
    have hy : y ∈ t.ids := by rw [e]; simp
    rw [List.headD_cons, listLoop, if_pos (hi.pos hy)]
    simp only [read_ok (hi.rep.valid_of_mem hy) (hi.vals y hy), bind, Except.bind, next_ok hlt hi e]
    rw [ih (X ++ [y]) fuel (by rw [e]; simp) (by simp at hf; omega)]
    rfl

theorem toList_inv (hlt : StrictWeak lt) (hi : Inv key lt s t ev) : toList key lt s = .ok (t.ids.map ev) := by
  unfold toList
  rw [begin_ok hi]
  exact listLoop_ok hlt hi t.ids [] (s.cap + 1) rfl (by have := hi.len; omega)

/-- The node before a position. -/
theorem prev_mid (hlt : StrictWeak lt) (hi : Inv key lt s t ev) {X Y : List Nat} {x : Nat} (e : t.ids = X ++ x :: Y) : prev key lt s (Y.headD 0) = .ok x := by
  cases Y with
  | nil => rw [List.headD_nil, prev_end hi, e]; simp
  | cons y Y =>
    have e2 : t.ids = (X ++ [x]) ++ y :: Y := by rw [e]; simp
    rw [List.headD_cons, prev_ok hlt hi e2]; simp

theorem rlistLoop_ok (hlt : StrictWeak lt) (hi : Inv key lt s t ev) (X : List Nat) : ∀ (Y : List Nat) (fuel : Nat), t.ids = X ++ Y → X.length ≤ fuel →
    rlistLoop key lt s (t.ids.headD 0) (Y.headD 0) fuel = .ok (X.reverse.map ev) := by
  induction X using List.reverseRecOn with
  | nil =>
    intro Y fuel e _
    have : t.ids = Y := e
    rw [this]
    cases fuel <;> simp [rlistLoop]
  | append_singleton X x ih =>
    intro Y fuel e hf
    obtain ⟨fuel, rfl⟩ : ∃ j, fuel = j + 1 := ⟨fuel - 1, by simp at hf; omega⟩
    have hx : x ∈ t.ids := by rw [e]; simp
    have e2 : t.ids = X ++ x :: Y := by rw [e]; simp
    have hnd := hi.nodup
    have hne : Y.headD 0 ≠ t.ids.headD 0 := by
      have hm : t.ids.headD 0 ∈ X ++ [x] := by
        rw [e]; cases X <;> simp
      cases Y with
      | nil =>
        intro hc
        have : t.ids.headD 0 ∈ t.ids := by rw [e] at hm ⊢; simpa using hm
        exact hi.pos this hc.symm
      | cons y Y =>
        intro hc
        rw [e] at hnd
        exact (List.nodup_append.1 hnd).2.2 _ hm y (by simp) hc.symm
    rw [rlistLoop, if_pos hne]
    simp only [prev_mid hlt hi e2, bind, Except.bind, read_ok (hi.rep.valid_of_mem hx) (hi.vals x hx)]
    have := ih (x :: Y) fuel e2 (by simp at hf; omega)
    rw [List.headD_cons] at this
    rw [this]
    simp

theorem toListRev_inv (hlt : StrictWeak lt) (hi : Inv key lt s t ev) : toListRev key lt s = .ok (t.ids.reverse.map ev) := by
  unfold toListRev
  rw [begin_ok hi]
  exact rlistLoop_ok hlt hi t.ids [] (s.cap + 1) (by simp) (by have := hi.len; omega)

/-- Assignment to an element that keeps its key. -/
theorem write_inv (hi : Inv key lt s t ev) {p : Nat} (hp : p ∈ t.ids) {g : α → α} (hg : key (g (ev p)) = key (ev p)) :
    ∃ s', write s p g = .ok s' ∧ s'.cap = s.cap ∧ s' = { s with val := upd s.val p (some (g (ev p))) } ∧ Inv key lt s' t (upd ev p (g (ev p))) := by
  refine ⟨{ s with val := upd s.val p (some (g (ev p))) }, by unfold write; rw [read_ok (hi.rep.valid_of_mem hp) (hi.vals p hp)]; rfl, rfl, rfl, ?_⟩
  have hk : ∀ m, key (upd ev p (g (ev p)) m) = key (ev m) := by
    intro m
    by_cases hc : m = p
    · subst hc; rw [upd_same]; exact hg
    · rw [upd_other _ _ hc]
  refine { rep := hi.rep, bal := hi.bal, vals := ?_, pool := { lim := hi.pool.lim, part := hi.pool.part, raw := ?_, size := hi.pool.size }, ord := ?_ }
  · intro m hm
    show upd s.val p _ m = _
    by_cases hc : m = p
    · subst hc; rw [upd_same, upd_same]
    · rw [upd_other _ _ hc, upd_other _ _ hc]; exact hi.vals m hm
  · intro m hm
    show upd s.val p _ m = _
    have : m ≠ p := fun hc => (List.nodup_append.1 hi.pool.nodup).2.2 p hp m hm hc.symm
    rw [upd_other _ _ this]; exact hi.pool.raw m hm
  · exact hi.ord.imp (fun {a b} h => by rw [hk a, hk b]; exact h)

end Etl.Tree
