import Verif.Tree.Ops

/-! # The operations do what the specification says -/
namespace Etl.Tree
open T

variable {α K : Type} {key : α → K} {lt : K → K → Bool} {s : St α} {t : T} {ev : Nat → α}

/-- The contents of the container: the elements of the tree in order, with their nodes. -/
def seqOf (t : T) (ev : Nat → α) : Spec.Seq α := t.ids.map (fun n => (n, ev n))

theorem seqOf_nil (ev : Nat → α) : seqOf .nil ev = [] := rfl
theorem seqOf_len (t : T) (ev : Nat → α) : (seqOf t ev).length = t.ids.length := List.length_map _
theorem mem_seqOf {p : Nat} (h : ∃ e ∈ seqOf t ev, e.1 = p) : p ∈ t.ids := by
  obtain ⟨e, h1, h2⟩ := h
  obtain ⟨n, h3, rfl⟩ := List.mem_map.1 h1
  exact h2 ▸ h3
theorem posOf_head (Y : List Nat) : Spec.posOf (Y.map (fun n => (n, ev n))).head? = Y.headD 0 := by cases Y <;> rfl
theorem posOf_map (o : Option Nat) : Spec.posOf (o.map (fun n => (n, ev n))) = o.getD 0 := by cases o <;> rfl

/-- A split of the sequence is a split of the nodes. -/
theorem map_split {ids : List Nat} {X Y : Spec.Seq α} (h : ids.map (fun n => (n, ev n)) = X ++ Y) :
    ∃ A B, ids = A ++ B ∧ X = A.map (fun n => (n, ev n)) ∧ Y = B.map (fun n => (n, ev n)) := by
  obtain ⟨A, B, h1, h2, h3⟩ := List.map_eq_append_iff.1 h
  exact ⟨A, B, h1, h2.symm, h3.symm⟩

theorem lookup_some (hlt : StrictWeak lt) (hi : Inv key lt s t ev) {k : K} {r : Nat} (hr : r ∈ t.ids) (h1 : lt (key (ev r)) k = false) (h2 : lt k (key (ev r)) = false) :
    Spec.lookup key lt k (seqOf t ev) = some (r, ev r) := by
  unfold Spec.lookup seqOf
  rw [List.find?_map]
  cases hf : t.ids.find? (Spec.same key lt k ∘ fun n => (n, ev n)) with
  | none =>
    rw [List.find?_eq_none] at hf
    exact absurd (by simp [Spec.same, h1, h2]) (hf r hr)
  | some m =>
    have hm := List.mem_of_find?_eq_some hf
    have hp := List.find?_some hf
    simp only [Function.comp, Spec.same, Bool.and_eq_true, Bool.not_eq_true'] at hp
    have := hlt.incomp _ _ _ hp.1 hp.2 h2 h1
    rw [hi.uniq hlt hm hr this.1 this.2]; rfl

theorem lookup_none {k : K} (h : ∀ m ∈ t.ids, lt (key (ev m)) k ∨ lt k (key (ev m))) : Spec.lookup key lt k (seqOf t ev) = none := by
  unfold Spec.lookup seqOf
  rw [List.find?_map, List.find?_eq_none.2]
  · rfl
  · intro m hm
    rcases h m hm with h | h <;> simp [Spec.same, h]

theorem place_eq {t' : T} {n : Nat} {v : α} (hn : n ∉ t.ids)
    (e : t'.ids = t.ids.filter (fun m => lt (key (ev m)) (key v)) ++ n :: t.ids.filter (fun m => lt (key v) (key (ev m)))) :
    seqOf t' (upd ev n v) = Spec.place key lt n v (seqOf t ev) := by
  have hmap : ∀ X : List Nat, (∀ m ∈ X, m ∈ t.ids) → X.map (fun m => (m, upd ev n v m)) = X.map (fun m => (m, ev m)) := by
    intro X hX
    refine List.map_congr_left fun m hm => ?_
    rw [upd_other _ _ (by rintro rfl; exact hn (hX _ hm))]
  unfold seqOf Spec.place
  rw [e, List.map_append, List.map_cons, hmap _ (fun m hm => (List.mem_filter.1 hm).1), hmap _ (fun m hm => (List.mem_filter.1 hm).1), upd_same,
    List.filter_map, List.filter_map]
  rfl

theorem full_iff (hi : Inv key lt s t ev) : full s = true ↔ (seqOf t ev).length = s.cap := by
  unfold full; rw [seqOf_len, ← hi.pool.size]; simp

/-- The names of the errors in the specification. -/
def failOf : Err → Spec.Fail
  | .full => .full
  | .outOfBounds => .outOfBounds
  | .noAlloc => .noMemory

def outIns : Except Err (Nat × Bool) → Spec.Out α
  | .ok (n, b) => .ins n b
  | .error e => .fail (failOf e)
def outPos : Except Err Nat → Spec.Out α
  | .ok n => .pos n
  | .error e => .fail (failOf e)
def outUnit : Except Err Unit → Spec.Out α
  | .ok _ => .done
  | .error e => .fail (failOf e)
def outElem : Except Err α → Spec.Out α
  | .ok v => .elem v
  | .error e => .fail (failOf e)

theorem fresh {n : Nat} (hn : n ∉ t.ids) : ∀ e ∈ seqOf t ev, e.1 ≠ n := fun e he hc => hn (mem_seqOf ⟨e, he, hc⟩)

theorem find_inv (hlt : StrictWeak lt) (hi : Inv key lt s t ev) (k : K) : ∃ q, find key lt s k = .ok q ∧ q = Spec.posOf (Spec.lookup key lt k (seqOf t ev)) ∧
    ((q = 0 ∧ ∀ m ∈ t.ids, lt (key (ev m)) k ∨ lt k (key (ev m))) ∨ (q ∈ t.ids ∧ lt (key (ev q)) k = false ∧ lt k (key (ev q)) = false)) := by
  obtain ⟨q, h1, h2⟩ := findLoop_ok (key := key) (k := k) hlt t s.h.root (s.cap + 1) hi.rep hi.vals hi.ord hi.hfuel
  refine ⟨q, h1, ?_, h2⟩
  rcases h2 with ⟨rfl, h2⟩ | ⟨h2, h3, h4⟩
  · rw [lookup_none h2]; rfl
  · rw [lookup_some hlt hi h2 h3 h4]; rfl

theorem insertMap_spec (hlt : StrictWeak lt) (hi : Inv key lt s t ev) (v : α) : ∃ s' o t' ev', insertMap key lt s v = .ok (s', o) ∧ s'.cap = s.cap ∧ Inv key lt s' t' ev' ∧
    Spec.Insert key lt false s.cap (seqOf t ev) v (seqOf t' ev') (outIns o) ∧ (o.toBool = true → ¬ full s) := by
  unfold insertMap
  by_cases hf : full s = true
  · refine ⟨s, _, t, ev, by rw [if_pos hf], rfl, hi, ?_, by simp [Except.toBool]⟩
    unfold Spec.Insert
    have := (full_iff hi).1 hf
    cases Spec.lookup key lt (key v) (seqOf t ev) with
    | none => simp only; rw [if_pos this]; exact ⟨trivial, rfl⟩
    | some e => simp only; rw [if_pos ⟨this, trivial⟩]; exact ⟨trivial, rfl⟩
  · rw [if_neg hf]
    have hl : ¬ (seqOf t ev).length = s.cap := fun hc => hf ((full_iff hi).2 hc)
    obtain ⟨n, s1, s2, r, a1, a2, a3, a4⟩ := addNew hlt hi (by rw [hi.pool.size, ← seqOf_len t ev]; exact hl) v
    simp only [a1, a2, bind, Except.bind]
    rcases a4 with ⟨b1, b2, b3, b4, b5⟩ | ⟨b1, b2, b3, b4, t', b5, b6⟩
    · refine ⟨s2, _, t, ev, rfl, a3, b5, ?_, fun _ => hf⟩
      unfold Spec.Insert
      rw [lookup_some hlt hi b1 b3 b4]
      simp only
      rw [if_neg (fun hc => hl hc.1)]
      exact ⟨trivial, by simp [outIns, b2]⟩
    · refine ⟨s2, _, t', upd ev n v, rfl, a3, b5, ?_, fun _ => hf⟩
      unfold Spec.Insert
      rw [lookup_none b4]
      simp only
      rw [if_neg hl]
      exact ⟨n, b3, fresh b2, place_eq b2 b6, by simp [outIns, b1]⟩

theorem insert_spec (hlt : StrictWeak lt) (hi : Inv key lt s t ev) (isSet : Bool) (v : α) : ∃ s' o t' ev', insert key lt isSet s v = .ok (s', o) ∧ s'.cap = s.cap ∧
    Inv key lt s' t' ev' ∧ Spec.Insert key lt isSet s.cap (seqOf t ev) v (seqOf t' ev') (outIns o) := by
  unfold insert
  cases isSet with
  | false =>
    obtain ⟨s', o, t', ev', h1, h2, h3, h4, _⟩ := insertMap_spec hlt hi v
    exact ⟨s', o, t', ev', by simpa using h1, h2, h3, h4⟩
  | true =>
    rw [if_pos rfl]
    unfold insertSet
    by_cases hf : full s = true
    · rw [if_pos hf]
      have hl := (full_iff hi).1 hf
      obtain ⟨q, f1, f2, f3⟩ := find_inv hlt hi (key v)
      simp only [f1, bind, Except.bind]
      rcases f3 with ⟨rfl, f3⟩ | ⟨f3, f4, f5⟩
      · refine ⟨s, _, t, ev, by rw [if_pos rfl], rfl, hi, ?_⟩
        unfold Spec.Insert
        rw [lookup_none f3]
        simp only
        rw [if_pos hl]
        exact ⟨trivial, rfl⟩
      · refine ⟨s, _, t, ev, by rw [if_neg (hi.pos f3)], rfl, hi, ?_⟩
        unfold Spec.Insert
        rw [lookup_some hlt hi f3 f4 f5]
        simp only
        rw [if_neg (fun hc => by simpa using hc.2)]
        exact ⟨trivial, rfl⟩
    · rw [if_neg hf]
      have hl : ¬ (seqOf t ev).length = s.cap := fun hc => hf ((full_iff hi).2 hc)
      obtain ⟨s', o, t', ev', h1, h2, h3, h4, _⟩ := insertMap_spec hlt hi v
      refine ⟨s', o, t', ev', h1, h2, h3, ?_⟩
      revert h4
      unfold Spec.Insert
      cases Spec.lookup key lt (key v) (seqOf t ev) with
      | none => exact id
      | some e =>
        simp only
        rw [if_neg (fun hc => hl hc.1), if_neg (fun hc => hl hc.1)]
        exact id

theorem insertRange_spec (hlt : StrictWeak lt) (isSet : Bool) (vs : List α) : ∀ {s : St α} {t : T} {ev : Nat → α}, Inv key lt s t ev →
    ∃ s' o t' ev', insertRange key lt isSet s vs = .ok (s', o) ∧ s'.cap = s.cap ∧ Inv key lt s' t' ev' ∧
      Spec.InsertAll key lt isSet s.cap (seqOf t ev) vs (seqOf t' ev') (outUnit o) := by
  induction vs with
  | nil => intro s t ev hi; exact ⟨s, _, t, ev, rfl, rfl, hi, rfl, rfl⟩
  | cons v vs ih =>
    intro s t ev hi
    obtain ⟨s1, o1, t1, ev1, h1, h2, h3, h4⟩ := insert_spec hlt hi isSet v
    rw [insertRange, h1]
    simp only [bind, Except.bind]
    cases o1 with
    | error e => exact ⟨s1, _, t1, ev1, rfl, h2, h3, _, _, h4, rfl, rfl⟩
    | ok p =>
      obtain ⟨s2, o2, t2, ev2, g1, g2, g3, g4⟩ := ih h3
      rw [h2] at g4
      exact ⟨s2, o2, t2, ev2, g1, g2.trans h2, g3, _, _, h4, g4⟩

theorem index_spec (hlt : StrictWeak lt) (hi : Inv key lt s t ev) (mk : K → α) (k : K) (hk : key (mk k) = k) : ∃ s' o t' ev', index key lt mk s k = .ok (s', o) ∧
    s'.cap = s.cap ∧ Inv key lt s' t' ev' ∧ Spec.Index key lt mk s.cap (seqOf t ev) k (seqOf t' ev') (outPos o) := by
  obtain ⟨q, f1, f2, f3⟩ := find_inv hlt hi k
  unfold index
  simp only [f1, bind, Except.bind]
  rcases f3 with ⟨rfl, f3⟩ | ⟨f3, f4, f5⟩
  · rw [if_pos rfl]
    by_cases hf : full s = true
    · refine ⟨s, _, t, ev, by rw [if_pos hf], rfl, hi, ?_⟩
      unfold Spec.Index
      rw [lookup_none f3]
      simp only
      rw [if_pos ((full_iff hi).1 hf)]
      exact ⟨trivial, rfl⟩
    · rw [if_neg hf]
      have hl : ¬ (seqOf t ev).length = s.cap := fun hc => hf ((full_iff hi).2 hc)
      obtain ⟨n, s1, s2, r, a1, a2, a3, a4⟩ := addNew hlt hi (by rw [hi.pool.size, ← seqOf_len t ev]; exact hl) (mk k)
      simp only [a1, a2]
      rw [hk] at a4
      rcases a4 with ⟨b1, b2, b3, b4, b5⟩ | ⟨b1, b2, b3, b4, t', b5, b6⟩
      · rcases f3 r b1 with h | h
        · rw [b3] at h; cases h
        · rw [b4] at h; cases h
      · refine ⟨s2, _, t', upd ev n (mk k), rfl, a3, b5, ?_⟩
        unfold Spec.Index
        rw [lookup_none f3]
        simp only
        rw [if_neg hl]
        exact ⟨n, b3, fresh b2, place_eq b2 (by rw [hk]; exact b6), by simp [outPos, b1]⟩
  · refine ⟨s, _, t, ev, by rw [if_neg (hi.pos f3)], rfl, hi, ?_⟩
    unfold Spec.Index
    rw [lookup_some hlt hi f3 f4 f5]
    exact ⟨rfl, rfl⟩

theorem eraseKey_spec (hlt : StrictWeak lt) (hi : Inv key lt s t ev) (k : K) : ∃ s' r t', eraseKey key lt s k = .ok (s', r) ∧ s'.cap = s.cap ∧ Inv key lt s' t' ev ∧
    seqOf t' ev = (seqOf t ev).filter (fun e => !Spec.same key lt k e) ∧ r = (seqOf t ev).length - (seqOf t' ev).length ∧
    (seqOf t ev).length ≤ (seqOf t' ev).length + 1 := by
  obtain ⟨s', r, r1, r2, r3⟩ := removeInv hlt hi k
  unfold eraseKey
  simp only [r1, bind, Except.bind]
  rcases r3 with ⟨rfl, r3, r4⟩ | ⟨r3, r4, r5, t', r6, r7⟩
  · refine ⟨s', _, t, rfl, r2, r3, ?_, by simp, by omega⟩
    refine (List.filter_eq_self.2 fun e he => ?_).symm
    obtain ⟨m, hm, rfl⟩ := List.mem_map.1 he
    rcases r4 m hm with h | h <;> simp [Spec.same, h]
  · obtain ⟨X, Y, e⟩ := List.append_of_mem r3
    have hids : t'.ids = X ++ Y := by rw [r7, e]; exact erase_mid (e ▸ hi.nodup)
    have hlen : (seqOf t ev).length = (seqOf t' ev).length + 1 := by rw [seqOf_len, seqOf_len, hids, e]; simp; omega
    refine ⟨s', _, t', rfl, r2, r6, ?_, ?_, by omega⟩
    · have hns : ∀ m ∈ t.ids, m ≠ r → Spec.same key lt k (m, ev m) = false := by
        intro m hm hne
        cases hs : Spec.same key lt k (m, ev m)
        · rfl
        · simp only [Spec.same, Bool.and_eq_true, Bool.not_eq_true'] at hs
          have := hlt.incomp _ _ _ hs.1 hs.2 r5 r4
          exact absurd (hi.uniq hlt hm r3 this.1 this.2) hne
      have hnd := hi.nodup
      rw [e] at hnd
      have hX : ∀ m ∈ X, m ≠ r := fun m hm hc => (List.nodup_append.1 hnd).2.2 m hm r (by simp) hc
      have hY : ∀ m ∈ Y, m ≠ r := fun m hm hc => (List.nodup_cons.1 (List.nodup_append.1 hnd).2.1).1 (hc ▸ hm)
      unfold seqOf
      rw [hids, e, List.map_append, List.map_append, List.map_cons, List.filter_append, List.filter_cons]
      have hr : (!Spec.same key lt k (r, ev r)) = false := by simp [Spec.same, r4, r5]
      rw [hr]
      simp only [Bool.false_eq_true, if_false]
      rw [List.filter_eq_self.2, List.filter_eq_self.2]
      · intro a ha
        obtain ⟨m, hm, rfl⟩ := List.mem_map.1 ha
        rw [hns m (by rw [e]; simp [hm]) (hY m hm)]; rfl
      · intro a ha
        obtain ⟨m, hm, rfl⟩ := List.mem_map.1 ha
        rw [hns m (by rw [e]; simp [hm]) (hX m hm)]; rfl
    · rw [if_pos (hi.pos r3)]; omega

end Etl.Tree
