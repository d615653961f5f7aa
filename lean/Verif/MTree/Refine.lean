import Verif.MTree.Ops
import Verif.MTree.Spec

/-! # The operations do what the specification says -/
namespace Etl.MTree
open Etl.Tree T
open Etl.Tree.Spec (Seq Out Fail posOf same lookup)

variable {α K : Type} {key : α → K} {lt : K → K → Bool} {s : St α} {t : T} {ev : Nat → α}

/-- The API: each operation with its result. -/
def step (key : α → K) (lt : K → K → Bool) (s : St α) : Spec.Op α K → Res (St α × Out α)
  | .insert v => do let (s, o) ← insert key lt s v; .ok (s, outPos o)
  | .insertRange vs => do let (s, o) ← insertRange key lt s vs; .ok (s, outUnit o)
  | .write p g => do .ok (← write s p g, .done)
  | .eraseKey k => do let (s, n) ← eraseKey key lt s k; .ok (s, .num n)
  | .eraseAt p => do let (s, n) ← eraseAt key lt s p; .ok (s, .pos n)
  | .eraseRange p q => do let (s, n) ← eraseRange key lt s p q; .ok (s, .pos n)
  | .clear => do .ok (← clear key lt s, .done)
  | .assign vs => do let (s, o) ← assign key lt s vs; .ok (s, outUnit o)
  | .find k => do .ok (s, .pos (← find key lt s k))
  | .lowerBound k => do .ok (s, .pos (← lowerBound key lt s k))
  | .upperBound k => do .ok (s, .pos (← upperBound key lt s k))
  | .contains k => do .ok (s, .flag (← contains key lt s k))
  | .count k => do .ok (s, .num (← count key lt s k))
  | .begin => do .ok (s, .pos (← begin s))
  | .next p => do .ok (s, .pos (← next s p))
  | .prev p => do .ok (s, .pos (← prev s p))
  | .deref p => do .ok (s, .elem (← read s p))
  | .forward => do .ok (s, .elems (← toList s))
  | .backward => do .ok (s, .elems (← toListRev s))
  | .size => .ok (s, .num s.size)
  | .empty => .ok (s, .flag (empty s))
  | .full => .ok (s, .flag (full s))
  | .available => .ok (s, .num (available s))

/-- Several operations in a row, with their results. -/
def exec (key : α → K) (lt : K → K → Bool) (s : St α) : List (Spec.Op α K) → Res (St α × List (Out α))
  | [] => .ok (s, [])
  | op :: ops => do
    let (s, o) ← step key lt s op
    let (s, os) ← exec key lt s ops
    .ok (s, o :: os)

/-- The container holds the elements `l`, in that order. -/
def Has (s : St α) (l : Seq α) : Prop := ∃ t ev, Ok s t ev ∧ l = seqOf t ev

/-- The container holds the elements `l`, and they are ordered. -/
def Holds (key : α → K) (lt : K → K → Bool) (s : St α) (l : Seq α) : Prop := Has s l ∧ l.Pairwise (fun a b => lt (key b.2) (key a.2) = false)

theorem ord_iff {t : T} {ev : Nat → α} : (seqOf t ev).Pairwise (fun a b => lt (key b.2) (key a.2) = false) ↔ Ord key lt ev t.ids := by
  unfold seqOf Ord; rw [List.pairwise_map]

theorem seqOf_split {X Y : List Nat} {p : Nat} (e : t.ids = X ++ p :: Y) : seqOf t ev = X.map (fun n => (n, ev n)) ++ (p, ev p) :: Y.map (fun n => (n, ev n)) := by
  unfold seqOf; rw [e]; simp

theorem full_ok (hi : Ok s t ev) : full s = true ↔ (seqOf t ev).length = s.cap := by
  have : s.size = t.ids.length := hi.pool.size
  unfold full; rw [seqOf_len, ← this]; simp

theorem map_upd {X : List Nat} {n : Nat} {v : α} (hX : n ∉ X) : X.map (fun m => (m, upd ev n v m)) = X.map (fun m => (m, ev m)) :=
  List.map_congr_left fun m hm => by rw [upd_other _ _ (by rintro rfl; exact hX hm)]

theorem insert_ok (hi : Ok s t ev) (v : α) : ∃ s' o t' ev', insert key lt s v = .ok (s', o) ∧ s'.cap = s.cap ∧ Ok s' t' ev' ∧
    Spec.InsertAny s.cap (seqOf t ev) v (seqOf t' ev') (outPos o) ∧
    (StrictWeak lt → Ord key lt ev t.ids → Ord key lt ev' t'.ids ∧ Spec.Insert key lt s.cap (seqOf t ev) v (seqOf t' ev') (outPos o)) ∧
    (if t.ids.length = s.cap then o = .error .full else ∃ n, o = .ok n) ∧ t'.ids.length = (if t.ids.length = s.cap then t.ids.length else t.ids.length + 1) := by
  unfold insert
  by_cases hf : full s = true
  · have := (full_ok hi).1 hf
    refine ⟨s, .error .full, t, ev, by rw [if_pos hf], rfl, hi, ?_, fun _ ho => ⟨ho, ?_⟩, by rw [← seqOf_len t ev, if_pos this], by rw [← seqOf_len t ev, if_pos this]⟩
    · unfold Spec.InsertAny; rw [if_pos this]; exact ⟨rfl, rfl⟩
    · unfold Spec.Insert; rw [if_pos this]; exact ⟨rfl, rfl⟩
  · rw [if_neg hf]
    have hl : ¬ (seqOf t ev).length = s.cap := fun hc => hf ((full_ok hi).2 hc)
    have hs : s.size = t.ids.length := hi.pool.size
    obtain ⟨n, s1, s2, t', a1, a2, a3, a4, a5, a6, ⟨X, Y, x1, x2⟩, a7⟩ := addNew (key := key) (lt := lt) hi (by rw [hs, ← seqOf_len t ev]; exact hl) v
    simp only [a1, a2, bind, Except.bind]
    have hX : n ∉ X := fun hc => a4 (by rw [x1]; simp [hc])
    have hY : n ∉ Y := fun hc => a4 (by rw [x1]; simp [hc])
    refine ⟨s2, .ok n, t', upd ev n v, rfl, a3, a6, ?_, fun hlt ho => ⟨(a7 hlt ho).1, ?_⟩, by rw [← seqOf_len t ev, if_neg hl]; exact ⟨n, rfl⟩, by rw [← seqOf_len t ev, if_neg hl, seqOf_len, x1, x2]; simp; omega⟩
    · unfold Spec.InsertAny
      rw [if_neg hl]
      refine ⟨n, X.map (fun m => (m, ev m)), Y.map (fun m => (m, ev m)), a5, fresh a4, by unfold seqOf; rw [x1]; simp, ?_, rfl⟩
      unfold seqOf; rw [x2, List.map_append, List.map_cons, map_upd hX, map_upd hY, upd_same]
    · unfold Spec.Insert
      rw [if_neg hl]
      refine ⟨n, a5, fresh a4, ?_, rfl⟩
      have e := (a7 hlt ho).2
      unfold seqOf Spec.place
      rw [e, List.map_append, List.map_cons, map_upd (fun hc => a4 (List.mem_filter.1 hc).1), map_upd (fun hc => a4 (List.mem_filter.1 hc).1), upd_same,
        List.filter_map, List.filter_map]
      rfl

theorem insertRange_ok (vs : List α) : ∀ {s : St α} {t : T} {ev : Nat → α}, Ok s t ev →
    ∃ s' o t' ev', insertRange key lt s vs = .ok (s', o) ∧ s'.cap = s.cap ∧ Ok s' t' ev' ∧
      Spec.InsertAllAny s.cap (seqOf t ev) vs (seqOf t' ev') (outUnit o) ∧
      (StrictWeak lt → Ord key lt ev t.ids → Ord key lt ev' t'.ids ∧ Spec.InsertAll key lt s.cap (seqOf t ev) vs (seqOf t' ev') (outUnit o)) := by
  induction vs with
  | nil => intro s t ev hi; exact ⟨s, _, t, ev, rfl, rfl, hi, ⟨rfl, rfl⟩, fun _ ho => ⟨ho, rfl, rfl⟩⟩
  | cons v vs ih =>
    intro s t ev hi
    obtain ⟨s1, o1, t1, ev1, h1, h2, h3, h4, h5, _⟩ := insert_ok (key := key) (lt := lt) hi v
    rw [insertRange, h1]
    simp only [bind, Except.bind]
    cases o1 with
    | error e => exact ⟨s1, _, t1, ev1, rfl, h2, h3, ⟨_, _, h4, rfl, rfl⟩, fun hlt ho => ⟨(h5 hlt ho).1, _, _, (h5 hlt ho).2, rfl, rfl⟩⟩
    | ok p =>
      obtain ⟨s2, o2, t2, ev2, g1, g2, g3, g4, g5⟩ := ih h3
      rw [h2] at g4 g5
      exact ⟨s2, o2, t2, ev2, g1, g2.trans h2, g3, ⟨_, _, h4, g4⟩, fun hlt ho => ⟨(g5 hlt (h5 hlt ho).1).1, _, _, (h5 hlt ho).2, (g5 hlt (h5 hlt ho).1).2⟩⟩

theorem ord_nil : Ord key lt ev T.nil.ids := List.Pairwise.nil

/-- Every legal call that does not search has a defined behaviour in any state, and does and returns what the specification says. -/
theorem any_ok (hlt : StrictWeak lt) {s : St α} {l : Seq α} (h : Has s l) (op : Spec.Op α K) (hl : Spec.Legal key l op) (hn : Spec.NoSearch op) :
    ∃ s' o l', step key lt s op = .ok (s', o) ∧ Spec.StepAny key lt s.cap l op l' o ∧ Has s' l' ∧ s'.cap = s.cap := by
  obtain ⟨t, ev, hi, rfl⟩ := h
  have same : Has s (seqOf t ev) := ⟨t, ev, hi, rfl⟩
  have hsz : s.size = t.ids.length := hi.pool.size
  cases op with
  | insert v =>
    obtain ⟨s', o, t', ev', h1, h2, h3, h4, _⟩ := insert_ok (key := key) (lt := lt) hi v
    exact ⟨s', outPos o, _, by simp only [step, h1, bind, Except.bind], h4, ⟨t', ev', h3, rfl⟩, h2⟩
  | insertRange vs =>
    obtain ⟨s', o, t', ev', h1, h2, h3, h4, _⟩ := insertRange_ok (key := key) (lt := lt) vs hi
    exact ⟨s', outUnit o, _, by simp only [step, h1, bind, Except.bind], h4, ⟨t', ev', h3, rfl⟩, h2⟩
  | write p g =>
    have hp := mem_seqOf hl.1
    obtain ⟨s', w1, w2, _, w3⟩ := write_ok hi hp (g := g)
    obtain ⟨X, Y, e⟩ := List.append_of_mem hp
    have hnd := hi.nodup
    rw [e] at hnd
    have hX : p ∉ X := fun hm => (List.nodup_append.1 hnd).2.2 p hm p (by simp) rfl
    have hY : p ∉ Y := (List.nodup_cons.1 (List.nodup_append.1 hnd).2.1).1
    refine ⟨s', .done, _, by simp only [step, w1, bind, Except.bind], ⟨⟨X.map (fun n => (n, ev n)), ev p, Y.map (fun n => (n, ev n)), seqOf_split e, rfl⟩, rfl⟩, ⟨t, _, w3, ?_⟩, w2⟩
    unfold seqOf; rw [e, List.map_append, List.map_cons, map_upd hX, map_upd hY, upd_same]
  | eraseKey k => exact hn.elim
  | eraseAt p =>
    obtain ⟨X, Y, e⟩ := List.append_of_mem (mem_seqOf hl)
    obtain ⟨s', t', h1, h2, h3, ⟨X', x1, x2⟩, _⟩ := erase_ok (key := key) hlt hi e
    refine ⟨s', .pos (Y.headD 0), _, by simp only [step, h1, bind, Except.bind],
      ⟨X.map (fun n => (n, ev n)), X'.map (fun n => (n, ev n)), ev p, Y.map (fun n => (n, ev n)), seqOf_split e, x1.map _, rfl, by rw [posOf_head]⟩, ⟨t', ev, h3, ?_⟩, h2⟩
    unfold seqOf; rw [x2]; simp
  | eraseRange p q =>
    obtain ⟨X, Y, Z, e, rfl, rfl⟩ := hl
    obtain ⟨A, C, e1, e2, rfl⟩ := map_split (ev := ev) e
    obtain ⟨A, B, rfl, rfl, rfl⟩ := map_split (ev := ev) e2.symm
    obtain ⟨s', t', X', h1, h2, h3, h4, h5, _⟩ := eraseLoop_ok (key := key) hlt B A 0 (s.cap + 1) hi e1 (by have := hi.len; rw [e1] at this; simp at this; omega)
    rw [← List.map_append, posOf_head, posOf_head]
    refine ⟨s', .pos (C.headD 0), _, by simp only [step, eraseRange, h1, bind, Except.bind],
      ⟨⟨A.map (fun n => (n, ev n)), X'.map (fun n => (n, ev n)), B.map (fun n => (n, ev n)), C.map (fun n => (n, ev n)), e, ?_, ?_, h5.map _, rfl⟩, rfl⟩, ⟨t', ev, h3, ?_⟩, h2⟩
    · rw [← List.map_append, posOf_head]
    · rw [posOf_head]
    · unfold seqOf; rw [h4]; simp
  | clear =>
    obtain ⟨s', h1, h2, h3⟩ := clear_ok (key := key) hlt hi
    exact ⟨s', .done, [], by simp only [step, h1, bind, Except.bind], ⟨rfl, rfl⟩, ⟨.nil, ev, h3, rfl⟩, h2⟩
  | assign vs =>
    obtain ⟨s1, g1, g2, g3⟩ := clear_ok (key := key) hlt hi
    obtain ⟨s', o, t', ev', h1, h2, h3, _, h4⟩ := insertRange_ok (key := key) (lt := lt) vs g3
    rw [g2] at h4
    exact ⟨s', outUnit o, _, by simp only [step, assign, g1, h1, bind, Except.bind], (h4 hlt ord_nil).2, ⟨t', ev', h3, rfl⟩, h2.trans g2⟩
  | find k => exact hn.elim
  | lowerBound k => exact hn.elim
  | upperBound k => exact hn.elim
  | contains k => exact hn.elim
  | count k => exact hn.elim
  | begin => exact ⟨s, _, _, by simp only [step, begin_ok hi, bind, Except.bind]; rfl, ⟨rfl, by unfold seqOf; rw [posOf_head]⟩, same, rfl⟩
  | next p =>
    obtain ⟨X, Y, e⟩ := List.append_of_mem (mem_seqOf hl)
    exact ⟨s, _, _, by simp only [step, next_ok hi e, bind, Except.bind]; rfl, ⟨rfl, X.map (fun n => (n, ev n)), ev p, Y.map (fun n => (n, ev n)), seqOf_split e, by rw [posOf_head]⟩, same, rfl⟩
  | prev p =>
    obtain ⟨h1, h2⟩ := hl
    have h2 : p ≠ t.ids.headD 0 := by rw [← posOf_head (ev := ev)]; exact h2
    have : ∃ X x Y, t.ids = X ++ x :: Y ∧ p = Y.headD 0 := by
      rcases h1 with rfl | h1
      · rcases List.eq_nil_or_concat t.ids with hc | ⟨A, a, hc⟩
        · rw [hc] at h2; exact absurd rfl h2
        · exact ⟨A, a, [], by rw [hc]; simp, rfl⟩
      · obtain ⟨X, Y, e⟩ := List.append_of_mem (mem_seqOf h1)
        rcases List.eq_nil_or_concat X with hc | ⟨A, a, hc⟩
        · rw [e, hc] at h2; exact absurd rfl h2
        · exact ⟨A, a, p :: Y, by rw [e, hc]; simp, rfl⟩
    obtain ⟨X, x, Y, e, rfl⟩ := this
    exact ⟨s, _, _, by simp only [step, prev_mid hi e, bind, Except.bind], ⟨rfl, X.map (fun n => (n, ev n)), (x, ev x), Y.map (fun n => (n, ev n)), seqOf_split e, by rw [posOf_head], rfl⟩, same, rfl⟩
  | deref p =>
    have hp := mem_seqOf hl
    exact ⟨s, _, _, by simp only [step, hi.read hp, bind, Except.bind], ⟨rfl, ev p, List.mem_map.2 ⟨p, hp, rfl⟩, rfl⟩, same, rfl⟩
  | forward => exact ⟨s, _, _, by simp only [step, toList_ok hi, bind, Except.bind]; rfl, ⟨rfl, by unfold seqOf; rw [List.map_map]; rfl⟩, same, rfl⟩
  | backward => exact ⟨s, _, _, by simp only [step, toListRev_ok hi, bind, Except.bind]; rfl, ⟨rfl, by unfold seqOf; rw [← List.map_reverse, List.map_map]; rfl⟩, same, rfl⟩
  | size => exact ⟨s, _, _, rfl, ⟨rfl, by rw [seqOf_len, hsz]⟩, same, rfl⟩
  | empty =>
    refine ⟨s, _, _, rfl, ⟨rfl, ?_⟩, same, rfl⟩
    unfold MTree.empty seqOf; rw [hsz]; cases t.ids <;> rfl
  | full =>
    refine ⟨s, _, _, rfl, ⟨rfl, ?_⟩, same, rfl⟩
    unfold MTree.full; rw [seqOf_len, hsz]; rfl
  | available => exact ⟨s, _, _, rfl, ⟨rfl, by unfold MTree.available; rw [seqOf_len, hsz]⟩, same, rfl⟩

theorem seqOf_filter {ids : List Nat} {p : Nat × α → Bool} : (ids.map (fun n => (n, ev n))).filter p = (ids.filter (fun n => p (n, ev n))).map (fun n => (n, ev n)) := by
  rw [List.filter_map]; rfl

/-- In an ordered container every legal and safe call has a defined behaviour, and does and returns what the specification says. -/
theorem op_ok (hlt : StrictWeak lt) {s : St α} {l : Seq α} (h : Holds key lt s l) (op : Spec.Op α K) (hl : Spec.Legal key l op) (hs : Spec.Safe key lt l op) :
    ∃ s' o l', step key lt s op = .ok (s', o) ∧ Spec.Step key lt s.cap l op l' o ∧ Holds key lt s' l' ∧ s'.cap = s.cap := by
  -- calls that change nothing
  have ro : (∀ l' o, Spec.StepAny key lt s.cap l op l' o → l' = l ∧ Spec.Step key lt s.cap l op l' o) → Spec.NoSearch op →
      ∃ s' o l', step key lt s op = .ok (s', o) ∧ Spec.Step key lt s.cap l op l' o ∧ Holds key lt s' l' ∧ s'.cap = s.cap := by
    intro hr hn
    obtain ⟨s', o, l', h1, h2, h3, h4⟩ := any_ok hlt h.1 op hl hn
    obtain ⟨rfl, h5⟩ := hr l' o h2
    exact ⟨s', o, _, h1, h5, ⟨h3, h.2⟩, h4⟩
  have hh := h
  obtain ⟨⟨t, ev, hi, rfl⟩, ho⟩ := h
  have ho := ord_iff.1 ho
  cases op with
  | insert v =>
    obtain ⟨s', o, t', ev', h1, h2, h3, _, h4, _⟩ := insert_ok (key := key) (lt := lt) hi v
    obtain ⟨h4, h5⟩ := h4 hlt ho
    exact ⟨s', outPos o, _, by simp only [step, h1, bind, Except.bind], h5, ⟨⟨t', ev', h3, rfl⟩, ord_iff.2 h4⟩, h2⟩
  | insertRange vs =>
    obtain ⟨s', o, t', ev', h1, h2, h3, _, h4⟩ := insertRange_ok (key := key) (lt := lt) vs hi
    obtain ⟨h4, h5⟩ := h4 hlt ho
    exact ⟨s', outUnit o, _, by simp only [step, h1, bind, Except.bind], h5, ⟨⟨t', ev', h3, rfl⟩, ord_iff.2 h4⟩, h2⟩
  | write p g =>
    obtain ⟨s', o, l', h1, h2, h3, h4⟩ := any_ok hlt hh.1 (.write p g) hl trivial
    refine ⟨s', o, l', h1, h2, ⟨h3, ?_⟩, h4⟩
    obtain ⟨⟨X, v, Y, e1, e2⟩, _⟩ := h2
    have ho := hh.2
    rw [e1] at ho
    rw [e2]
    obtain ⟨o1, o2, o3⟩ := List.pairwise_append.1 ho
    obtain ⟨o4, o5⟩ := List.pairwise_cons.1 o2
    refine List.pairwise_append.2 ⟨o1, List.pairwise_cons.2 ⟨fun b hb => ?_, o5⟩, fun a ha b hb => ?_⟩
    · show lt (key b.2) (key (g v)) = false
      rw [hl.2]; exact o4 b hb
    · rcases List.mem_cons.1 hb with rfl | hb
      · show lt (key (g v)) (key a.2) = false
        rw [hl.2]; exact o3 a ha (p, v) (by simp)
      · exact o3 a ha b (by simp [hb])
  | eraseKey k =>
    obtain ⟨A, B, C, s', t', e, b1, b2, b3, h1, h2, h3, h4⟩ := eraseKey_ok (key := key) hlt hi ho k
    have ho' : Ord key lt ev t'.ids := by
      rw [h4]; rw [e, List.append_assoc] at ho
      exact ho.sublist ((List.sublist_append_right B C).append_left A)
    have f0 : ∀ m ∈ A, same key lt k (m, ev m) = false := fun m hm => by simp [same, b1 m hm]
    have f1 : ∀ m ∈ B, same key lt k (m, ev m) = true := fun m hm => by simp [same, (b2 m hm).1, (b2 m hm).2]
    have f2 : ∀ m ∈ C, same key lt k (m, ev m) = false := fun m hm => by simp [same, b3 m hm]
    refine ⟨s', .num B.length, _, by simp only [step, h1, bind, Except.bind], ⟨?_, ?_⟩, ⟨⟨t', ev, h3, rfl⟩, ord_iff.2 ho'⟩, h2⟩
    · unfold seqOf
      rw [seqOf_filter, e, h4, List.filter_append, List.filter_append, List.filter_eq_self.2 (fun m hm => by rw [f0 m hm]; rfl),
        List.filter_eq_nil_iff.2 (fun m hm => by rw [f1 m hm]; simp), List.filter_eq_self.2 (fun m hm => by rw [f2 m hm]; rfl)]
      simp
    · unfold seqOf
      rw [List.countP_map, e, List.countP_append, List.countP_append, List.countP_eq_zero.2 (fun m hm => by simp [f0 m hm]),
        List.countP_eq_length.2 (fun m hm => by simp [f1 m hm]), List.countP_eq_zero.2 (fun m hm => by simp [f2 m hm])]
      simp
  | eraseAt p =>
    obtain ⟨X, Y, e⟩ := List.append_of_mem (mem_seqOf hl)
    have hX : ∀ m ∈ X, lt (key (ev m)) (key (ev p)) = true := fun m hm => hs _ _ _ (seqOf_split e) (m, ev m) (List.mem_map.2 ⟨m, hm, rfl⟩)
    obtain ⟨s', t', h1, h2, h3, _, h4⟩ := erase_ok (key := key) hlt hi e
    have h4 := h4 hX
    have ho' : Ord key lt ev t'.ids := by
      rw [h4]; rw [e] at ho
      exact ho.sublist ((List.sublist_cons_self p Y).append_left X)
    refine ⟨s', .pos (Y.headD 0), _, by simp only [step, h1, bind, Except.bind],
      ⟨X.map (fun n => (n, ev n)), ev p, Y.map (fun n => (n, ev n)), seqOf_split e, rfl, by rw [posOf_head]⟩, ⟨⟨t', ev, h3, ?_⟩, ?_⟩, h2⟩
    · unfold seqOf; rw [h4]; simp
    · have := (ord_iff (key := key) (lt := lt)).2 ho'
      unfold seqOf at this; rw [h4] at this; simpa using this
  | eraseRange p q =>
    obtain ⟨X, Y, Z, e, e3, e4⟩ := hl
    have hX := hs X Y Z e e3 e4
    subst e3 e4
    obtain ⟨A, C, e1, e2, rfl⟩ := map_split (ev := ev) e
    obtain ⟨A, B, rfl, rfl, rfl⟩ := map_split (ev := ev) e2.symm
    obtain ⟨s', t', X', h1, h2, h3, h4, _, h5⟩ := eraseLoop_ok (key := key) hlt B A 0 (s.cap + 1) hi e1 (by have := hi.len; rw [e1] at this; simp at this; omega)
    rw [h5 (fun y hy m hm => hX (y, ev y) (List.mem_map.2 ⟨y, hy, rfl⟩) (m, ev m) (List.mem_map.2 ⟨m, hm, rfl⟩))] at h4
    have ho' : Ord key lt ev t'.ids := by
      rw [h4]; rw [e1, List.append_assoc] at ho
      exact ho.sublist ((List.sublist_append_right B C).append_left A)
    rw [← List.map_append, posOf_head, posOf_head]
    refine ⟨s', .pos (C.headD 0), _, by simp only [step, eraseRange, h1, bind, Except.bind],
      ⟨⟨A.map (fun n => (n, ev n)), B.map (fun n => (n, ev n)), C.map (fun n => (n, ev n)), e, ?_, ?_, rfl⟩, rfl⟩, ⟨⟨t', ev, h3, ?_⟩, ?_⟩, h2⟩
    · rw [← List.map_append, posOf_head]
    · rw [posOf_head]
    · unfold seqOf; rw [h4]; simp
    · have := (ord_iff (key := key) (lt := lt)).2 ho'
      unfold seqOf at this; rw [h4] at this; simpa using this
  | clear =>
    obtain ⟨s', h1, h2, h3⟩ := clear_ok (key := key) hlt hi
    exact ⟨s', .done, [], by simp only [step, h1, bind, Except.bind], ⟨rfl, rfl⟩, ⟨⟨.nil, ev, h3, rfl⟩, .nil⟩, h2⟩
  | assign vs =>
    obtain ⟨s1, g1, g2, g3⟩ := clear_ok (key := key) hlt hi
    obtain ⟨s', o, t', ev', h1, h2, h3, _, h4⟩ := insertRange_ok (key := key) (lt := lt) vs g3
    rw [g2] at h4
    obtain ⟨h4, h5⟩ := h4 hlt ord_nil
    exact ⟨s', outUnit o, _, by simp only [step, assign, g1, h1, bind, Except.bind], h5, ⟨⟨t', ev', h3, rfl⟩, ord_iff.2 h4⟩, h2.trans g2⟩
  | find k =>
    refine ⟨s, _, _, by simp only [step, find_ok hlt hi ho, bind, Except.bind]; rfl, ⟨rfl, ?_⟩, hh, rfl⟩
    unfold seqOf lookup; rw [List.find?_map, posOf_map]; rfl
  | lowerBound k =>
    refine ⟨s, _, _, by simp only [step, lower_ok hlt hi ho, bind, Except.bind]; rfl, ⟨rfl, ?_⟩, hh, rfl⟩
    unfold seqOf; rw [List.find?_map, posOf_map]; rfl
  | upperBound k =>
    refine ⟨s, _, _, by simp only [step, upper_ok hlt hi ho, bind, Except.bind]; rfl, ⟨rfl, ?_⟩, hh, rfl⟩
    unfold seqOf; rw [List.find?_map, posOf_map]; rfl
  | contains k =>
    refine ⟨s, _, _, by simp only [step, contains, find_ok hlt hi ho, bind, Except.bind]; rfl, ⟨rfl, ?_⟩, hh, rfl⟩
    congr 1
    unfold seqOf
    rw [List.any_map]
    cases hf : t.ids.find? (fun m => !lt (key (ev m)) k && !lt k (key (ev m))) with
    | none =>
      rw [List.find?_eq_none] at hf
      symm
      have : t.ids.any (same key lt k ∘ fun n => (n, ev n)) = false := List.any_eq_false.2 fun m hm => by
        have := hf m hm
        simpa [same] using this
      rw [this]; rfl
    | some m =>
      have hm := List.mem_of_find?_eq_some hf
      have hp := List.find?_some hf
      have : t.ids.any (same key lt k ∘ fun n => (n, ev n)) = true := List.any_eq_true.2 ⟨m, hm, hp⟩
      rw [this]
      simpa using hi.pos hm
  | count k =>
    refine ⟨s, _, _, by simp only [step, count_ok hlt hi ho, bind, Except.bind]; rfl, ⟨rfl, ?_⟩, hh, rfl⟩
    unfold seqOf; rw [List.countP_map]; rfl
  | begin => exact ro (fun l' o h => ⟨h.1, h⟩) trivial
  | next p => exact ro (fun l' o h => ⟨h.1, h⟩) trivial
  | prev p => exact ro (fun l' o h => ⟨h.1, h⟩) trivial
  | deref p => exact ro (fun l' o h => ⟨h.1, h⟩) trivial
  | forward => exact ro (fun l' o h => ⟨h.1, h⟩) trivial
  | backward => exact ro (fun l' o h => ⟨h.1, h⟩) trivial
  | size => exact ro (fun l' o h => ⟨h.1, h⟩) trivial
  | empty => exact ro (fun l' o h => ⟨h.1, h⟩) trivial
  | full => exact ro (fun l' o h => ⟨h.1, h⟩) trivial
  | available => exact ro (fun l' o h => ⟨h.1, h⟩) trivial

end Etl.MTree
