import Verif.MTree.Refine
import Verif.Tree.Props

/-!
# C62, and C16 for `etl::multimap` and `etl::multiset`

The specification of the contents and of every operation is in `Verif/MTree/Spec.lean`.
-/
namespace Etl.MTree
open Etl.Tree T
open Etl.Tree.Spec (Seq Out Fail posOf same lookup)

variable {α K : Type} {key : α → K} {lt : K → K → Bool}

theorem has_init [Nonempty α] (cap : Nat) (junk : MH) : Has (init cap junk : St α) [] := by
  obtain ⟨a⟩ := ‹Nonempty α›
  exact ⟨.nil, fun _ => a, ok_init cap junk _, rfl⟩

/-- **C62**, one operation: in an ordered container every legal call, except the removal through an iterator of an element that is not the first of its equals, is free of
undefined behaviour, its effect and result are those of the ideal multimap, and the container stays ordered. -/
theorem C62_step (hlt : StrictWeak lt) {s : St α} {l : Seq α} (h : Holds key lt s l) (op : Spec.Op α K) (hl : Spec.Legal key l op) (hs : Spec.Safe key lt l op) :
    ∃ s' o l', step key lt s op = .ok (s', o) ∧ Spec.Step key lt s.cap l op l' o ∧ Holds key lt s' l' ∧ s'.cap = s.cap := op_ok hlt h op hl hs

/-- **C62**, histories: starting from an empty container, a sequence of calls either gives the results of the ideal multimap, call by call, or contains a first call that the
caller was not allowed to make, and everything before it did. -/
theorem C62_history [Nonempty α] (hlt : StrictWeak lt) (cap : Nat) (junk : MH) (ops : List (Spec.Op α K)) :
    (∃ s os l, exec key lt (init cap junk) ops = .ok (s, os) ∧ Spec.History key lt cap [] ops os l ∧ Holds key lt s l) ∨
    (∃ pre op post s os l, ops = pre ++ op :: post ∧ exec key lt (init cap junk) pre = .ok (s, os) ∧ Spec.History key lt cap [] pre os l ∧
      Holds key lt s l ∧ ¬ (Spec.Legal key l op ∧ Spec.Safe key lt l op)) := by
  have gen : ∀ (ops : List (Spec.Op α K)) (s0 : St α) (l0 : Seq α), Holds key lt s0 l0 → s0.cap = cap →
      (∃ s os l, exec key lt s0 ops = .ok (s, os) ∧ Spec.History key lt cap l0 ops os l ∧ Holds key lt s l) ∨
      (∃ pre op post s os l, ops = pre ++ op :: post ∧ exec key lt s0 pre = .ok (s, os) ∧ Spec.History key lt cap l0 pre os l ∧
        Holds key lt s l ∧ ¬ (Spec.Legal key l op ∧ Spec.Safe key lt l op)) := by
    intro ops
    induction ops with
    | nil => intro s0 l0 h0 _; exact .inl ⟨s0, [], l0, rfl, .nil l0, h0⟩
    | cons op ops ih =>
      intro s0 l0 h0 hc
      by_cases hl : Spec.Legal key l0 op ∧ Spec.Safe key lt l0 op
      · obtain ⟨s1, o, l1, h1, h2, h3, h4⟩ := op_ok hlt h0 op hl.1 hl.2
        rw [hc] at h2
        rcases ih s1 l1 h3 (h4.trans hc) with ⟨s, os, l, g1, g2, g3⟩ | ⟨pre, op', post, s, os, l, rfl, g1, g2, g3, g4⟩
        · exact .inl ⟨s, o :: os, l, by simp only [exec, h1, g1, bind, Except.bind], .cons hl.1 hl.2 h2 g2, g3⟩
        · exact .inr ⟨op :: pre, op', post, s, o :: os, l, rfl, by simp only [exec, h1, g1, bind, Except.bind], .cons hl.1 hl.2 h2 g2, g3, g4⟩
      · exact .inr ⟨[], op, ops, s0, [], l0, rfl, rfl, .nil l0, h0, hl⟩
  exact gen ops _ _ ⟨has_init cap junk, .nil⟩ rfl

/-- **C62**, whatever is erased: a call that does not search for a key is free of undefined behaviour in every container that calls can produce, erases exactly what it was told to
erase, loses and duplicates nothing, returns the iterator to what came next, and leaves what comes after the erased elements as it was. -/
theorem C62_any (hlt : StrictWeak lt) {s : St α} {l : Seq α} (h : Has s l) (op : Spec.Op α K) (hl : Spec.Legal key l op) (hn : Spec.NoSearch op) :
    ∃ s' o l', step key lt s op = .ok (s', o) ∧ Spec.StepAny key lt s.cap l op l' o ∧ Has s' l' ∧ s'.cap = s.cap := any_ok hlt h op hl hn

/-- **C62**, histories of such calls from an empty container. -/
theorem C62_any_history [Nonempty α] (hlt : StrictWeak lt) (cap : Nat) (junk : MH) (ops : List (Spec.Op α K)) (hn : ∀ op ∈ ops, Spec.NoSearch op) :
    (∃ s os l, exec key lt (init cap junk) ops = .ok (s, os) ∧ Spec.HistoryAny key lt cap [] ops os l ∧ Has s l) ∨
    (∃ pre op post s os l, ops = pre ++ op :: post ∧ exec key lt (init cap junk) pre = .ok (s, os) ∧ Spec.HistoryAny key lt cap [] pre os l ∧
      Has s l ∧ ¬ Spec.Legal key l op) := by
  have gen : ∀ (ops : List (Spec.Op α K)) (s0 : St α) (l0 : Seq α), (∀ op ∈ ops, Spec.NoSearch op) → Has s0 l0 → s0.cap = cap →
      (∃ s os l, exec key lt s0 ops = .ok (s, os) ∧ Spec.HistoryAny key lt cap l0 ops os l ∧ Has s l) ∨
      (∃ pre op post s os l, ops = pre ++ op :: post ∧ exec key lt s0 pre = .ok (s, os) ∧ Spec.HistoryAny key lt cap l0 pre os l ∧
        Has s l ∧ ¬ Spec.Legal key l op) := by
    intro ops
    induction ops with
    | nil => intro s0 l0 _ h0 _; exact .inl ⟨s0, [], l0, rfl, .nil l0, h0⟩
    | cons op ops ih =>
      intro s0 l0 hn h0 hc
      by_cases hl : Spec.Legal key l0 op
      · obtain ⟨s1, o, l1, h1, h2, h3, h4⟩ := any_ok hlt h0 op hl (hn op (by simp))
        rw [hc] at h2
        rcases ih s1 l1 (fun op' h' => hn op' (by simp [h'])) h3 (h4.trans hc) with ⟨s, os, l, g1, g2, g3⟩ | ⟨pre, op', post, s, os, l, rfl, g1, g2, g3, g4⟩
        · exact .inl ⟨s, o :: os, l, by simp only [exec, h1, g1, bind, Except.bind], .cons hl (hn op (by simp)) h2 g2, g3⟩
        · exact .inr ⟨op :: pre, op', post, s, o :: os, l, rfl, by simp only [exec, h1, g1, bind, Except.bind], .cons hl (hn op (by simp)) h2 g2, g3, g4⟩
      · exact .inr ⟨[], op, ops, s0, [], l0, rfl, rfl, .nil l0, h0, hl⟩
  exact gen ops _ _ hn (has_init cap junk) rfl

/-- **C62**: positions are distinct and none is `end()`, the capacity is never exceeded; equivalent elements are adjacent. -/
theorem C62_sorted (hlt : StrictWeak lt) {s : St α} {l : Seq α} (h : Holds key lt s l) :
    (l.map Prod.fst).Nodup ∧ (∀ e ∈ l, e.1 ≠ 0) ∧ l.length ≤ s.cap ∧ l.Pairwise (fun a b => lt (key b.2) (key a.2) = false) ∧
    ∀ k, l = l.filter (fun e => lt (key e.2) k) ++ l.filter (same key lt k) ++ l.filter (fun e => lt k (key e.2)) := by
  obtain ⟨⟨t, ev, hi, rfl⟩, ho⟩ := h
  refine ⟨?_, ?_, by rw [seqOf_len]; exact hi.len, ho, fun k => ?_⟩
  · unfold seqOf; rw [List.map_map]; simpa [Function.comp_def] using hi.nodup
  · intro e he
    exact hi.pos (mem_seqOf ⟨e, he, rfl⟩)
  · obtain ⟨A, B, C, e, h1, h2, h3⟩ := split3 hlt k (ord_iff.1 ho)
    unfold seqOf
    rw [seqOf_filter, seqOf_filter, seqOf_filter, ← List.map_append, ← List.map_append]
    congr 1
    rw [e]
    have nilOf : ∀ {q : Nat → Bool} {L : List Nat}, (∀ m ∈ L, q m = false) → L.filter q = [] := fun {q L} h => List.filter_eq_nil_iff.2 fun m hm => by simp [h m hm]
    have selfOf : ∀ {q : Nat → Bool} {L : List Nat}, (∀ m ∈ L, q m = true) → L.filter q = L := fun {q L} h => List.filter_eq_self.2 h
    have e1 : (A ++ B ++ C).filter (fun n => lt (key (ev n)) k) = A := by
      rw [List.filter_append, List.filter_append, selfOf h1, nilOf (fun m hm => (h2 m hm).1), nilOf (fun m hm => hlt.asymm (h3 m hm))]; simp
    have e2 : (A ++ B ++ C).filter (fun n => same key lt k (n, ev n)) = B := by
      rw [List.filter_append, List.filter_append, nilOf (L := A) (fun m hm => by simp [same, h1 m hm]), selfOf (L := B) (fun m hm => by simp [same, (h2 m hm).1, (h2 m hm).2]),
        nilOf (L := C) (fun m hm => by simp [same, h3 m hm])]; simp
    have e3 : (A ++ B ++ C).filter (fun n => lt k (key (ev n))) = C := by
      rw [List.filter_append, List.filter_append, nilOf (L := A) (fun m hm => hlt.asymm (h1 m hm)), nilOf (L := B) (fun m hm => (h2 m hm).2), selfOf h3]; simp
    rw [e1, e2, e3]

/-- **C62**, insertion order: the elements equivalent to a key are those that were there, in the same order, followed by the new one if it is equivalent. -/
theorem C62_stable (hlt : StrictWeak lt) {cap : Nat} {l l' : Seq α} {v : α} {n : Nat} (h : Spec.Insert key lt cap l v l' (.pos n)) (k : K)
    (ho : l.Pairwise (fun a b => lt (key b.2) (key a.2) = false)) :
    l'.filter (same key lt k) = l.filter (same key lt k) ++ if same key lt k (n, v) then [(n, v)] else [] := by
  unfold Spec.Insert at h
  by_cases hc : l.length = cap
  · rw [if_pos hc] at h; cases h.2
  · rw [if_neg hc] at h
    obtain ⟨m, h2, h3, rfl, h4⟩ := h
    cases h4
    clear h2 h3
    unfold Spec.place
    rw [List.filter_append, List.filter_cons]
    by_cases hs : same key lt k (n, v) = true
    · rw [if_pos hs, if_pos hs]
      have hs' := hs
      simp only [same, Bool.and_eq_true, Bool.not_eq_true'] at hs'
      have e1 : (l.filter (fun e => lt (key v) (key e.2))).filter (same key lt k) = [] := by
        rw [List.filter_eq_nil_iff]
        intro e he hc
        simp only [same, Bool.and_eq_true, Bool.not_eq_true'] at hc
        have h1 := (List.mem_filter.1 he).2
        have := hlt.incomp _ _ _ hs'.1 hs'.2 hc.2 hc.1
        rw [this.1] at h1; cases h1
      have e2 : (l.filter (fun e => !lt (key v) (key e.2))).filter (same key lt k) = l.filter (same key lt k) := by
        rw [List.filter_filter]
        refine List.filter_congr fun e _ => ?_
        cases hc : same key lt k e
        · simp
        · simp only [same, Bool.and_eq_true, Bool.not_eq_true'] at hc
          have := hlt.incomp _ _ _ hs'.1 hs'.2 hc.2 hc.1
          simp [this.1]
      rw [e1, e2]
    · have hs : same key lt k (n, v) = false := by simpa using hs
      rw [if_neg (by simp [hs]), if_neg (by simp [hs]), ← List.filter_append, List.append_nil]
      congr 1
      -- an ordered sequence is its lower part followed by its upper part
      clear hs hc
      induction l with
      | nil => rfl
      | cons a l ih =>
        obtain ⟨o1, o2⟩ := List.pairwise_cons.1 ho
        rw [List.filter_cons, List.filter_cons]
        cases ha : lt (key v) (key a.2)
        · simp only [Bool.not_false, if_true, Bool.false_eq_true, if_false, List.cons_append]
          rw [ih o2]
        · have hall : ∀ e ∈ l, lt (key v) (key e.2) = true := fun e he => hlt.lt_of_lt_of_le ha (o1 e he)
          rw [List.filter_eq_nil_iff.2 (fun e he => by rw [hall e he]; simp), List.filter_eq_self.2 hall]
          simp

theorem moveLoop_ok (hlt : StrictWeak lt) {mv : α → α} {t : T} (Y : List Nat) :
    ∀ {s o : St α} {ts : T} {evs ev : Nat → α} (A : List Nat) (fuel : Nat), Ok s ts evs → Ord key lt evs ts.ids → Ok o t ev → t.ids = A ++ Y → Y.length ≤ fuel →
    ∃ s' o' r ts' evs' ev', moveLoop key lt mv s o (Y.headD 0) fuel = .ok (s', o', r) ∧ Ok s' ts' evs' ∧ Ord key lt evs' ts'.ids ∧ Ok o' t ev' ∧
      Spec.InsertAll key lt s.cap (seqOf ts evs) (Y.map ev) (seqOf ts' evs') (outUnit r) ∧
      (∀ m, ev' m = if m ∈ Y.take (s.cap - ts.ids.length) then mv (ev m) else ev m) ∧
      r = if Y.length ≤ s.cap - ts.ids.length then .ok () else .error .full := by
  induction Y with
  | nil =>
    intro s o ts evs ev A fuel hs hos ho e hf
    exact ⟨s, o, .ok (), ts, evs, ev, by cases fuel <;> simp [moveLoop], hs, hos, ho, ⟨rfl, rfl⟩, by simp, by simp⟩
  | cons y Y ih =>
    intro s o ts evs ev A fuel hs hos ho e hf
    obtain ⟨fuel, rfl⟩ : ∃ j, fuel = j + 1 := ⟨fuel - 1, by simp at hf; omega⟩
    have hy : y ∈ t.ids := by rw [e]; simp
    obtain ⟨s1, r1, t1, ev1, i1, i2, i3, _, i4, i5, i6⟩ := insert_ok (key := key) (lt := lt) hs (ev y)
    have i4b := (i4 hlt hos).2
    replace i4 := (i4 hlt hos).1
    rw [List.headD_cons, moveLoop, if_pos (ho.pos hy)]
    simp only [ho.read hy, bind, Except.bind, i1]
    have hlen := hs.len
    by_cases hc : ts.ids.length = s.cap
    · rw [if_pos hc] at i5
      subst i5
      refine ⟨s1, o, .error .full, t1, ev1, ev, rfl, i3, i4, ho, ⟨_, _, i4b, rfl, rfl⟩, ?_, ?_⟩
      · rw [hc]; simp
      · rw [hc]; simp
    · rw [if_neg hc] at i5 i6
      obtain ⟨n, rfl⟩ := i5
      obtain ⟨o2, _, _, w2, w3⟩ := write_ok ho hy (g := mv)
      have hnd := ho.nodup
      rw [e] at hnd
      have hyY : y ∉ Y := (List.nodup_cons.1 (List.nodup_append.1 hnd).2.1).1
      have hevY : ∀ m ∈ Y, upd ev y (mv (ev y)) m = ev m := fun m hm => upd_other _ _ (fun hc => hyY (hc ▸ hm))
      obtain ⟨s', o', r, ts', evs', ev', j1, j2, j3, j4, j5, j6, j7⟩ := ih (A ++ [y]) fuel i3 i4 w3 (by rw [e]; simp) (by simp at hf; omega)
      rw [i2] at j5
      rw [i2, i6] at j6 j7
      have hk : s.cap - ts.ids.length = (s.cap - (ts.ids.length + 1)) + 1 := by omega
      refine ⟨s', o', r, ts', evs', ev', ?_, j2, j3, j4, ⟨_, _, i4b, ?_⟩, ?_, ?_⟩
      · rw [w2] at j1 w3
        simp only [next_ok w3 e]
        exact j1
      · show Spec.InsertAll key lt s.cap (seqOf t1 ev1) (Y.map ev) (seqOf ts' evs') (outUnit r)
        rw [← List.map_congr_left hevY]; exact j5
      · intro m
        rw [j6 m, hk, List.take_succ_cons]
        by_cases hmy : m = y
        · subst hmy
          rw [if_neg (fun hc => hyY (List.mem_of_mem_take hc)), if_pos (by simp), upd_same]
        · rw [upd_other _ _ hmy]
          simp [hmy]
      · rw [j7, hk]
        simp

/-- **C62**, move construction and assignment.  The elements of the source are inserted one after the other into the target, which `multiset` and `imultimap` clear first (`clears`)
and `multimap` does not; the source keeps the moved-from elements, whatever they are (`mv`). -/
theorem C62_move (hlt : StrictWeak lt) (clears : Bool) {mv : α → α} {s o : St α} {l m : Seq α} (hs : Holds key lt s l) (ho : Has o m) :
    ∃ s' o' r l' m', moveFrom key lt clears mv s o = .ok (s', o', r) ∧ Holds key lt s' l' ∧ Has o' m' ∧
      Spec.InsertAll key lt s.cap (if clears then [] else l) (m.map Prod.snd) l' (outUnit r) ∧
      (∀ j, j = s.cap - (if clears then 0 else l.length) → m' = (m.take j).map (fun e => (e.1, mv e.2)) ++ m.drop j ∧ r = if m.length ≤ j then .ok () else .error .full) := by
  obtain ⟨⟨t, ev, hi, rfl⟩, hord⟩ := hs
  have hord := ord_iff.1 hord
  obtain ⟨tm, evo, hio, rfl⟩ := ho
  have main : ∀ (s1 : St α) (t1 : T), Ok s1 t1 ev → Ord key lt ev t1.ids → s1.cap = s.cap → (if clears then clear key lt s else .ok s : Res (St α)) = .ok s1 →
      seqOf t1 ev = (if clears then [] else seqOf t ev) → t1.ids.length = (if clears then 0 else (seqOf t ev).length) →
      ∃ s' o' r l' m', moveFrom key lt clears mv s o = .ok (s', o', r) ∧ Holds key lt s' l' ∧ Has o' m' ∧
      Spec.InsertAll key lt s.cap (if clears then [] else seqOf t ev) ((seqOf tm evo).map Prod.snd) l' (outUnit r) ∧
      (∀ j, j = s.cap - (if clears then 0 else (seqOf t ev).length) → m' = ((seqOf tm evo).take j).map (fun e => (e.1, mv e.2)) ++ (seqOf tm evo).drop j ∧
        r = if (seqOf tm evo).length ≤ j then .ok () else .error .full) := by
    intro s1 t1 h1 h2 h3 h4 h5 h6
    obtain ⟨s', o', r, ts', evs', ev', j1, j2, j3, j4, j5, j6, j7⟩ := moveLoop_ok hlt (mv := mv) tm.ids [] (o.cap + 1) h1 h2 hio (by simp) (by have := hio.len; omega)
    rw [h3] at j5 j6 j7
    rw [h5] at j5
    rw [h6] at j6 j7
    refine ⟨s', o', r, seqOf ts' evs', seqOf tm ev', ?_, ⟨⟨ts', evs', j2, rfl⟩, ord_iff.2 j3⟩, ⟨tm, ev', j4, rfl⟩, ?_, ?_⟩
    · unfold moveFrom
      rw [h4]
      simp only [bind, Except.bind, begin_ok hio]
      exact j1
    · have : (seqOf tm evo).map Prod.snd = tm.ids.map evo := by unfold seqOf; rw [List.map_map]; rfl
      rw [this]; exact j5
    · rintro j rfl
      refine ⟨?_, by rw [j7, seqOf_len tm evo]⟩
      obtain ⟨j, hj⟩ : ∃ j, s.cap - (if clears then 0 else (seqOf t ev).length) = j := ⟨_, rfl⟩
      rw [hj] at j6 ⊢
      unfold seqOf
      rw [← List.map_take, ← List.map_drop, List.map_map]
      have hnd := hio.nodup
      conv_lhs => rw [← List.take_append_drop j tm.ids, List.map_append]
      rw [← List.take_append_drop j tm.ids] at hnd
      congr 1
      · exact List.map_congr_left fun a ha => by rw [j6 a, if_pos ha]; rfl
      · exact List.map_congr_left fun a ha => by rw [j6 a, if_neg (fun hc => (List.nodup_append.1 hnd).2.2 a hc a ha rfl)]
  cases clears with
  | false => exact main s t hi hord rfl rfl rfl (by rw [seqOf_len]; rfl)
  | true =>
    obtain ⟨s1, c1, c2, c3⟩ := clear_ok (key := key) hlt hi
    exact main s1 .nil c3 ord_nil c2 c1 rfl rfl

/-! ## C16 -/

/-- **C16** for `multimap` and `multiset`: what the nodes hold after any sequence of calls, ordered or not, is an AVL tree, and its height is logarithmic. -/
theorem C16_balanced_multi {s : St α} {l : Seq α} (h : Has s l) : ∃ t : T, Rep s.h.t s.h.t.root t ∧ t.ids = l.map Prod.fst ∧ t.Bal ∧
    Nat.fib (t.height + 2) ≤ s.size + 1 ∧ t.height ≤ 2 * Nat.log 2 (s.size + 1) + 1 := by
  obtain ⟨t, ev, hi, rfl⟩ := h
  have hf := bal_fib t hi.bal
  have hsz : s.size = t.ids.length := hi.pool.size
  rw [← hsz] at hf
  refine ⟨t, hi.rep, ?_, hi.bal, hf, ?_⟩
  · unfold seqOf; rw [List.map_map]; simp [Function.comp_def]
  · have hp := Nat.le_trans (fib_pow t.height) hf
    have := Nat.le_log_of_pow_le (by decide) hp
    omega

/-- **C16**: the work of a search.  `find` and `lower_bound` in a container of `size` elements end within `f` steps as soon as `size + 1 < fib (f + 2)`;
`upper_bound` visits, after such a descent, the elements equivalent to the key one after the other. -/
theorem C16_search_steps_multi (hlt : StrictWeak lt) {s : St α} {l : Seq α} (h : Holds key lt s l) (k : K) (f : Nat) (hf : s.size + 1 < Nat.fib (f + 2)) :
    findLoop key lt s k s.h.t.root 0 f = find key lt s k ∧ lowerLoop key lt s k s.h.t.root 0 f = lowerBound key lt s k := by
  obtain ⟨⟨t, ev, hi, rfl⟩, ho⟩ := h
  have ho := ord_iff.1 ho
  have hb := bal_fib t hi.bal
  have hsz : s.size = t.ids.length := hi.pool.size
  rw [← hsz] at hb
  have hh : t.height < f := by
    by_contra hc
    have := Nat.fib_mono (show f + 2 ≤ t.height + 2 by omega)
    omega
  exact ⟨by rw [find_ok hlt hi ho, findLoop_ok hlt t s.h.t.root 0 f hi.rep hi.vals ho hh], by rw [lower_ok hlt hi ho, lowerLoop_ok hlt t s.h.t.root 0 f hi.rep hi.vals ho hh]⟩

/-! ## Examples -/

/-- Arbitrary contents of a fresh pool. -/
def junkM : MH := { t := junk0, par := fun _ => 9 }

/-- The results of a sequence of calls on a multimap from numbers to numbers with room for `cap` elements. -/
def runMulti (cap : Nat) (ops : List (Spec.Op (Nat × Nat) Nat)) : Res (List (Out (Nat × Nat))) :=
  (exec Prod.fst ltNat (init cap junkM) ops).map Prod.snd

/-- Equivalent elements in insertion order, searches, removal by key, of a range, of the first of its equals. -/
example : runMulti 8 [.insertRange [(3, 0), (1, 0), (3, 1), (2, 0), (3, 2), (1, 1), (3, 3), (2, 1)], .full, .insert (9, 9), .forward, .backward, .count 3, .find 3, .lowerBound 2, .upperBound 2,
      .contains 4, .eraseKey 3, .eraseAt 2, .insert (1, 5), .write 8 (fun e => (e.1, 7)), .forward, .eraseRange 4 0, .forward, .size] =
    .ok [.done, .flag true, .fail .full, .elems [(1, 0), (1, 1), (2, 0), (2, 1), (3, 0), (3, 1), (3, 2), (3, 3)],
      .elems [(3, 3), (3, 2), (3, 1), (3, 0), (2, 1), (2, 0), (1, 1), (1, 0)], .num 4, .pos 1, .pos 4, .pos 1, .flag false, .num 4, .pos 6, .pos 2, .done,
      .elems [(1, 1), (1, 5), (2, 0), (2, 7)], .pos 0, .elems [(1, 1), (1, 5)], .num 2] := by decide +kernel

/-- The hypotheses of `C62_step`, `C62_any`, `C62_sorted`, `C16_balanced_multi`, `C16_search_steps_multi` for a multimap with three elements, two of them equivalent. -/
example : ∃ (s : St (Nat × Nat)) (l : Seq (Nat × Nat)), Holds Prod.fst ltNat s l ∧ l.map Prod.snd = [(1, 10), (2, 20), (2, 21)] ∧
    Spec.Legal Prod.fst l (.eraseAt 1 : Spec.Op (Nat × Nat) Nat) ∧ Spec.Safe Prod.fst ltNat l (.eraseAt 1 : Spec.Op (Nat × Nat) Nat) ∧
    ¬ Spec.Safe Prod.fst ltNat l (.eraseAt 2 : Spec.Op (Nat × Nat) Nat) ∧ s.size + 1 < Nat.fib (4 + 2) := by
  let s1 : St (Nat × Nat) := ((exec Prod.fst ltNat (init 4 junkM) [.insertRange [(2, 20), (2, 21), (1, 10)]]).toOption.get rfl).1
  let t1 : T := .mk false 1 none (.mk false 3 none .nil .nil) (.mk false 2 none .nil .nil)
  let ev1 : Nat → Nat × Nat := fun n => match n with
    | 3 => (1, 10)
    | 1 => (2, 20)
    | _ => (2, 21)
  have hrep : Rep s1.h.t s1.h.t.root t1 := by
    refine ⟨rfl, ⟨by decide, by decide⟩, rfl, fun d => ?_⟩
    cases d
    · exact ⟨rfl, ⟨by decide, by decide⟩, rfl, fun d => by cases d <;> rfl⟩
    · exact ⟨rfl, ⟨by decide, by decide⟩, rfl, fun d => by cases d <;> rfl⟩
  have hids : t1.ids = [3, 1, 2] := rfl
  have hok : Ok s1 t1 ev1 := by
    refine { rep := hrep, bal := ?_, par := ?_, vals := ?_, pool := { lim := rfl, part := ?_, raw := ?_, size := rfl } }
    · exact bal_mk.2 ⟨bal_leaf 3, bal_leaf 2, .inl ⟨rfl, rfl⟩⟩
    · refine ⟨rfl, fun d => ?_⟩
      cases d <;> exact ⟨rfl, fun d => by cases d <;> trivial⟩
    · intro m hm
      have : m = 3 ∨ m = 1 ∨ m = 2 := by simpa [hids] using hm
      rcases this with rfl | rfl | rfl <;> rfl
    · decide
    · intro m hm
      have : m = 4 := by simpa using (show m ∈ [4] from hm)
      subst this; rfl
  have hseq : seqOf t1 ev1 = [(3, (1, 10)), (1, (2, 20)), (2, (2, 21))] := rfl
  refine ⟨s1, seqOf t1 ev1, ⟨⟨t1, ev1, hok, rfl⟩, by rw [hseq]; decide⟩, rfl, ⟨(1, (2, 20)), by rw [hseq]; decide, rfl⟩, ?_, ?_, by decide⟩
  · intro X v Y e
    rw [hseq] at e
    match X, e with
    | [], e => simp at e
    | [a], e =>
      simp only [List.cons_append, List.nil_append, List.cons.injEq] at e
      obtain ⟨rfl, e, _⟩ := e
      cases e
      intro x hx
      rw [List.mem_singleton.1 hx]; rfl
    | a :: b :: X, e =>
      simp only [List.cons_append, List.cons.injEq] at e
      obtain ⟨_, rfl, e⟩ := e
      cases X <;> simp at e
  · intro h
    have := h [(3, (1, 10)), (1, (2, 20))] (2, 21) [] rfl (1, (2, 20)) (by simp)
    revert this; decide

/-- `C62_move`: a multimap keeps its old elements, a multiset does not. -/
example : (do
      let (s, _) ← exec Prod.fst ltNat (init 3 junkM) [.insert (9, 9)]
      let (o, _) ← exec Prod.fst ltNat (init 5 junkM) [.insertRange [(4, 1), (4, 2), (2, 1), (1, 1)]]
      let (s1, o1, r1) ← moveFrom Prod.fst ltNat false (fun e => (e.1, 0)) s o
      let (s2, o2, r2) ← moveFrom Prod.fst ltNat true (fun e => (e.1, 0)) s o
      .ok (← toList s1, ← toList o1, r1, ← toList s2, ← toList o2, r2) : Res _) =
    .ok ([(1, 1), (2, 1), (9, 9)], [(1, 0), (2, 0), (4, 1), (4, 2)], .error .full, [(1, 1), (2, 1), (4, 1)], [(1, 0), (2, 0), (4, 0), (4, 2)], .error .full) := rfl

/-! ## Findings -/

/-- The condition `Safe` is needed.  Erasing through an iterator an element that has an equivalent one before it can put a greater element before a smaller one: after the insertion
of three elements with key 5 and one with key 4, and the removal of the second of the elements with key 5, the iteration gives 5, 4, 5, and the
elements with key 5 are no longer found: `count(5)` is 1 although there are two. -/
theorem erase_iterator_breaks_order : runMulti 4 [.insertRange [(5, 0), (5, 1), (5, 2), (4, 0)], .forward, .lowerBound 5, .next 1, .eraseAt 2, .forward, .count 5] =
    .ok [.done, .elems [(4, 0), (5, 0), (5, 1), (5, 2)], .pos 1, .pos 2, .pos 3, .elems [(5, 0), (4, 0), (5, 2)], .num 1] := by decide +kernel

/-- .. and then `erase(4)` removes an element with key 5, too, although `count(4)` is 1. -/
theorem erase_key_removes_other : runMulti 4 [.insertRange [(5, 0), (5, 1), (5, 2), (4, 0)], .eraseAt 2, .count 4, .eraseKey 4, .forward] =
    .ok [.done, .pos 3, .num 1, .num 2, .elems [(5, 2)]] := by decide +kernel

end Etl.MTree
