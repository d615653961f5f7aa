import Verif.Tree.Refine
import Mathlib.Data.Nat.Fib.Basic
import Mathlib.Data.Nat.Log

/-!
# C15 and C16 for `etl::map` and `etl::set`

The specification of the contents and of every operation is in `Verif/Tree/Spec.lean`.
-/
namespace Etl.Tree
open T Spec

variable {α K : Type} (key : α → K) (lt : K → K → Bool)

/-- The API: each operation with its result. -/
def step (isSet : Bool) (s : St α) : Op α K → Res (St α × Out α)
  | .insert v => do let (s, o) ← insert key lt isSet s v; .ok (s, outIns o)
  | .insertRange vs => do let (s, o) ← insertRange key lt isSet s vs; .ok (s, outUnit o)
  | .index mk k => do let (s, o) ← index key lt mk s k; .ok (s, outPos o)
  | .write p g => do .ok (← write s p g, .done)
  | .eraseKey k => do let (s, n) ← eraseKey key lt s k; .ok (s, .num n)
  | .eraseAt p => do let (s, n) ← eraseAt key lt s p; .ok (s, .pos n)
  | .eraseRange p q => do let (s, n) ← eraseRange key lt s p q; .ok (s, .pos n)
  | .clear => do .ok (← clear key lt s, .done)
  | .assign vs => do let (s, o) ← assign key lt isSet s vs; .ok (s, outUnit o)
  | .find k => do .ok (s, .pos (← find key lt s k))
  | .lowerBound k => do .ok (s, .pos (← lowerBound key lt s k))
  | .upperBound k => do .ok (s, .pos (← upperBound key lt s k))
  | .contains k => do .ok (s, .flag (← contains key lt s k))
  | .count k => do .ok (s, .num (← count key lt s k))
  | .at k => do .ok (s, outElem (← atKey key lt s k))
  | .begin => do .ok (s, .pos (← begin s))
  | .next p => do .ok (s, .pos (← next key lt s p))
  | .prev p => do .ok (s, .pos (← prev key lt s p))
  | .deref p => do .ok (s, .elem (← read s p))
  | .forward => do .ok (s, .elems (← toList key lt s))
  | .backward => do .ok (s, .elems (← toListRev key lt s))
  | .size => .ok (s, .num s.size)
  | .empty => .ok (s, .flag (empty s))
  | .full => .ok (s, .flag (full s))
  | .available => .ok (s, .num (available s))

/-- Several operations in a row, with their results. -/
def exec (isSet : Bool) (s : St α) : List (Op α K) → Res (St α × List (Out α))
  | [] => .ok (s, [])
  | op :: ops => do
    let (s, o) ← step key lt isSet s op
    let (s, os) ← exec isSet s ops
    .ok (s, o :: os)

/-- The container holds the elements `l`. -/
def Holds (s : St α) (l : Seq α) : Prop := ∃ t ev, Inv key lt s t ev ∧ l = seqOf t ev

variable {key lt}

theorem holds_init [Nonempty α] (cap : Nat) (junk : TH) : Holds key lt (init cap junk : St α) [] := by
  obtain ⟨a⟩ := ‹Nonempty α›
  exact ⟨.nil, fun _ => a, inv_init cap junk _, rfl⟩

theorem countP_same (hlt : StrictWeak lt) {s : St α} {t : T} {ev : Nat → α} (hi : Inv key lt s t ev) (k : K) :
    (seqOf t ev).countP (same key lt k) = if posOf (lookup key lt k (seqOf t ev)) ≠ 0 then 1 else 0 := by
  obtain ⟨s', r, t', _, _, _, e2, _, e4⟩ := eraseKey_spec hlt hi k
  obtain ⟨q, _, f2, f3⟩ := find_inv hlt hi k
  have hl := List.length_eq_countP_add_countP (same key lt k) (l := seqOf t ev)
  have hc : (seqOf t' ev).length = (seqOf t ev).countP (fun e => !same key lt k e) := by rw [e2, List.countP_eq_length_filter]
  have hn : (seqOf t ev).countP (fun e => !same key lt k e) = (seqOf t ev).countP (fun e => decide ¬same key lt k e = true) := by
    congr 1; funext e; cases same key lt k e <;> rfl
  rw [← f2]
  rcases f3 with ⟨rfl, f3⟩ | ⟨f3, f4, f5⟩
  · rw [if_neg (by simp), List.countP_eq_zero]
    intro e he
    obtain ⟨m, hm, rfl⟩ := List.mem_map.1 he
    rcases f3 m hm with h | h <;> simp [same, h]
  · rw [if_pos (hi.pos f3)]
    have : 0 < (seqOf t ev).countP (same key lt k) := by
      rw [List.countP_pos_iff]
      exact ⟨(q, ev q), List.mem_map.2 ⟨q, f3, rfl⟩, by simp [same, f4, f5]⟩
    omega

/-- Every legal operation has a defined behaviour, and does and returns what the specification says. -/
theorem op_ok (hlt : StrictWeak lt) {s : St α} {l : Seq α} (h : Holds key lt s l) (isSet : Bool) (op : Op α K) (hl : Legal key l op) :
    ∃ s' o l', step key lt isSet s op = .ok (s', o) ∧ Step key lt isSet s.cap l op l' o ∧ Holds key lt s' l' ∧ s'.cap = s.cap := by
  obtain ⟨t, ev, hi, rfl⟩ := h
  have same : Holds key lt s (seqOf t ev) := ⟨t, ev, hi, rfl⟩
  cases op with
  | insert v =>
    obtain ⟨s', o, t', ev', h1, h2, h3, h4⟩ := insert_spec hlt hi isSet v
    exact ⟨s', outIns o, _, by simp only [step, h1, bind, Except.bind], h4, ⟨t', ev', h3, rfl⟩, h2⟩
  | insertRange vs =>
    obtain ⟨s', o, t', ev', h1, h2, h3, h4⟩ := insertRange_spec hlt isSet vs hi
    exact ⟨s', outUnit o, _, by simp only [step, h1, bind, Except.bind], h4, ⟨t', ev', h3, rfl⟩, h2⟩
  | index mk k =>
    obtain ⟨s', o, t', ev', h1, h2, h3, h4⟩ := index_spec hlt hi mk k hl
    exact ⟨s', outPos o, _, by simp only [step, h1, bind, Except.bind], h4, ⟨t', ev', h3, rfl⟩, h2⟩
  | write p g =>
    have hp := mem_seqOf hl.1
    obtain ⟨s', w1, w2, _, w3⟩ := write_inv hi hp (hl.2 _)
    obtain ⟨X, Y, e⟩ := List.append_of_mem hp
    have hnd := hi.nodup
    rw [e] at hnd
    have hX : ∀ m ∈ X, m ≠ p := fun m hm hc => (List.nodup_append.1 hnd).2.2 m hm p (by simp) hc
    have hY : ∀ m ∈ Y, m ≠ p := fun m hm hc => (List.nodup_cons.1 (List.nodup_append.1 hnd).2.1).1 (hc ▸ hm)
    have hmap : ∀ Z : List Nat, (∀ m ∈ Z, m ≠ p) → Z.map (fun m => (m, upd ev p (g (ev p)) m)) = Z.map (fun m => (m, ev m)) :=
      fun Z hZ => List.map_congr_left fun m hm => by rw [upd_other _ _ (hZ m hm)]
    refine ⟨s', .done, _, by simp only [step, w1, bind, Except.bind], ⟨⟨X.map (fun n => (n, ev n)), ev p, Y.map (fun n => (n, ev n)), ?_, rfl⟩, rfl⟩, ⟨t, _, w3, ?_⟩, w2⟩
    · unfold seqOf; rw [e]; simp
    · unfold seqOf; rw [e, List.map_append, List.map_cons, hmap X hX, hmap Y hY, upd_same]
  | eraseKey k =>
    obtain ⟨s', r, t', h1, h2, h3, h4, h5, h6⟩ := eraseKey_spec hlt hi k
    exact ⟨s', .num r, _, by simp only [step, h1, bind, Except.bind], ⟨h4, by rw [h5], h6⟩, ⟨t', ev, h3, rfl⟩, h2⟩
  | eraseAt p =>
    obtain ⟨X, Y, e⟩ := List.append_of_mem (mem_seqOf hl)
    obtain ⟨s', t', h1, h2, h3, h4⟩ := erase_inv hlt hi e
    refine ⟨s', .pos (Y.headD 0), _, by simp only [step, h1, bind, Except.bind],
      ⟨X.map (fun n => (n, ev n)), ev p, Y.map (fun n => (n, ev n)), ?_, rfl, by rw [posOf_head]⟩, ⟨t', ev, h3, ?_⟩, h2⟩
    · unfold seqOf; rw [e]; simp
    · unfold seqOf; rw [h4]; simp
  | eraseRange p q =>
    obtain ⟨X, Y, Z, e, rfl, rfl⟩ := hl
    obtain ⟨A, C, e1, e2, rfl⟩ := map_split (ev := ev) e
    obtain ⟨A, B, rfl, rfl, rfl⟩ := map_split (ev := ev) e2.symm
    obtain ⟨s', t', h1, h2, h3, h4⟩ := eraseLoop_ok hlt B (s.cap + 1) hi e1 (by have := hi.len; rw [e1] at this; simp at this; omega)
    rw [← List.map_append, posOf_head, posOf_head]
    refine ⟨s', .pos (C.headD 0), _, by simp only [step, eraseRange, h1, bind, Except.bind],
      ⟨⟨A.map (fun n => (n, ev n)), B.map (fun n => (n, ev n)), C.map (fun n => (n, ev n)), e, ?_, ?_, rfl⟩, rfl⟩, ⟨t', ev, h3, ?_⟩, h2⟩
    · rw [← List.map_append, posOf_head]
    · rw [posOf_head]
    · unfold seqOf; rw [h4]; simp
  | clear =>
    obtain ⟨s', h1, h2, h3⟩ := clear_inv hlt hi
    exact ⟨s', .done, [], by simp only [step, h1, bind, Except.bind], ⟨rfl, rfl⟩, ⟨.nil, ev, h3, rfl⟩, h2⟩
  | assign vs =>
    obtain ⟨s1, g1, g2, g3⟩ := clear_inv hlt hi
    obtain ⟨s', o, t', ev', h1, h2, h3, h4⟩ := insertRange_spec hlt isSet vs g3
    rw [g2] at h4
    exact ⟨s', outUnit o, _, by simp only [step, assign, g1, h1, bind, Except.bind], h4, ⟨t', ev', h3, rfl⟩, h2.trans g2⟩
  | find k =>
    obtain ⟨q, f1, f2, _⟩ := find_inv hlt hi k
    exact ⟨s, .pos q, _, by simp only [step, f1, bind, Except.bind], ⟨rfl, by rw [f2]⟩, same, rfl⟩
  | lowerBound k =>
    have h1 := lowerLoop_ok (key := key) (k := k) hlt t s.h.root 0 (s.cap + 1) hi.rep hi.vals hi.ord hi.hfuel
    refine ⟨s, _, _, by simp only [step, lowerBound, h1, bind, Except.bind]; rfl, ⟨rfl, ?_⟩, same, rfl⟩
    unfold seqOf; rw [List.find?_map, posOf_map]; rfl
  | upperBound k =>
    have h1 := upperLoop_ok (key := key) (k := k) hlt t s.h.root 0 (s.cap + 1) hi.rep hi.vals hi.ord hi.hfuel hi.hfuel
    refine ⟨s, _, _, by simp only [step, upperBound, h1, bind, Except.bind]; rfl, ⟨rfl, ?_⟩, same, rfl⟩
    unfold seqOf; rw [List.find?_map, posOf_map]; rfl
  | contains k =>
    obtain ⟨q, f1, f2, _⟩ := find_inv hlt hi k
    refine ⟨s, .flag (q != 0), _, by simp only [step, contains, f1, bind, Except.bind], ⟨rfl, ?_⟩, same, rfl⟩
    have := countP_same hlt hi k
    rw [← f2] at this
    congr 1
    cases ha : (seqOf t ev).any (Spec.same key lt k) with
    | true =>
      obtain ⟨e, h1, h2⟩ := List.any_eq_true.1 ha
      have hp : 0 < (seqOf t ev).countP (Spec.same key lt k) := List.countP_pos_iff.2 ⟨e, h1, h2⟩
      by_cases hq : q = 0
      · rw [if_neg (by simpa using hq)] at this; omega
      · simpa using hq
    | false =>
      rw [List.any_eq_false] at ha
      rw [List.countP_eq_zero.2 ha] at this
      by_cases hq : q = 0
      · simp [hq]
      · rw [if_pos hq] at this; cases this
  | count k =>
    obtain ⟨q, f1, f2, _⟩ := find_inv hlt hi k
    exact ⟨s, _, _, by simp only [step, count, f1, bind, Except.bind]; rfl, ⟨rfl, by rw [countP_same hlt hi k, ← f2]⟩, same, rfl⟩
  | «at» k =>
    obtain ⟨q, f1, f2, f3⟩ := find_inv hlt hi k
    rcases f3 with ⟨rfl, f3⟩ | ⟨f3, f4, f5⟩
    · exact ⟨s, _, _, by simp only [step, atKey, f1, bind, Except.bind]; rfl, ⟨rfl, by rw [lookup_none f3]; rfl⟩, same, rfl⟩
    · refine ⟨s, .elem (ev q), _, ?_, ⟨rfl, by rw [lookup_some hlt hi f3 f4 f5]⟩, same, rfl⟩
      simp only [step, atKey, f1, bind, Except.bind]
      rw [if_pos (hi.pos f3)]
      simp only [read_ok (hi.rep.valid_of_mem f3) (hi.vals q f3)]
      rfl
  | begin => exact ⟨s, _, _, by simp only [step, begin_ok hi, bind, Except.bind]; rfl, ⟨rfl, by unfold seqOf; rw [posOf_head]⟩, same, rfl⟩
  | next p =>
    obtain ⟨X, Y, e⟩ := List.append_of_mem (mem_seqOf hl)
    refine ⟨s, _, _, by simp only [step, next_ok hlt hi e, bind, Except.bind]; rfl, ⟨rfl, X.map (fun n => (n, ev n)), ev p, Y.map (fun n => (n, ev n)), ?_, by rw [posOf_head]⟩, same, rfl⟩
    unfold seqOf; rw [e]; simp
  | prev p =>
    obtain ⟨h1, h2⟩ := hl
    have h2 : p ≠ t.ids.headD 0 := by rw [← posOf_head (ev := ev)]; exact h2
    have : ∃ X x Y, t.ids = X ++ x :: Y ∧ p = Y.headD 0 := by
      rcases h1 with rfl | h1
      · rcases List.eq_nil_or_concat t.ids with hc | ⟨A, a, hc⟩
        · rw [hc] at h2; exact absurd rfl h2
        · exact ⟨A, a, [], by rw [hc]; simp, rfl⟩
      · obtain ⟨X, Y, e⟩ := List.append_of_mem (mem_seqOf h1)
        rcases List.eq_nil_or_concat X with hc | ⟨A, a, hc⟩
        · rw [e, hc] at h2; exact absurd rfl h2
        · exact ⟨A, a, p :: Y, by rw [e, hc]; simp, rfl⟩
    obtain ⟨X, x, Y, e, rfl⟩ := this
    refine ⟨s, _, _, by simp only [step, prev_mid hlt hi e, bind, Except.bind], ⟨rfl, X.map (fun n => (n, ev n)), (x, ev x), Y.map (fun n => (n, ev n)), ?_, by rw [posOf_head], rfl⟩, same, rfl⟩
    unfold seqOf; rw [e]; simp
  | deref p =>
    have hp := mem_seqOf hl
    exact ⟨s, _, _, by simp only [step, read_ok (hi.rep.valid_of_mem hp) (hi.vals p hp), bind, Except.bind], ⟨rfl, ev p, List.mem_map.2 ⟨p, hp, rfl⟩, rfl⟩, same, rfl⟩
  | forward => exact ⟨s, _, _, by simp only [step, toList_inv hlt hi, bind, Except.bind]; rfl, ⟨rfl, by unfold seqOf; rw [List.map_map]; rfl⟩, same, rfl⟩
  | backward => exact ⟨s, _, _, by simp only [step, toListRev_inv hlt hi, bind, Except.bind]; rfl, ⟨rfl, by unfold seqOf; rw [← List.map_reverse, List.map_map]; rfl⟩, same, rfl⟩
  | size => exact ⟨s, _, _, rfl, ⟨rfl, by rw [seqOf_len, hi.pool.size]⟩, same, rfl⟩
  | empty =>
    refine ⟨s, _, _, rfl, ⟨rfl, ?_⟩, same, rfl⟩
    unfold Etl.Tree.empty seqOf; rw [hi.pool.size]; cases t.ids <;> rfl
  | full =>
    refine ⟨s, _, _, rfl, ⟨rfl, ?_⟩, same, rfl⟩
    unfold Etl.Tree.full; rw [seqOf_len, hi.pool.size]; rfl
  | available => exact ⟨s, _, _, rfl, ⟨rfl, by unfold Etl.Tree.available; rw [seqOf_len, hi.pool.size]⟩, same, rfl⟩

/-! ## C15 -/

/-- **C15**, one operation: every legal call is free of undefined behaviour, and its effect and result are those of the ideal ordered container. -/
theorem C15_step (hlt : StrictWeak lt) {s : St α} {l : Seq α} (h : Holds key lt s l) (isSet : Bool) (op : Op α K) (hl : Legal key l op) :
    ∃ s' o l', step key lt isSet s op = .ok (s', o) ∧ Step key lt isSet s.cap l op l' o ∧ Holds key lt s' l' ∧ s'.cap = s.cap := op_ok hlt h isSet op hl

/-- **C15**, histories: starting from an empty container, a sequence of calls either gives the results of the ideal ordered container, call by call, or contains a first
call that the caller was not allowed to make, and everything before it did. -/
theorem C15_history [Nonempty α] (hlt : StrictWeak lt) (isSet : Bool) (cap : Nat) (junk : TH) (ops : List (Op α K)) :
    (∃ s os l, exec key lt isSet (init cap junk) ops = .ok (s, os) ∧ History key lt isSet cap [] ops os l ∧ Holds key lt s l) ∨
    (∃ pre op post s os l, ops = pre ++ op :: post ∧ exec key lt isSet (init cap junk) pre = .ok (s, os) ∧ History key lt isSet cap [] pre os l ∧
      Holds key lt s l ∧ ¬ Legal key l op) := by
  have gen : ∀ (ops : List (Op α K)) (s0 : St α) (l0 : Seq α), Holds key lt s0 l0 → s0.cap = cap →
      (∃ s os l, exec key lt isSet s0 ops = .ok (s, os) ∧ History key lt isSet cap l0 ops os l ∧ Holds key lt s l) ∨
      (∃ pre op post s os l, ops = pre ++ op :: post ∧ exec key lt isSet s0 pre = .ok (s, os) ∧ History key lt isSet cap l0 pre os l ∧
        Holds key lt s l ∧ ¬ Legal key l op) := by
    intro ops
    induction ops with
    | nil => intro s0 l0 h0 _; exact .inl ⟨s0, [], l0, rfl, .nil l0, h0⟩
    | cons op ops ih =>
      intro s0 l0 h0 hc
      by_cases hl : Legal key l0 op
      · obtain ⟨s1, o, l1, h1, h2, h3, h4⟩ := op_ok hlt h0 isSet op hl
        rw [hc] at h2
        rcases ih s1 l1 h3 (h4.trans hc) with ⟨s, os, l, g1, g2, g3⟩ | ⟨pre, op', post, s, os, l, rfl, g1, g2, g3, g4⟩
        · exact .inl ⟨s, o :: os, l, by simp only [exec, h1, g1, bind, Except.bind], .cons hl h2 g2, g3⟩
        · exact .inr ⟨op :: pre, op', post, s, o :: os, l, rfl, by simp only [exec, h1, g1, bind, Except.bind], .cons hl h2 g2, g3, g4⟩
      · exact .inr ⟨[], op, ops, s0, [], l0, rfl, rfl, .nil l0, h0, hl⟩
  exact gen ops _ _ (holds_init cap junk) rfl

/-- **C15**: keys are unique and ascending, positions are distinct, and the capacity is never exceeded. -/
theorem C15_sorted {s : St α} {l : Seq α} (h : Holds key lt s l) :
    l.Pairwise (fun a b => lt (key a.2) (key b.2)) ∧ (l.map Prod.fst).Nodup ∧ (∀ e ∈ l, e.1 ≠ 0) ∧ l.length ≤ s.cap := by
  obtain ⟨t, ev, hi, rfl⟩ := h
  refine ⟨?_, ?_, ?_, by rw [seqOf_len]; exact hi.len⟩
  · unfold seqOf; rw [List.pairwise_map]; exact hi.ord
  · unfold seqOf; rw [List.map_map]; simpa [Function.comp_def] using hi.nodup
  · intro e he
    exact hi.pos (mem_seqOf ⟨e, he, rfl⟩)

theorem insert_last (hlt : StrictWeak lt) {s : St α} {t : T} {ev : Nat → α} (hi : Inv key lt s t ev) (isSet : Bool) (v : α) (hb : ∀ m ∈ t.ids, lt (key (ev m)) (key v) = true) :
    ∃ s' o t' ev', insert key lt isSet s v = .ok (s', o) ∧ s'.cap = s.cap ∧ Inv key lt s' t' ev' ∧
      if t.ids.length = s.cap then o = .error .full ∧ t'.ids.map ev' = t.ids.map ev
      else (∃ n, o = .ok (n, true)) ∧ t'.ids.map ev' = t.ids.map ev ++ [v] := by
  obtain ⟨s', o, t', ev', h1, h2, h3, h4⟩ := insert_spec hlt hi isSet v
  refine ⟨s', o, t', ev', h1, h2, h3, ?_⟩
  have hsnd : ∀ (t : T) (ev : Nat → α), (seqOf t ev).map Prod.snd = t.ids.map ev := fun t ev => by unfold seqOf; rw [List.map_map]; rfl
  unfold Spec.Insert at h4
  rw [lookup_none (fun m hm => .inl (hb m hm))] at h4
  simp only [seqOf_len] at h4
  by_cases hc : t.ids.length = s.cap
  · rw [if_pos hc] at h4 ⊢
    refine ⟨?_, by rw [← hsnd t' ev', h4.1, hsnd]⟩
    cases o with
    | ok p => cases h4.2
    | error e => cases e <;> first | rfl | cases h4.2
  · rw [if_neg hc] at h4 ⊢
    obtain ⟨n, _, _, h5, h6⟩ := h4
    constructor
    · cases o with
      | ok p => simp only [outIns, Out.ins.injEq] at h6; exact ⟨n, by rw [← h6.1, ← h6.2]⟩
      | error e => cases h6
    · rw [← hsnd t' ev', h5, ← hsnd t ev]
      unfold place
      rw [List.filter_eq_self.2, List.filter_eq_nil_iff.2]
      · simp
      · intro e he
        obtain ⟨m, hm, rfl⟩ := List.mem_map.1 he
        simp [hlt.asymm (hb m hm)]
      · intro e he
        obtain ⟨m, hm, rfl⟩ := List.mem_map.1 he
        exact hb m hm

theorem moveLoop_ok (hlt : StrictWeak lt) (isSet late : Bool) {mv : α → α} (hmv : ∀ v, key (mv v) = key v) {t : T} (Y : List Nat) :
    ∀ {s o : St α} {ts : T} {evs ev : Nat → α} (A : List Nat) (fuel : Nat), Inv key lt s ts evs → Inv key lt o t ev → t.ids = A ++ Y → Y.length ≤ fuel →
    (∀ m ∈ ts.ids, ∀ y ∈ Y, lt (key (evs m)) (key (ev y)) = true) →
    ∃ s' o' r ts' evs' ev', moveLoop key lt isSet late mv s o (Y.headD 0) fuel = .ok (s', o', r) ∧ Inv key lt s' ts' evs' ∧ Inv key lt o' t ev' ∧
      ts'.ids.map evs' = ts.ids.map evs ++ (Y.take (s.cap - ts.ids.length)).map ev ∧
      (∀ m, ev' m = if m ∈ Y.take (s.cap - ts.ids.length) then mv (ev m) else ev m) ∧
      r = if Y.length ≤ s.cap - ts.ids.length then .ok () else .error .full := by
  induction Y with
  | nil =>
    intro s o ts evs ev A fuel hs ho e hf hb
    refine ⟨s, o, .ok (), ts, evs, ev, by cases fuel <;> simp [moveLoop], hs, ho, by simp, by simp, by simp⟩
  | cons y Y ih =>
    intro s o ts evs ev A fuel hs ho e hf hb
    obtain ⟨fuel, rfl⟩ : ∃ j, fuel = j + 1 := ⟨fuel - 1, by simp at hf; omega⟩
    have hy : y ∈ t.ids := by rw [e]; simp
    obtain ⟨s1, r1, t1, ev1, i1, i2, i3, i4⟩ := insert_last hlt hs isSet (ev y) (fun m hm => hb m hm y (by simp))
    rw [List.headD_cons, moveLoop, if_pos (ho.pos hy)]
    simp only [read_ok (ho.rep.valid_of_mem hy) (ho.vals y hy), next_ok hlt ho e, bind, Except.bind, i1]
    have hlen := hs.len
    by_cases hc : ts.ids.length = s.cap
    · rw [if_pos hc] at i4
      obtain ⟨rfl, i4⟩ := i4
      refine ⟨s1, o, .error .full, t1, ev1, ev, rfl, i3, ho, ?_, ?_, ?_⟩
      · rw [i4, hc]; simp
      · rw [hc]; simp
      · rw [hc]; simp
    · rw [if_neg hc] at i4
      obtain ⟨⟨n, rfl⟩, i4⟩ := i4
      obtain ⟨o2, _, _, w2, w3⟩ := write_inv ho hy (g := mv) (hmv _)
      have hnd := ho.nodup
      rw [e] at hnd
      have hyY : y ∉ Y := (List.nodup_cons.1 (List.nodup_append.1 hnd).2.1).1
      have hevY : ∀ m ∈ Y, upd ev y (mv (ev y)) m = ev m := fun m hm => upd_other _ _ (fun hc => hyY (hc ▸ hm))
      have hlen1 : t1.ids.length = ts.ids.length + 1 := by have := congrArg List.length i4; simpa using this
      have hord : ∀ m ∈ t1.ids, ∀ z ∈ Y, lt (key (ev1 m)) (key (upd ev y (mv (ev y)) z)) = true := by
        intro m hm z hz
        rw [hevY z hz]
        have hm2 : ev1 m ∈ t1.ids.map ev1 := List.mem_map.2 ⟨m, hm, rfl⟩
        rw [i4, List.mem_append] at hm2
        rcases hm2 with h | h
        · obtain ⟨m', h1, h2⟩ := List.mem_map.1 h
          rw [← h2]; exact hb m' h1 z (by simp [hz])
        · rw [List.mem_singleton.1 h]
          have ho1 := ho.ord
          rw [e] at ho1
          exact (List.pairwise_cons.1 (List.pairwise_append.1 ho1).2.1).1 z hz
      obtain ⟨s', o', r, ts', evs', ev', j1, j2, j3, j4, j5, j6⟩ := ih (A ++ [y]) fuel i3 w3 (by rw [e]; simp) (by simp at hf; omega) hord
      rw [i2, hlen1] at j4 j5 j6
      have hk : s.cap - ts.ids.length = (s.cap - (ts.ids.length + 1)) + 1 := by omega
      refine ⟨s', o', r, ts', evs', ev', ?_, j2, j3, ?_, ?_, ?_⟩
      · rw [w2] at j1 w3
        simp only [if_true]
        cases late with
        | false => exact j1
        | true =>
          simp only [if_true, next_ok hlt w3 e]
          exact j1
      · rw [j4, i4, hk, List.take_succ_cons, List.map_cons, List.append_assoc]
        congr 1
        rw [List.singleton_append]
        congr 1
        exact List.map_congr_left fun m hm => hevY m (List.mem_of_mem_take hm)
      · intro m
        rw [j5 m, hk, List.take_succ_cons]
        by_cases hmy : m = y
        · subst hmy
          rw [if_neg (fun hc => hyY (List.mem_of_mem_take hc)), if_pos (by simp), upd_same]
        · rw [upd_other _ _ hmy]
          simp [hmy]
      · rw [j6, hk]
        simp

/-- **C15**, move assignment and construction of a map (`late`: `imap::operator=(imap&&)`), and of a set whose elements keep their keys when moved from: the target holds the
elements of the source, up to its capacity, and reports when they do not fit; the source keeps the moved-from elements. -/
theorem C15_move (hlt : StrictWeak lt) (isSet late : Bool) {mv : α → α} (hmv : ∀ v, key (mv v) = key v) {s o : St α} {l m : Seq α}
    (hs : Holds key lt s l) (ho : Holds key lt o m) :
    ∃ s' o' r l' m', moveFrom key lt isSet late mv s o = .ok (s', o', r) ∧ Holds key lt s' l' ∧ Holds key lt o' m' ∧
      l'.map Prod.snd = (m.take s.cap).map Prod.snd ∧ m' = (m.take s.cap).map (fun e => (e.1, mv e.2)) ++ m.drop s.cap ∧
      r = if m.length ≤ s.cap then .ok () else .error .full := by
  obtain ⟨t, ev, hi, rfl⟩ := hs
  obtain ⟨tm, evo, hio, rfl⟩ := ho
  obtain ⟨s1, c1, c2, c3⟩ := clear_inv hlt hi
  obtain ⟨s', o', r, ts', evs', ev', j1, j2, j3, j4, j5, j6⟩ := moveLoop_ok hlt isSet late hmv tm.ids [] (o.cap + 1) c3 hio (by simp) (by have := hio.len; omega)
    (by intro m hm; simp [T.ids, T.ino] at hm)
  have h0 : (T.nil).ids = [] := rfl
  rw [h0, c2] at j4 j5 j6
  simp only [List.length_nil, Nat.sub_zero, List.map_nil, List.nil_append] at j4 j5 j6
  refine ⟨s', o', r, _, _, ?_, ⟨ts', evs', j2, rfl⟩, ⟨tm, ev', j3, rfl⟩, ?_, ?_, by rw [j6, seqOf_len]⟩
  · unfold moveFrom
    rw [c1]
    simp only [bind, Except.bind, begin_ok hio]
    exact j1
  · unfold seqOf
    rw [List.map_map, ← List.map_take, List.map_map]
    exact j4
  · unfold seqOf
    rw [← List.map_take, ← List.map_drop, List.map_map]
    have hnd := hio.nodup
    conv_lhs => rw [← List.take_append_drop s.cap tm.ids, List.map_append]
    rw [← List.take_append_drop s.cap tm.ids] at hnd
    congr 1
    · exact List.map_congr_left fun a ha => by rw [j5 a, if_pos ha]; rfl
    · exact List.map_congr_left fun a ha => by rw [j5 a, if_neg (fun hc => (List.nodup_append.1 hnd).2.2 a hc a ha rfl)]

/-! ## C16 -/

theorem bal_fib (t : T) (h : t.Bal) : Nat.fib (t.height + 2) ≤ t.ids.length + 1 := by
  induction t with
  | nil => decide
  | node n w c ih =>
    have hb := h
    rw [node_eq false] at hb
    obtain ⟨b1, b2, b3⟩ := bal_mk.1 hb
    have i1 := ih false b1
    have i2 := ih true b2
    rw [node_eq false, height_mk, ids_len_mk]
    have mono : ∀ {a b : Nat}, a ≤ b → Nat.fib a ≤ Nat.fib b := fun h => Nat.fib_mono h
    have key2 : ∀ a b : Nat, a ≤ b + 1 → Nat.fib (a + 1 + 2) ≤ Nat.fib (a + 2) + Nat.fib (b + 2) := by
      intro a b hab
      have : Nat.fib (a + 1 + 2) = Nat.fib (a + 1) + Nat.fib (a + 2) := Nat.fib_add_two (n := a + 1)
      have := mono (show a + 1 ≤ b + 2 by omega)
      omega
    unfold BalW at b3
    simp only [Bool.not_false] at *
    rcases Nat.le_total (c false).height (c true).height with hle | hle
    · rw [Nat.max_eq_right hle]
      have := key2 (c true).height (c false).height (by omega)
      omega
    · rw [Nat.max_eq_left hle]
      have := key2 (c false).height (c true).height (by omega)
      omega

theorem fib_pow (h : Nat) : 2 ^ (h / 2) ≤ Nat.fib (h + 2) := by
  induction h using Nat.strongRecOn with
  | _ h ih =>
    match h, ih with
    | 0, _ => decide
    | 1, _ => decide
    | h + 2, ih =>
      have h1 := ih h (by omega)
      have e : (h + 2) / 2 = h / 2 + 1 := by omega
      have f1 : Nat.fib (h + 4) = Nat.fib (h + 2) + Nat.fib (h + 3) := Nat.fib_add_two
      have f2 : Nat.fib (h + 2) ≤ Nat.fib (h + 3) := Nat.fib_le_fib_succ
      rw [e, Nat.pow_succ]
      show _ ≤ Nat.fib (h + 4)
      omega

/-- **C16** for `map` and `set`: what the nodes hold after any sequence of calls (up to the first illegal one, see `C15_history`) is a binary tree whose nodes, from left to
right, have ascending keys, which is an AVL tree (at every node the heights of the two subtrees differ by at most one), and whose height is logarithmic. -/
theorem C16_balanced {s : St α} {l : Seq α} (h : Holds key lt s l) : ∃ t : T, Rep s.h s.h.root t ∧ t.ids = l.map Prod.fst ∧
    l.Pairwise (fun a b => lt (key a.2) (key b.2)) ∧ t.Bal ∧ Nat.fib (t.height + 2) ≤ s.size + 1 ∧ t.height ≤ 2 * Nat.log 2 (s.size + 1) + 1 := by
  have hs := (C15_sorted h).1
  obtain ⟨t, ev, hi, rfl⟩ := h
  have hf := bal_fib t hi.bal
  rw [← hi.pool.size] at hf
  refine ⟨t, hi.rep, ?_, hs, hi.bal, hf, ?_⟩
  · unfold seqOf; rw [List.map_map]; simp [Function.comp_def]
  · have hp := Nat.le_trans (fib_pow t.height) hf
    have := Nat.le_log_of_pow_le (by decide) hp
    omega

/-- **C16**: the work of a search.  A lookup in a container of `size` elements ends within `f` steps as soon as `size + 1 < fib (f + 2)`. -/
theorem C16_search_steps (hlt : StrictWeak lt) {s : St α} {l : Seq α} (h : Holds key lt s l) (k : K) (f : Nat) (hf : s.size + 1 < Nat.fib (f + 2)) :
    findLoop key lt s k s.h.root f = find key lt s k ∧ lowerLoop key lt s k s.h.root 0 f = lowerBound key lt s k ∧
    upperLoop key lt s k s.h.root 0 f = upperBound key lt s k := by
  obtain ⟨t, ev, hi, rfl⟩ := h
  have hb := bal_fib t hi.bal
  rw [← hi.pool.size] at hb
  have hh : t.height < f := by
    by_contra hc
    have := Nat.fib_mono (show f + 2 ≤ t.height + 2 by omega)
    omega
  refine ⟨?_, ?_, ?_⟩
  · obtain ⟨q, a1, a2⟩ := findLoop_ok (key := key) (k := k) hlt t s.h.root f hi.rep hi.vals hi.ord hh
    obtain ⟨q', b1, b2⟩ := findLoop_ok (key := key) (k := k) hlt t s.h.root (s.cap + 1) hi.rep hi.vals hi.ord hi.hfuel
    unfold find
    rw [a1, b1]
    rcases a2 with ⟨rfl, a2⟩ | ⟨a2, a3, a4⟩
    · rcases b2 with ⟨rfl, _⟩ | ⟨b2, b3, b4⟩
      · rfl
      · rcases a2 q' b2 with h | h
        · rw [b3] at h; cases h
        · rw [b4] at h; cases h
    · rcases b2 with ⟨rfl, b2⟩ | ⟨b2, b3, b4⟩
      · rcases b2 q a2 with h | h
        · rw [a3] at h; cases h
        · rw [a4] at h; cases h
      · have := hlt.incomp _ _ _ a3 a4 b4 b3
        rw [hi.uniq hlt a2 b2 this.1 this.2]
  · unfold lowerBound
    rw [lowerLoop_ok (key := key) (k := k) hlt t s.h.root 0 f hi.rep hi.vals hi.ord hh,
      lowerLoop_ok (key := key) (k := k) hlt t s.h.root 0 (s.cap + 1) hi.rep hi.vals hi.ord hi.hfuel]
  · unfold upperBound
    rw [upperLoop_ok (key := key) (k := k) hlt t s.h.root 0 f hi.rep hi.vals hi.ord hh hi.hfuel,
      upperLoop_ok (key := key) (k := k) hlt t s.h.root 0 (s.cap + 1) hi.rep hi.vals hi.ord hi.hfuel hi.hfuel]

/-! ## Examples -/

/-- Arbitrary contents of a fresh pool. -/
def junk0 : TH := { lim := 0, ch := fun p _ => p + 3, wt := fun _ => some true, dr := fun _ => some false, root := 5 }

def ltNat (a b : Nat) : Bool := decide (a < b)
theorem ltNat_weak : StrictWeak ltNat :=
  { irrefl := by simp [ltNat], trans := by simp only [ltNat, decide_eq_true_eq]; omega, incomp := by simp only [ltNat, decide_eq_false_iff_not]; omega }

/-- The results of a sequence of calls on a map from numbers to numbers with room for `cap` elements. -/
def runMap (isSet : Bool) (cap : Nat) (ops : List (Op (Nat × Nat) Nat)) : Res (List (Out (Nat × Nat))) :=
  (exec Prod.fst ltNat isSet (init cap junk0) ops).map Prod.snd

/-- A map of seven elements: insertion in ascending order (with rotations), removal of the root, lookups, bounds, iteration both ways. -/
example : runMap false 7 [.insertRange [(1, 10), (2, 20), (3, 30), (4, 40), (5, 50), (6, 60), (7, 70)], .insert (3, 99), .full, .eraseKey 4, .eraseKey 4, .forward, .backward,
      .find 6, .lowerBound 4, .upperBound 6, .at 4, .at 5, .index (fun k => (k, 0)) 4, .write 4 (fun e => (e.1, 44)), .forward, .eraseAt 4, .begin, .eraseRange 2 6, .forward, .size] =
    .ok [.done, .fail .full, .flag true, .num 1, .num 0, .elems [(1, 10), (2, 20), (3, 30), (5, 50), (6, 60), (7, 70)],
      .elems [(7, 70), (6, 60), (5, 50), (3, 30), (2, 20), (1, 10)], .pos 6, .pos 5, .pos 7, .fail .outOfBounds, .elem (5, 50), .pos 4, .done,
      .elems [(1, 10), (2, 20), (3, 30), (4, 44), (5, 50), (6, 60), (7, 70)], .pos 5, .pos 1, .pos 6, .elems [(1, 10), (6, 60), (7, 70)], .num 3] := rfl

/-- The hypotheses of `C15_step`, `C15_sorted`, `C16_balanced`, `C16_search_steps` for a container with three elements. -/
example : ∃ (s : St (Nat × Nat)) (l : Seq (Nat × Nat)), Holds Prod.fst ltNat s l ∧ l.map Prod.snd = [(1, 10), (2, 20), (3, 30)] ∧
    Legal Prod.fst l (.eraseAt 2 : Op (Nat × Nat) Nat) ∧ s.size + 1 < Nat.fib (4 + 2) := by
  let s1 : St (Nat × Nat) := ((exec Prod.fst ltNat false (init 4 junk0) [.insertRange [(3, 30), (2, 20), (1, 10)]]).toOption.get rfl).1
  let t1 : T := .mk false 2 none (.mk false 3 none .nil .nil) (.mk false 1 none .nil .nil)
  let ev1 : Nat → Nat × Nat := fun n => match n with
    | 3 => (1, 10)
    | 2 => (2, 20)
    | _ => (3, 30)
  have hrep : Rep s1.h s1.h.root t1 := by
    refine ⟨rfl, ⟨by decide, by decide⟩, rfl, fun d => ?_⟩
    cases d
    · exact ⟨rfl, ⟨by decide, by decide⟩, rfl, fun d => by cases d <;> rfl⟩
    · exact ⟨rfl, ⟨by decide, by decide⟩, rfl, fun d => by cases d <;> rfl⟩
  refine ⟨s1, seqOf t1 ev1, ⟨t1, ev1, { rep := hrep, bal := ?_, vals := ?_, pool := { lim := rfl, part := ?_, raw := ?_, size := rfl }, ord := ?_ }, rfl⟩, rfl,
    ⟨(2, (2, 20)), by decide, rfl⟩, by decide⟩
  · exact bal_mk.2 ⟨bal_leaf 3, bal_leaf 1, .inl ⟨rfl, rfl⟩⟩
  · intro m hm
    have : m = 3 ∨ m = 2 ∨ m = 1 := by simpa [t1, T.ids, T.ino, T.mk, sel] using hm
    rcases this with rfl | rfl | rfl <;> rfl
  · decide
  · intro m hm
    have : m = 4 := by simpa using (show m ∈ [4] from hm)
    subst this; rfl
  · decide

/-- `C15_move` moves from one map to a smaller one: the fourth element does not fit. -/
example : (do
      let (s, _) ← exec Prod.fst ltNat false (init 3 junk0) [.insert (9, 9)]
      let (o, _) ← exec Prod.fst ltNat false (init 5 junk0) [.insertRange [(4, 1), (3, 1), (2, 1), (1, 1)]]
      let (s, o, r) ← moveFrom Prod.fst ltNat false false (fun e => (e.1, 0)) s o
      .ok (← toList Prod.fst ltNat s, ← toList Prod.fst ltNat o, r) : Res _) =
    .ok ([(1, 1), (2, 1), (3, 1)], [(1, 0), (2, 0), (3, 0), (4, 1)], .error .full) := rfl

/-! ## Findings -/

/-- A full map refuses a key it already holds; a full set does not. -/
theorem insert_existing_when_full : runMap false 1 [.insert (1, 10), .insert (1, 11)] = .ok [.ins 1 true, .fail .full] ∧
    runMap true 1 [.insert (1, 10), .insert (1, 11)] = .ok [.ins 1 true, .ins 1 false] := ⟨rfl, rfl⟩

/-- The condition of `C15_move` is needed: elements of a set are moved from although their order among themselves is still needed to go on.  With a descending order and elements
that become 0 when moved from (an empty string is the least one), the traversal of the source loses its way: two of seven elements stay behind, and no error is reported. -/
theorem set_move_loses_elements :
    (do
      let (o, _) ← exec id (fun a b => ltNat b a) true (init 7 junk0) [.insertRange [1, 2, 3, 4, 5, 6, 7]]
      let (s, _, r) ← moveFrom id (fun a b => ltNat b a) true false (fun _ => 0) (init 7 junk0 : St Nat) o
      .ok (← toList id (fun a b => ltNat b a) s, r) : Res _) = .ok ([7, 6, 5, 4, 3], .ok ()) := rfl

end Etl.Tree
