import Verif.UMap.Core
import Mathlib.Tactic.Tauto

/-!
# What the operations of the unordered containers do
-/
namespace Etl.UMap

variable {κ ε : Type} {c : Cfg κ ε} {s : St ε} {m : List ε}

theorem live_inj {a b : List ε} (h : a.map Cell.live = b.map Cell.live) : a = b :=
  List.map_injective_iff.mpr (fun _ _ e => by injection e) h

theorem Sim.rest (h : Sim c s m) {it : It} {r : List Nat} {vs : List ε} (hp : Points s it r) (hv : r.map s.val = vs.map Cell.live) : rest s it = .ok vs := by
  refine walk_spec h _ r vs it hp hv ?_
  have ht := h.total
  have hl := h.len
  have : r.length ≤ (order s).length := by
    cases r with
    | nil => simp
    | cons i r =>
      obtain ⟨A, B, h1, h2, h3, h4⟩ := hp
      unfold order
      rw [spanN_at _ h2, h3, h4]
      have hp0 : (post s it.bkt).length = (spanN s.chain (s.nb - (it.bkt + 1)) (it.bkt + 1)).length := rfl
      simp; omega
  omega

theorem Sim.rest_end (h : Sim c s m) : UMap.rest s (endIt s) = .ok [] := by
  refine h.rest (r := []) ?_ rfl
  rfl

/-- A node of a bucket, with the elements before and after it. -/
theorem Sim.cut (h : Sim c s m) {b : Nat} (hb : b < s.nb) {A B : List Nat} {i : Nat} (hch : s.chain b = A ++ i :: B) :
    ∃ M1 v M2, m = M1 ++ v :: M2 ∧ (pre s b ++ A).map s.val = M1.map Cell.live ∧ s.val i = .live v ∧ (B ++ post s b).map s.val = M2.map Cell.live := by
  have hv := h.view
  have hord : order s = (pre s b ++ A) ++ i :: (B ++ post s b) := by
    unfold order
    rw [spanN_at _ hb, hch]; simp
  rw [hord, List.map_append] at hv
  obtain ⟨M1, M', e1, e2, e3⟩ := List.map_eq_append_iff.mp hv.symm
  cases M' with
  | nil => simp at e3
  | cons v M2 =>
    simp only [List.map_cons, List.cons.injEq] at e3
    exact ⟨M1, v, M2, e1, e2.symm, e3.1.symm, e3.2.symm⟩

theorem Sim.pointsNode (_h : Sim c s m) {b : Nat} (hb : b < s.nb) {A B : List Nat} {i : Nat} (hch : s.chain b = A ++ i :: B) : Points s ⟨b, .node i⟩ (i :: (B ++ post s b)) :=
  ⟨A, B, rfl, hb, hch, rfl⟩

theorem Sim.rest_node (h : Sim c s m) {b : Nat} (hb : b < s.nb) {A B : List Nat} {i : Nat} (hch : s.chain b = A ++ i :: B) {M1 M2 : List ε} {v : ε} (hm : m = M1 ++ v :: M2)
    (hl : (pre s b ++ A).length = M1.length) : UMap.rest s ⟨b, .node i⟩ = .ok (v :: M2) := by
  obtain ⟨N1, w, N2, e, h1, h2, h3⟩ := h.cut hb hch
  have hl' : N1.length = M1.length := by
    have := congrArg List.length h1
    simp only [List.length_map] at this
    omega
  rw [hm] at e
  obtain ⟨e1, e2⟩ := List.append_inj e hl'.symm
  injection e2 with e3 e4
  subst e3; subst e4
  refine h.rest (h.pointsNode hb hch) ?_
  simp [h2, h3]

theorem pre_congr {s s' : St ε} {b : Nat} (h : ∀ x, x ≠ b → s'.chain x = s.chain x) : pre s' b = pre s b :=
  spanN_congr _ _ (fun x _ h2 => h x (by omega))
theorem post_congr {s s' : St ε} {b : Nat} (h : ∀ x, x ≠ b → s'.chain x = s.chain x) (hn : s'.nb = s.nb) : post s' b = post s b := by
  show spanN s'.chain (s'.nb - (b + 1)) (b + 1) = _
  rw [hn]
  exact spanN_congr _ _ (fun x h1 _ => h x (by omega))

/-- A key that is there: the first one of the elements with that key. -/
def First (c : Cfg κ ε) (k : κ) (m M1 : List ε) (v : ε) (M2 : List ε) : Prop :=
  m = M1 ++ v :: M2 ∧ c.eq k (c.key v) = true ∧ ∀ w ∈ M1, c.eq k (c.key w) = false
/-- A key that is not there. -/
def Absent (c : Cfg κ ε) (k : κ) (m : List ε) : Prop := ∀ w ∈ m, c.eq k (c.key w) = false

theorem find_spec (hc : Ok c) (h : Sim c s m) (k : κ) :
    (Absent c k m ∧ find c s k = .ok (endIt s)) ∨
    (∃ M1 v M2 it, First c k m M1 v M2 ∧ find c s k = .ok it ∧ UMap.rest s it = .ok (v :: M2) ∧ eqIt it (endIt s) = false ∧ ∃ A i B, it = ⟨c.hash k % s.nb, .node i⟩ ∧ it.bkt < s.nb ∧
      s.chain it.bkt = A ++ i :: B ∧ (pre s it.bkt ++ A).map s.val = M1.map Cell.live ∧ s.val i = .live v ∧ (B ++ post s it.bkt).map s.val = M2.map Cell.live) := by
  obtain ⟨hb, hi, hbk, hcase⟩ := h.locate hc k _ rfl (fun v => c.eq k (c.key v)) (fun _ => rfl)
  rcases hcase with ⟨h1, h2⟩ | ⟨A, i, B, M1, v, M2, e1, e2, h1, h2, h3, h4, h5, h6⟩
  · exact Or.inl ⟨h1, by simp [find, hi, hbk, h2]⟩
  · refine Or.inr ⟨M1, v, M2, ⟨c.hash k % s.nb, .node i⟩, ⟨e2, h5, h4⟩, by simp [find, hi, hbk, h6], ?_, by simp [eqIt, endIt], A, i, B, rfl, hb, e1, h1, h2, h3⟩
    refine h.rest_node hb e1 e2 ?_
    have := congrArg List.length h1
    simpa using this

theorem count_spec (hc : Ok c) (h : Sim c s m) (k : κ) :
    (Absent c k m ∧ count c s k = .ok 0) ∨ (∃ M1 v M2, First c k m M1 v M2 ∧ count c s k = .ok 1) := by
  rcases find_spec hc h k with ⟨h1, h2⟩ | ⟨M1, v, M2, it, h1, h2, _, h4, _⟩
  · exact Or.inl ⟨h1, by simp [count, h2, eqIt]⟩
  · exact Or.inr ⟨M1, v, M2, h1, by simp [count, h2, h4]⟩

theorem at_spec (hc : Ok c) (h : Sim c s m) (k : κ) :
    (Absent c k m ∧ at? c s k = .ok (.error .range)) ∨ (∃ M1 v M2, First c k m M1 v M2 ∧ at? c s k = .ok (.ok v)) := by
  obtain ⟨hb, hi, hbk, hcase⟩ := h.locate hc k _ rfl (fun v => c.eq k (c.key v)) (fun _ => rfl)
  rcases hcase with ⟨h1, h2⟩ | ⟨A, i, B, M1, v, M2, e1, e2, h1, h2, h3, h4, h5, h6⟩
  · exact Or.inl ⟨h1, by simp [at?, hi, hbk, h2]⟩
  · refine Or.inr ⟨M1, v, M2, ⟨e2, h5, h4⟩, by simp [at?, hi, hbk, h6, read, h2]⟩

/-- A new element somewhere in its bucket. -/
theorem add_spec (h : Sim c s m) {b : Nat} (hb : b < s.nb) {A B : List Nat} (hch : s.chain b = A ++ B) {M1 M2 : List ε}
    (h1 : (pre s b ++ A).map s.val = M1.map Cell.live) (h2 : (B ++ post s b).map s.val = M2.map Cell.live) (v : ε) (hv : c.hash (c.key v) % s.nb = b) (hf : m.length ≠ s.cap) :
    ∃ s' it, add s b (lastLI .before A) v = .ok (s', .ok it) ∧ Sim c s' (M1 ++ v :: M2) ∧ s'.nb = s.nb ∧ s'.cap = s.cap ∧ UMap.rest s' it = .ok (v :: M2) ∧
      ∃ n, it = ⟨b, .node n⟩ ∧ s'.chain b = A ++ n :: B ∧ s'.val n = .live v := by
  obtain ⟨s', n, e, hs', hch', hn, hnb, hcap, hoth⟩ := (h.add hb hch h1 h2 v hv).2 hf
  refine ⟨s', _, e, hs', hnb, hcap, ?_, n, rfl, hch', hn⟩
  refine hs'.rest_node (by omega) hch' rfl ?_
  rw [pre_congr hoth]
  have := congrArg List.length h1
  simpa using this

/-- The end of the bucket. -/
theorem split_end (h : Sim c s m) {b : Nat} (hb : b < s.nb) :
    ∃ M1 M2, m = M1 ++ M2 ∧ (pre s b ++ s.chain b).map s.val = M1.map Cell.live ∧ ([] ++ post s b).map s.val = M2.map Cell.live := by
  obtain ⟨M1, Mb, M2, e, e1, e2, e3⟩ := h.split hb
  exact ⟨M1 ++ Mb, M2, by simp [e], by rw [List.map_append, List.map_append, e1, e2], by simpa using e3⟩
/-- The front of the bucket. -/
theorem split_front (h : Sim c s m) {b : Nat} (hb : b < s.nb) :
    ∃ M1 M2, m = M1 ++ M2 ∧ (pre s b ++ []).map s.val = M1.map Cell.live ∧ (s.chain b ++ post s b).map s.val = M2.map Cell.live := by
  obtain ⟨M1, Mb, M2, e, e1, e2, e3⟩ := h.split hb
  exact ⟨M1, Mb ++ M2, by simp [e], by simpa using e1, by rw [List.map_append, List.map_append, e3, e2]⟩

theorem insertBody_spec (hc : Ok c) (h : Sim c s m) (v : ε) :
    ((∃ M1 w M2, First c (c.key v) m M1 w M2) ∧ insertBody c s v = .ok (s, .ok (endIt s, false))) ∨
    (Absent c (c.key v) m ∧ (m.length = s.cap → insertBody c s v = .ok (s, .error .noAlloc)) ∧
      (m.length ≠ s.cap → ∃ M1 M2 s' it, m = M1 ++ M2 ∧ insertBody c s v = .ok (s', .ok (it, true)) ∧ Sim c s' (M1 ++ v :: M2) ∧ s'.nb = s.nb ∧ s'.cap = s.cap ∧ UMap.rest s' it = .ok (v :: M2))) := by
  obtain ⟨hb, hi, hbk, hcase⟩ := h.locate hc (c.key v) _ rfl (fun w => c.eq (c.key w) (c.key v)) (fun w => hc.symm _ _)
  rcases hcase with ⟨h1, h2⟩ | ⟨A, i, B, M1, w, M2, e1, e2, h1, h2, h3, h4, h5, h6⟩
  · obtain ⟨M1, M2, e, f1, f2⟩ := split_end h hb
    refine Or.inr ⟨h1, ?_, ?_⟩
    · intro hf
      have := (h.add hb (List.append_nil _).symm f1 f2 v rfl).1 hf
      simp [insertBody, hi, hbk, h2, this]
    · intro hf
      obtain ⟨s', it, g1, g2, g3, g4, g5, _⟩ := add_spec h hb (List.append_nil _).symm f1 f2 v rfl hf
      exact ⟨M1, M2, s', it, e, by simp [insertBody, hi, hbk, h2, g1], g2, g3, g4, g5⟩
  · exact Or.inl ⟨⟨M1, w, M2, e2, h5, h4⟩, by simp [insertBody, hi, hbk, h6]⟩

/-- `insert` of the multi containers. -/
theorem insertMulti_spec (hc : Ok c) (h : Sim c s m) (v : ε) (hf : m.length ≠ s.cap) :
    ∃ M1 M2 s' it, m = M1 ++ M2 ∧ insertMulti c s v = .ok (s', .ok it) ∧ Sim c s' (M1 ++ v :: M2) ∧ s'.nb = s.nb ∧ s'.cap = s.cap ∧ UMap.rest s' it = .ok (v :: M2) ∧
      (Absent c (c.key v) m ∨ ∃ w M3, M2 = w :: M3 ∧ First c (c.key v) m M1 w M3) ∧ (Absent c (c.key v) m → ∀ w ∈ M1, ∀ x ∈ M2, c.eq (c.key w) (c.key x) = false) := by
  have hnf : ¬ full s = true := fun e => hf (h.full.mp e)
  obtain ⟨hb, hi, hbk, hcase⟩ := h.locate hc (c.key v) _ rfl (fun w => c.eq (c.key w) (c.key v)) (fun w => hc.symm _ _)
  rcases hcase with ⟨h1, h2⟩ | ⟨A, i, B, M1, w, M2, e1, e2, h1, h2, h3, h4, h5, h6⟩
  · obtain ⟨M1, M2, e, f1, f2⟩ := split_end h hb
    obtain ⟨s', it, g1, g2, g3, g4, g5, _⟩ := add_spec h hb (List.append_nil _).symm f1 f2 v rfl hf
    refine ⟨M1, M2, s', it, e, by simp [insertMulti, hnf, hi, hbk, h2, g1], g2, g3, g4, g5, Or.inl h1, ?_⟩
    intro _ w hw x hx
    obtain ⟨i, hi1, hi2⟩ := map_live_mem f1 hw
    obtain ⟨j, hj1, hj2⟩ := map_live_mem f2 hx
    obtain ⟨b2, hb2, hb2', hj3⟩ := mem_spanN.mp (by simpa using hj1)
    have q2 := h.home b2 (by omega) j hj3 x hj2
    have : ∃ b1, b1 ≤ c.hash (c.key v) % s.nb ∧ b1 < s.nb ∧ i ∈ s.chain b1 := by
      rcases List.mem_append.mp hi1 with hi1 | hi1
      · obtain ⟨x, a1, a2, a3⟩ := mem_spanN.mp hi1
        exact ⟨x, by omega, by omega, a3⟩
      · exact ⟨_, Nat.le_refl _, hb, hi1⟩
    obtain ⟨b1, c1, c2, c3⟩ := this
    have q1 := h.home b1 c2 i c3 w hi2
    by_contra hne
    have := hc.hash _ _ (by simpa using hne)
    rw [this] at q1
    omega
  · obtain ⟨s', it, g1, g2, g3, g4, g5, _⟩ := add_spec (M1 := M1) (M2 := w :: M2) h hb e1 h1 (by simp only [List.cons_append, List.map_cons, h2]; rw [h3]) v rfl hf
    refine ⟨M1, w :: M2, s', it, e2, by simp [insertMulti, hnf, hi, hbk, h6, g1], g2, g3, g4, g5, Or.inr ⟨w, M2, rfl, e2, h5, h4⟩, ?_⟩
    intro ha
    have := ha w (by rw [e2]; simp)
    rw [h5] at this; exact absurd this (by simp)

/-- Overwriting an element with another one of the same key. -/
theorem Sim.write (h : Sim c s m) {b : Nat} (hb : b < s.nb) {A B : List Nat} {i : Nat} (hch : s.chain b = A ++ i :: B) {M1 M2 : List ε} {v : ε} (v' : ε)
    (h1 : (pre s b ++ A).map s.val = M1.map Cell.live) (hi : s.val i = .live v) (h2 : (B ++ post s b).map s.val = M2.map Cell.live) (hk : c.hash (c.key v') = c.hash (c.key v)) :
    Sim c { s with val := upd s.val i (.live v') } (M1 ++ v' :: M2) := by
  have hord : order s = (pre s b ++ A) ++ i :: (B ++ post s b) := by
    unfold order
    rw [spanN_at _ hb, hch]; simp
  have hio : i ∈ order s := by rw [hord]; simp
  have hon : (order s).Nodup := (List.nodup_append.mp h.nodup).1
  rw [hord] at hon
  have hiA : i ∉ pre s b ++ A := notin_left hon
  have hiB : i ∉ B ++ post s b := (List.nodup_cons.mp (List.nodup_append.mp hon).2.1).1
  refine ⟨h.nb, h.firstLt, h.lastLt, h.perm, ?_, ?_, ?_, h.low, h.fst⟩
  · intro j hj
    have hne : j ≠ i := by
      intro e
      have hj' : j ∈ s.free := hj
      exact (List.nodup_append.mp h.nodup).2.2 i hio j hj' e.symm
    show upd s.val i (.live v') j = .raw
    rw [upd_other _ _ hne]; exact h.raw j hj
  · show (order s).map (upd s.val i (.live v')) = _
    rw [hord, List.map_append, List.map_cons, map_upd_notin hiA, map_upd_notin hiB, h1, h2, upd_same]; simp
  · intro b' hb' j hj w hw
    have hw' : upd s.val i (.live v') j = .live w := hw
    show c.hash (c.key w) % s.nb = b'
    by_cases e : j = i
    · rw [e, upd_same] at hw'
      have hww : v' = w := by injection hw'
      have hj' : j ∈ s.chain b' := hj
      rw [← hww, hk]
      exact h.home b' hb' j hj' v (by rw [e]; exact hi)
    · rw [upd_other _ _ e] at hw'
      exact h.home b' hb' j hj w hw'

theorem subscript_spec (hc : Ok c) (h : Sim c s m) (k : κ) (d : ε) (f : ε → ε) (hd : c.key d = k) (hf : ∀ v, c.key (f v) = c.key v) :
    (∃ M1 v M2 s', First c k m M1 v M2 ∧ subscript c s k d f = .ok (s', .ok v) ∧ Sim c s' (M1 ++ f v :: M2) ∧ s'.nb = s.nb ∧ s'.cap = s.cap) ∨
    (Absent c k m ∧ (m.length = s.cap → subscript c s k d f = .ok (s, .error .noAlloc)) ∧
      (m.length ≠ s.cap → ∃ M1 M2 s', m = M1 ++ M2 ∧ subscript c s k d f = .ok (s', .ok d) ∧ Sim c s' (M1 ++ f d :: M2) ∧ s'.nb = s.nb ∧ s'.cap = s.cap)) := by
  obtain ⟨hb, hi, hbk, hcase⟩ := h.locate hc k _ rfl (fun v => c.eq k (c.key v)) (fun _ => rfl)
  rcases hcase with ⟨h1, h2⟩ | ⟨A, i, B, M1, v, M2, e1, e2, h1, h2, h3, h4, h5, h6⟩
  · obtain ⟨M1, M2, e, f1, f2⟩ := split_front h hb
    refine Or.inr ⟨h1, ?_, ?_⟩
    · intro hfull
      have := (h.add (A := []) hb rfl f1 f2 d (by rw [hd])).1 hfull
      have this' : add s (c.hash k % s.nb) .before d = .ok (s, .error .noAlloc) := this
      simp [subscript, hi, hbk, h2, this']
    · intro hfull
      obtain ⟨s', it, g1, g2, g3, g4, g5, n, g6, g7, g8⟩ := add_spec (A := []) h hb rfl f1 f2 d (by rw [hd]) hfull
      have g1' : add s (c.hash k % s.nb) .before d = .ok (s', .ok it) := g1
      have hb' : c.hash k % s.nb < s'.nb := by omega
      have hcut := g2.cut (A := []) hb' g7
      obtain ⟨N1, w, N2, x1, x2, x3, x4⟩ := hcut
      have hw : w = d := by rw [g8] at x3; injection x3 with x3; exact x3.symm
      rw [hw] at x1 x3
      obtain ⟨y1, y2⟩ := List.append_inj x1 (by
        have a1 := congrArg List.length f1
        have a2 := congrArg List.length x2
        simp only [List.length_map, List.append_nil] at a1 a2
        rw [← a1, ← a2]
        obtain ⟨s'', n', g1'', _, _, _, _, _, hoth⟩ := (h.add (A := []) hb rfl f1 f2 d (by rw [hd])).2 hfull
        have : s'' = s' := by
          have g1c : add s (c.hash k % s.nb) .before d = .ok (s'', .ok ⟨_, .node n'⟩) := g1''
          rw [g1'] at g1c
          injection g1c with g1c
          injection g1c with g1c _
          exact g1c.symm
        rw [this] at hoth
        rw [show pre s' (c.hash k % s.nb) = pre s (c.hash k % s.nb) from pre_congr hoth])
      injection y2 with _ y2
      rw [← y1] at x2
      rw [← y2] at x4
      have hwr := g2.write (A := []) hb' g7 (f d) x2 g8 x4 (by rw [hf])
      refine ⟨M1, M2, _, e, ?_, hwr, g3, g4⟩
      have g7' : s'.chain (c.hash k % s.nb) = n :: s.chain (c.hash k % s.nb) := g7
      simp [subscript, hi, hbk, h2, g1', g7', headLI, read, g8]
  · refine Or.inl ⟨M1, v, M2, { s with val := upd s.val i (.live (f v)) }, ⟨e2, h5, h4⟩, by simp [subscript, hi, hbk, h6, read, h2], h.write hb e1 (f v) h1 h2 h3 (by rw [hf]), rfl, rfl⟩

theorem eraseKey_spec (hc : Ok c) (h : Sim c s m) (k : κ) :
    (Absent c k m ∧ eraseKey c s k = .ok (s, 0)) ∨
    (∃ M1 v M2 s', First c k m M1 v M2 ∧ eraseKey c s k = .ok (s', 1) ∧ Sim c s' (M1 ++ M2) ∧ s'.nb = s.nb ∧ s'.cap = s.cap) := by
  obtain ⟨hb, hi, hbk, hcase⟩ := h.locate hc k _ rfl (fun w => c.eq (c.key w) k) (fun w => hc.symm _ _)
  rcases hcase with ⟨h1, h2⟩ | ⟨A, i, B, M1, v, M2, e1, e2, h1, h2, h3, h4, h5, h6⟩
  · exact Or.inl ⟨h1, by simp [eraseKey, hi, hbk, h2]⟩
  · obtain ⟨s', g1, g2, _, g4, g5, _⟩ := h.delete hb e1 h1 h2 h3
    exact Or.inr ⟨M1, v, M2, s', ⟨e2, h5, h4⟩, by simp [eraseKey, hi, hbk, h6, g1], g2, g4, g5⟩

theorem skip_ge (s : St ε) (n b : Nat) : b ≤ skip s n b := by
  induction n generalizing b with
  | zero => exact Nat.le_refl _
  | succ n ih =>
    simp only [skip]
    split_ifs
    · have := ih (b + 1); omega
    · exact Nat.le_refl _

theorem next_ge {it it' : It} (h : next s it = .ok it') : it.bkt ≤ it'.bkt := by
  unfold next at h
  split at h
  · exact absurd h (by simp)
  · split at h
    · exact absurd h (by simp)
    · split_ifs at h
      · injection h with h
        rw [← h]
        have := skip_ge s (s.nb - (it.bkt + 1)) (it.bkt + 1)
        show it.bkt ≤ skip s (s.nb - (it.bkt + 1)) (it.bkt + 1)
        omega
      · injection h with h
        rw [← h]
        exact Nat.le_refl _

/-- `erase(iterator)`: the element goes, and the iterator behind it still stands at the same place. -/
theorem eraseIt_spec (h : Sim c s m) {it : It} {i : Nat} {r : List Nat} (hp : Points s it (i :: r)) :
    ∃ M1 v M2 s' it', m = M1 ++ v :: M2 ∧ UMap.rest s it = .ok (v :: M2) ∧ M2.length = r.length ∧ eraseIt s it = .ok (s', it') ∧ Sim c s' (M1 ++ M2) ∧ s'.nb = s.nb ∧ s'.cap = s.cap ∧
      UMap.rest s' it' = .ok M2 := by
  have hp' := hp
  obtain ⟨A, B, h1, h2, h3, h4⟩ := hp
  obtain ⟨M1, v, M2, e, e1, e2, e3⟩ := h.cut h2 h3
  obtain ⟨s', g1, g2, g3, g4, g5, g6⟩ := h.delete h2 h3 e1 e2 e3
  obtain ⟨it', hn, hpn⟩ := next_spec h hp'
  have hnd : (A ++ i :: B).Nodup := h3 ▸ h.chainNodup h2
  have hon : (order s).Nodup := (List.nodup_append.mp h.nodup).1
  have hir : i ∉ r := by
    unfold order at hon
    rw [spanN_at _ h2, h3] at hon
    have hon' : ((pre s it.bkt ++ A) ++ i :: r).Nodup := by rw [h4]; simpa using hon
    exact (List.nodup_cons.mp (List.nodup_append.mp hon').2.1).1
  refine ⟨M1, v, M2, s', it', e, ?_, ?_, ?_, g2, g4, g5, ?_⟩
  · exact h.rest hp' (by rw [h4, List.map_cons, e2, e3]; rfl)
  · have := congrArg List.length e3
    rw [h4]; simpa using this.symm
  · unfold eraseIt
    rw [h1]
    simp only [hn, h.bucket h2]
    rw [h3, previous_at A B i .before (notin_left hnd)]
    simp only [g1]
  · refine g2.rest (r := r) ?_ ?_
    · cases r with
      | nil => exact hpn
      | cons j r =>
        obtain ⟨A2, B2, k1, k2, k3, k4⟩ := hpn
        by_cases hbb : it'.bkt = it.bkt
        · -- the same bucket
          have hB : ∃ B', B = j :: B' := by
            cases B with
            | nil =>
              exfalso
              simp only [List.nil_append] at h4
              have hj : j ∈ post s it.bkt := by rw [← h4]; exact List.mem_cons_self
              have hjc : j ∈ s.chain it.bkt := by rw [← hbb, k3]; simp
              have := hon
              unfold order at this
              rw [spanN_at _ h2] at this
              exact (List.nodup_append.mp (List.nodup_append.mp this).2.1).2.2 j hjc j hj rfl
            | cons j' B' =>
              simp only [List.cons_append, List.cons.injEq] at h4
              exact ⟨B', by rw [h4.1]⟩
          obtain ⟨B', hB⟩ := hB
          refine ⟨A, B', k1, by omega, ?_, ?_⟩
          · rw [g3, hbb, upd_same, hB]
          · rw [hB] at h4
            simp only [List.cons_append, List.cons.injEq, true_and] at h4
            rw [h4, hbb]
            rw [post_congr (s := s) (s' := s') (b := it.bkt) (by intro x hx; rw [g3]; exact upd_other _ _ hx) g4]
        · refine ⟨A2, B2, k1, by omega, by rw [g3, upd_other _ _ hbb]; exact k3, ?_⟩
          rw [k4]
          congr 1
          show _ = spanN s'.chain (s'.nb - (it'.bkt + 1)) (it'.bkt + 1)
          rw [g4, g3]
          refine spanN_congr _ _ (fun x hx1 hx2 => ?_)
          have := next_ge hn
          exact (upd_other _ _ (by omega)).symm
    · rw [g6, map_upd_notin hir, h4, e3]

/-! ### clear -/

theorem destroyAll_spec (l : List Nat) : ∀ (val : Nat → Cell ε), l.Nodup → (∀ i ∈ l, ∃ v, val i = .live v) →
    ∃ val', destroyAll val l = .ok val' ∧ ∀ j, val' j = if j ∈ l then .raw else val j := by
  induction l with
  | nil => intro val _ _; exact ⟨val, rfl, fun j => by simp⟩
  | cons i l ih =>
    intro val hn hl
    obtain ⟨v, hv⟩ := hl i List.mem_cons_self
    have hn' := List.nodup_cons.mp hn
    obtain ⟨val', h1, h2⟩ := ih (upd val i .raw) hn'.2 (by
      intro j hj
      have : j ≠ i := fun e => hn'.1 (by rw [← e]; exact hj)
      rw [upd_other _ _ this]
      exact hl j (List.mem_cons_of_mem _ hj))
    refine ⟨val', by simp [destroyAll, hv, h1], ?_⟩
    intro j
    rw [h2 j]
    by_cases e : j = i
    · subst e; simp
    · rw [upd_other _ _ e]; simp [e]

theorem clearFrom_spec (n : Nat) : ∀ (s : St ε) (b : Nat), (spanN s.chain n b).Nodup → (∀ i ∈ spanN s.chain n b, ∃ v, s.val i = .live v) →
    ∃ s', clearFrom s n b = .ok s' ∧ s'.nb = s.nb ∧ s'.cap = s.cap ∧ (∀ x, s'.chain x = if b ≤ x ∧ x < b + n then [] else s.chain x) ∧
      (∀ j, s'.val j = if j ∈ spanN s.chain n b then .raw else s.val j) := by
  induction n with
  | zero =>
    intro s b _ _
    refine ⟨s, rfl, rfl, rfl, fun x => ?_, fun j => by simp [spanN]⟩
    rw [if_neg (by omega)]
  | succ n ih =>
    intro s b hn hl
    simp only [spanN] at hn hl
    have hn' := List.nodup_append.mp hn
    obtain ⟨val', h1, h2⟩ := destroyAll_spec (s.chain b) s.val hn'.1 (fun i hi => hl i (List.mem_append_left _ hi))
    have hsp : spanN (upd s.chain b []) n (b + 1) = spanN s.chain n (b + 1) := spanN_congr _ _ (fun x hx _ => upd_other _ _ (by omega))
    obtain ⟨s', g1, g2, g3, g4, g5⟩ := ih { s with val := val', chain := upd s.chain b [] } (b + 1) (by show (spanN (upd s.chain b []) n (b + 1)).Nodup; rw [hsp]; exact hn'.2.1) (by
      intro i hi
      have hi' : i ∈ spanN s.chain n (b + 1) := by rw [← hsp]; exact hi
      show ∃ v, val' i = .live v
      rw [h2 i, if_neg (fun e => hn'.2.2 i e i hi' rfl)]
      exact hl i (List.mem_append_right _ hi'))
    refine ⟨s', by simp [clearFrom, h1, g1], g2, g3, ?_, ?_⟩
    · intro x
      rw [g4 x]
      show (if b + 1 ≤ x ∧ x < b + 1 + n then [] else upd s.chain b [] x) = _
      by_cases e : x = b
      · subst e; rw [upd_same]; simp
      · rw [upd_other _ _ e]
        by_cases e2 : b ≤ x ∧ x < b + (n + 1)
        · rw [if_pos e2, if_pos (by omega)]
        · rw [if_neg e2, if_neg (by omega)]
    · intro j
      rw [g5 j]
      show (if j ∈ spanN (upd s.chain b []) n (b + 1) then Cell.raw else val' j) = _
      rw [hsp, h2 j]
      simp only [spanN, List.mem_append]
      by_cases e1 : j ∈ s.chain b <;> by_cases e2 : j ∈ spanN s.chain n (b + 1) <;> simp [e1, e2]

theorem clear_spec (h : Sim c s m) : ∃ s', clear s = .ok s' ∧ Sim c s' [] ∧ s'.nb = s.nb ∧ s'.cap = s.cap := by
  by_cases he : empty s = true
  · have hm := h.empty.mp he
    have hon : order s = [] := by
      have := h.len; rw [hm] at this
      exact List.length_eq_zero_iff.mp this
    refine ⟨{ s with first := 0, last := 0 }, by simp [clear, he], ?_, rfl, rfl⟩
    exact ⟨h.nb, h.nb, h.nb, h.perm, h.raw, hm ▸ h.view, h.home, fun _ hb => absurd hb (Nat.not_lt_zero _), fun hne => absurd hon hne⟩
  · obtain ⟨s', g1, g2, g3, g4, g5⟩ := clearFrom_spec s.nb s 0 (List.nodup_append.mp h.nodup).1 (by
      intro i hi
      have : s.val i ∈ (order s).map s.val := List.mem_map_of_mem hi
      rw [h.view] at this
      obtain ⟨v, _, e⟩ := List.mem_map.mp this
      exact ⟨v, e.symm⟩)
    have ho : ∀ f, spanN s'.chain s'.nb f = [] ∨ f ≠ 0 := by
      intro f
      by_cases hf : f = 0
      · left
        subst hf
        refine spanN_nil (fun x _ hx => ?_)
        rw [g4 x, if_pos (by omega)]
      · exact Or.inr hf
    have hon : spanN s'.chain s'.nb 0 = [] := (ho 0).resolve_right (by simp)
    refine ⟨{ s' with free := List.range s'.cap, first := 0, last := 0 }, by simp [clear, he, g1], ?_, g2, g3⟩
    have hnb := h.nb
    refine ⟨by show 0 < s'.nb; omega, by show 0 < s'.nb; omega, by show 0 < s'.nb; omega, ?_, ?_, ?_, ?_, fun _ hb => absurd hb (Nat.not_lt_zero _), fun hne => absurd hon hne⟩
    · show (spanN s'.chain s'.nb 0 ++ List.range s'.cap).Perm (List.range s'.cap)
      rw [hon]; exact List.Perm.refl _
    · intro i hi
      show s'.val i = .raw
      have hi' : i ∈ List.range s'.cap := hi
      rw [g3] at hi'
      have := h.perm.mem_iff.mpr hi'
      rw [g5 i]
      rcases List.mem_append.mp this with e | e
      · rw [if_pos (show i ∈ spanN s.chain s.nb 0 from e)]
      · split_ifs
        · rfl
        · exact h.raw i e
    · show (spanN s'.chain s'.nb 0).map s'.val = _
      rw [hon]; rfl
    · intro b hb i hi
      have hb' : b < s'.nb := hb
      have hi' : i ∈ s'.chain b := hi
      rw [g4 b, if_pos (by omega)] at hi'
      exact absurd hi' List.not_mem_nil

/-! ### The multi containers -/

/-- The parts of the elements, from their lengths. -/
theorem Sim.parts (h : Sim c s m) {b : Nat} (hb : b < s.nb) {A R : List Nat} (hch : s.chain b = A ++ R) {M1 VR M2 : List ε} (hm : m = M1 ++ (VR ++ M2))
    (hl : (pre s b ++ A).length = M1.length) (hr : R.length = VR.length) :
    (pre s b ++ A).map s.val = M1.map Cell.live ∧ R.map s.val = VR.map Cell.live ∧ (post s b).map s.val = M2.map Cell.live := by
  have hv := h.view
  have hord : order s = (pre s b ++ A) ++ (R ++ post s b) := by
    unfold order
    rw [spanN_at _ hb, hch]; simp
  have hv' : (pre s b ++ A).map s.val ++ (R ++ post s b).map s.val = M1.map Cell.live ++ (VR ++ M2).map Cell.live := by
    rw [← List.map_append, ← List.map_append, ← hord, ← hm]; exact hv
  obtain ⟨e1, e2⟩ := List.append_inj hv' (by simp only [List.length_map]; exact hl)
  rw [List.map_append, List.map_append] at e2
  obtain ⟨e3, e4⟩ := List.append_inj e2 (by simp only [List.length_map]; exact hr)
  exact ⟨e1, e3, e4⟩

theorem eraseAll_spec (b : Nat) (k : κ) (R : List Nat) : ∀ (s : St ε) (m : List ε) (A : List Nat) (M1 VR M2 : List ε) (n : Nat), Sim c s m → b < s.nb → s.chain b = A ++ R → m = M1 ++ (VR ++ M2) →
    (pre s b ++ A).length = M1.length → R.length = VR.length →
    ∃ s', eraseAll c b k R s (lastLI .before A) n = .ok (s', n + (VR.filter (fun v => c.eq (c.key v) k)).length) ∧ Sim c s' (M1 ++ (VR.filter (fun v => !c.eq (c.key v) k) ++ M2)) ∧ s'.nb = s.nb ∧ s'.cap = s.cap := by
  induction R with
  | nil =>
    intro s m A M1 VR M2 n h hb hch hm hl hr
    have : VR = [] := List.length_eq_zero_iff.mp hr.symm
    subst this
    exact ⟨s, by simp [eraseAll], by simpa [hm] using h, rfl, rfl⟩
  | cons i R ih =>
    intro s m A M1 VR M2 n h hb hch hm hl hr
    cases VR with
    | nil => simp at hr
    | cons v VR =>
      obtain ⟨p1, p2, p3⟩ := h.parts hb hch hm hl hr
      simp only [List.map_cons, List.cons.injEq] at p2
      have hread : read s i = .ok v := by simp [read, p2.1]
      cases he : c.eq (c.key v) k with
      | true =>
        obtain ⟨s', g1, g2, g3, g4, g5, g6⟩ := h.delete hb hch p1 p2.1 (M2 := VR ++ M2) (by rw [List.map_append, List.map_append, p2.2, p3])
        have hch' : s'.chain b = A ++ R := by rw [g3, upd_same]
        have hpre : pre s' b = pre s b := pre_congr (by intro x hx; rw [g3]; exact upd_other _ _ hx)
        obtain ⟨s'', q1, q2, q3, q4⟩ := ih s' _ A M1 VR M2 (n + 1) g2 (by omega) hch' rfl (by rw [hpre]; exact hl) (by simpa using hr)
        have hst : (lastLI .before A).step (s'.chain b) = .ok (headLI R) := by
          rw [hch']
          exact step_last A R (hch' ▸ g2.chainNodup (by omega))
        refine ⟨s'', ?_, ?_, by omega, by omega⟩
        · rw [eraseAll, hread]
          simp only [he, if_true, g1, hst, q1]
          rw [List.filter_cons_of_pos (by simp [he])]
          simp only [List.length_cons]
          rw [show n + 1 + (List.filter (fun v => c.eq (c.key v) k) VR).length = n + ((List.filter (fun v => c.eq (c.key v) k) VR).length + 1) by omega]
        · rw [List.filter_cons_of_neg (by simp [he])]; exact q2
      | false =>
        have hls : lastLI .before (A ++ [i]) = .node i := lastLI_append _ _ _
        obtain ⟨s', q1, q2, q3, q4⟩ := ih s m (A ++ [i]) (M1 ++ [v]) VR M2 n h hb (by simp [hch]) (by simp [hm]) (by
          simp only [List.length_append, List.length_cons, List.length_nil] at hl ⊢
          omega) (by simpa using hr)
        rw [hls] at q1
        refine ⟨s', ?_, ?_, q3, q4⟩
        · rw [eraseAll, hread]
          simp only [he, Bool.false_eq_true, if_false]
          rw [q1, List.filter_cons_of_neg (by simp [he])]
        · rw [List.filter_cons_of_pos (by simp [he])]
          simpa using q2

theorem eraseMulti_spec (hc : Ok c) (h : Sim c s m) (k : κ) :
    ∃ s', eraseMulti c s k = .ok (s', (m.filter (fun v => c.eq (c.key v) k)).length) ∧ Sim c s' (m.filter (fun v => !c.eq (c.key v) k)) ∧ s'.nb = s.nb ∧ s'.cap = s.cap := by
  have hb : c.hash k % s.nb < s.nb := Nat.mod_lt _ h.nb
  obtain ⟨M1, Mb, M2, e, e1, e2, e3⟩ := h.split hb
  have o1 : ∀ w ∈ M1, c.eq k (c.key w) = false := by
    refine Sim.other hc h rfl e1 ?_
    intro i hi
    obtain ⟨x, h1, h2, h3⟩ := mem_spanN.mp hi
    exact ⟨x, by omega, by omega, h3⟩
  have o2 : ∀ w ∈ M2, c.eq k (c.key w) = false := by
    refine Sim.other hc h rfl e3 ?_
    intro i hi
    obtain ⟨x, h1, h2, h3⟩ := mem_spanN.mp hi
    exact ⟨x, by omega, by omega, h3⟩
  obtain ⟨s', g1, g2, g3, g4⟩ := eraseAll_spec (c := c) _ k (s.chain (c.hash k % s.nb)) s m [] M1 Mb M2 0 h hb rfl e (by have := congrArg List.length e1; simpa using this) (by have := congrArg List.length e2; simpa using this)
  have f1 : M1.filter (fun v => c.eq (c.key v) k) = [] := by
    rw [List.filter_eq_nil_iff]; intro a ha; rw [hc.symm, o1 a ha]; simp
  have f2 : M2.filter (fun v => c.eq (c.key v) k) = [] := by
    rw [List.filter_eq_nil_iff]; intro a ha; rw [hc.symm, o2 a ha]; simp
  have f3 : M1.filter (fun v => !c.eq (c.key v) k) = M1 := by
    rw [List.filter_eq_self]; intro a ha; rw [hc.symm, o1 a ha]; rfl
  have f4 : M2.filter (fun v => !c.eq (c.key v) k) = M2 := by
    rw [List.filter_eq_self]; intro a ha; rw [hc.symm, o2 a ha]; rfl
  refine ⟨s', ?_, ?_, g3, g4⟩
  · have g1' : eraseAll c (c.hash k % s.nb) k (s.chain (c.hash k % s.nb)) s .before 0 = _ := g1
    simp only [eraseMulti, h.index, h.bucket hb, g1']
    rw [e, List.filter_append, List.filter_append, f1, f2]
    simp
  · rw [e, List.filter_append, List.filter_append, f3, f4]; exact g2

theorem equalEnd_spec (h : Sim c s m) (k : κ) (fuel : Nat) : ∀ (r : List Nat) (vs : List ε) (it : It) (n : Nat), Points s it r → r.map s.val = vs.map Cell.live → r.length < fuel →
    ∃ it' r', equalEnd c s k fuel it n = .ok (it', n + (vs.takeWhile (fun v => c.eq k (c.key v))).length) ∧ Points s it' r' ∧ r'.map s.val = (vs.dropWhile (fun v => c.eq k (c.key v))).map Cell.live := by
  induction fuel with
  | zero => intro r vs it n _ _ hl; exact absurd hl (Nat.not_lt_zero _)
  | succ fuel ih =>
    intro r vs it n hp hv hl
    cases r with
    | nil =>
      have : vs = [] := by simpa using hv.symm
      subst this
      exact ⟨it, [], by rw [equalEnd, if_pos (hp.atEnd.mpr rfl)]; rfl, hp, rfl⟩
    | cons i r =>
      cases vs with
      | nil => simp at hv
      | cons v vs =>
        simp only [List.map_cons, List.cons.injEq] at hv
        obtain ⟨it', hn, hp'⟩ := next_spec h hp
        have hd : deref s it = .ok v := by
          obtain ⟨A, B, h1, _⟩ := hp
          simp [deref, h1, read, hv.1]
        have hne : ¬ eqIt it (endIt s) = true := fun e => by
          have := hp.atEnd.mp e; simp at this
        cases he : c.eq k (c.key v) with
        | true =>
          obtain ⟨it'', r', g1, g2, g3⟩ := ih r vs it' (n + 1) hp' hv.2 (by simpa using hl)
          refine ⟨it'', r', ?_, g2, ?_⟩
          · rw [equalEnd, if_neg hne, hd]
            simp only [he, if_true, hn, g1]
            rw [List.takeWhile_cons_of_pos (by simp [he])]
            simp only [List.length_cons]
            congr 2; omega
          · rw [List.dropWhile_cons_of_pos (by simp [he])]; exact g3
        | false =>
          refine ⟨it, i :: r, ?_, hp, ?_⟩
          · rw [equalEnd, if_neg hne, hd]
            simp [he]
          · rw [List.dropWhile_cons_of_neg (by simp [he])]
            simp [hv.1, hv.2]

theorem equalRangeMulti_spec (hc : Ok c) (h : Sim c s m) (k : κ) :
    (Absent c k m ∧ equalRangeMulti c s k = .ok (endIt s, endIt s, 0)) ∨
    (∃ M1 v M2 f l, First c k m M1 v M2 ∧ equalRangeMulti c s k = .ok (f, l, 1 + (M2.takeWhile (fun v => c.eq k (c.key v))).length) ∧ UMap.rest s f = .ok (v :: M2) ∧
      UMap.rest s l = .ok (M2.dropWhile (fun v => c.eq k (c.key v)))) := by
  rcases find_spec hc h k with ⟨h1, h2⟩ | ⟨M1, v, M2, it, h1, h2, h3, h4, A, i, B, h5, h6, h7, h8, h9, h10⟩
  · exact Or.inl ⟨h1, by simp [equalRangeMulti, h2, eqIt]⟩
  · have hp := h.pointsNode h6 h7
    obtain ⟨it', hn, hp'⟩ := next_spec h hp
    have hit : it = ⟨it.bkt, .node i⟩ := by rw [h5]
    have hlen : (B ++ post s it.bkt).length < s.cap + 1 := by
      have a1 := congrArg List.length h10
      simp only [List.length_map] at a1
      have a2 := congrArg List.length h1.1
      simp only [List.length_append, List.length_cons] at a2
      have a3 := h.total
      omega
    obtain ⟨l, r', g1, g2, g3⟩ := equalEnd_spec (c := c) h k (s.cap + 1) _ M2 it' 1 hp' h10 hlen
    refine Or.inr ⟨M1, v, M2, it, l, h1, ?_, h3, h.rest g2 g3⟩
    rw [← hit] at hn
    simp only [equalRangeMulti, h2, h4, hn, Bool.false_eq_true, if_false]
    rw [g1]

/-! ### erase(first, last) -/

/-- Bucket `b` is the one of the last element. -/
def LastIs (s : St ε) (b : Nat) : Prop := b < s.nb ∧ s.chain b ≠ [] ∧ ∀ x, b < x → x < s.nb → s.chain x = []

theorem eraseLoop_spec (iend : LI) (pend : Nat) (R T : List Nat) (hT : headLI T = iend) (fuel : Nat) : ∀ (s : St ε) (m : List ε) (b : Nat) (A B : List Nat) (M1 VR M2 : List ε),
    Sim c s m → b < s.nb → s.chain b = A ++ B → R ++ T = B ++ post s b → R ≠ [] → B ≠ [] → m = M1 ++ (VR ++ M2) → (pre s b ++ A).length = M1.length → R.length = VR.length → R.length < fuel →
    (∀ t T', T = t :: T' → pend < s.nb ∧ t ∈ s.chain pend) → (T = [] → LastIs s pend) →
    ∃ s', eraseLoop iend pend fuel s b (lastLI .before A) (headLI B) = .ok s' ∧ Sim c s' (M1 ++ M2) ∧ s'.nb = s.nb ∧ s'.cap = s.cap ∧ (∀ x, x < b → s'.chain x = s.chain x) ∧ ∃ B', s'.chain b = A ++ B' := by
  induction R generalizing fuel with
  | nil => intros; contradiction
  | cons i R ih =>
    intro s m b A B M1 VR M2 h hb hch hrt _ hB hm hl hr hfu ht1 ht2
    obtain ⟨fuel, rfl⟩ : ∃ f, fuel = f + 1 := ⟨fuel - 1, by simp at hfu; omega⟩
    obtain ⟨B, rfl⟩ : ∃ B', B = i :: B' := by
      cases B with
      | nil => exact absurd rfl hB
      | cons j B' =>
        simp only [List.cons_append, List.cons.injEq] at hrt
        exact ⟨B', by rw [hrt.1]⟩
    simp only [List.cons_append, List.cons.injEq, true_and] at hrt
    cases VR with
    | nil => simp at hr
    | cons v VR =>
    have hr' : R.length = VR.length := by simpa using hr
    obtain ⟨N1, w, N2, e, n1, n2, n3⟩ := h.cut hb hch
    have hNl : N1.length = M1.length := by
      have := congrArg List.length n1
      simp only [List.length_map] at this
      omega
    rw [hm] at e
    obtain ⟨z1, z2⟩ := List.append_inj e hNl.symm
    simp only [List.cons_append, List.cons.injEq] at z2
    rw [← z1] at n1
    rw [← z2.1] at n2
    rw [← z2.2] at n3
    obtain ⟨s', g1, g2, g3, g4, g5, g6⟩ := h.delete hb hch n1 n2 n3
    -- the nodes are all different
    have hon : (order s).Nodup := (List.nodup_append.mp h.nodup).1
    have hord : order s = (pre s b ++ A) ++ i :: (R ++ T) := by
      unfold order
      rw [spanN_at _ hb, hch, hrt]; simp
    rw [hord] at hon
    have honi : (i :: (R ++ T)).Nodup := (List.nodup_append.mp hon).2.1
    have hiT : LI.node i ≠ iend := by
      intro e
      rw [← hT] at e
      cases T with
      | nil => simp [headLI] at e
      | cons t T' =>
        have : i = t := by simpa [headLI] using e
        exact (List.nodup_cons.mp honi).1 (by rw [this]; simp)
    have hch' : s'.chain b = A ++ B := by rw [g3, upd_same]
    have hoth : ∀ x, x ≠ b → s'.chain x = s.chain x := by intro x hx; rw [g3]; exact upd_other _ _ hx
    have hpost' : post s' b = post s b := post_congr hoth g4
    have hpre' : pre s' b = pre s b := pre_congr hoth
    have hhead : headLI (i :: B) = .node i := rfl
    rw [hhead]
    have hstep : eraseLoop iend pend (fuel + 1) s b (lastLI .before A) (.node i) =
        (if headLI B = iend ∧ b = pend then .ok s'
        else if headLI B = .term then (match seek s' (s'.nb - (b + 1)) (b + 1) with
          | .error u => .error u
          | .ok b => eraseLoop iend pend fuel s' b .before (headLI (s'.chain b)))
        else eraseLoop iend pend fuel s' b (lastLI .before A) (headLI B)) := by
      rw [eraseLoop, if_neg (fun hh => hiT hh.1)]
      simp only [g1]
      rfl
    rw [hstep]
    -- the conditions on the end of the range survive
    have ht1' : ∀ t T', T = t :: T' → pend < s'.nb ∧ t ∈ s'.chain pend := by
      intro t T' e
      obtain ⟨u1, u2⟩ := ht1 t T' e
      refine ⟨by omega, ?_⟩
      by_cases hpb : pend = b
      · rw [hpb] at u2 ⊢
        rw [hch] at u2
        rw [hch']
        simp only [List.mem_append, List.mem_cons] at u2 ⊢
        rcases u2 with u2 | u2 | u2
        · exact Or.inl u2
        · exfalso
          exact (List.nodup_cons.mp honi).1 (by rw [← u2, e]; simp)
        · exact Or.inr u2
      · rw [hoth _ hpb]; exact u2
    by_cases hR : R = []
    · subst hR
      have hVR : VR = [] := List.length_eq_zero_iff.mp hr'.symm
      subst hVR
      simp only [List.nil_append] at hrt g2
      cases T with
      | nil =>
        have hB0 : B = [] ∧ post s b = [] := List.append_eq_nil_iff.mp hrt.symm
        have hpb : b = pend := by
          obtain ⟨q1, q2, q3⟩ := ht2 rfl
          rcases Nat.lt_trichotomy b pend with hlt | heq | hgt
          · exfalso
            apply q2
            rw [List.eq_nil_iff_forall_not_mem]
            intro j hj
            have : j ∈ post s b := mem_spanN.mpr ⟨pend, by omega, by omega, hj⟩
            rw [hB0.2] at this; exact absurd this List.not_mem_nil
          · exact heq
          · have := q3 b hgt hb
            rw [hch] at this; simp at this
        refine ⟨s', ?_, g2, g4, g5, fun x hx => hoth x (by omega), B, hch'⟩
        rw [if_pos ⟨by rw [hB0.1, ← hT], hpb⟩]
      | cons t T' =>
        obtain ⟨u1, u2⟩ := ht1 t T' rfl
        have hiend : iend = .node t := hT.symm
        cases hBB : B with
        | nil =>
          subst hBB
          simp only [List.nil_append] at hrt
          rw [if_neg (by rw [hiend]; simp [headLI]), if_pos (show headLI [] = LI.term from rfl)]
          have hsp : spanN s'.chain (s'.nb - (b + 1)) (b + 1) ≠ [] := by
            have : post s' b = t :: T' := by rw [hpost']; exact hrt.symm
            intro e; rw [show spanN s'.chain (s'.nb - (b + 1)) (b + 1) = t :: T' from this] at e; simp at e
          obtain ⟨b', v1, v2, v3, v4, v5, v6⟩ := seek_spec s' _ _ hsp
          rw [v1]
          have hhd : ∃ B'', s'.chain b' = t :: B'' := by
            have : post s' b = t :: T' := by rw [hpost']; exact hrt.symm
            have v6' : post s' b = s'.chain b' ++ spanN s'.chain (b + 1 + (s'.nb - (b + 1)) - (b' + 1)) (b' + 1) := v6
            rw [this] at v6'
            cases hc' : s'.chain b' with
            | nil => exact absurd hc' v4
            | cons j B'' =>
              rw [hc'] at v6'
              simp only [List.cons_append, List.cons.injEq] at v6'
              exact ⟨B'', by rw [v6'.1]⟩
          obtain ⟨B'', hB''⟩ := hhd
          have hbp : b' = pend := by
            obtain ⟨w1, w2⟩ := ht1' t T' rfl
            have hon' : (order s').Nodup := (List.nodup_append.mp g2.nodup).1
            by_contra hne
            have hb'lt : b' < s'.nb := by omega
            -- t would be in two buckets
            obtain ⟨K1, K2, hK⟩ : ∃ K1 K2, s'.chain b' = K1 ++ t :: K2 := ⟨[], B'', hB''⟩
            unfold order at hon'
            rw [spanN_at _ hb'lt] at hon'
            rcases Nat.lt_or_gt_of_ne hne with hlt | hgt
            · have m1 : t ∈ spanN s'.chain (s'.nb - (b' + 1)) (b' + 1) := mem_spanN.mpr ⟨pend, by omega, by omega, w2⟩
              exact (List.nodup_append.mp (List.nodup_append.mp hon').2.1).2.2 t (by rw [hK]; simp) t m1 rfl
            · have m1 : t ∈ spanN s'.chain b' 0 := mem_spanN.mpr ⟨pend, by omega, by omega, w2⟩
              exact (List.nodup_append.mp hon').2.2 t m1 t (by rw [hK]; simp) rfl
          refine ⟨s', ?_, g2, g4, g5, fun x hx => hoth x (by omega), [], by simpa using hch'⟩
          obtain ⟨fuel', rfl⟩ : ∃ f, fuel = f + 1 := ⟨fuel - 1, by simp at hfu; omega⟩
          show eraseLoop iend pend (fuel' + 1) s' b' .before (headLI (s'.chain b')) = _
          rw [hB'', show headLI (t :: B'') = LI.node t from rfl, eraseLoop, if_pos ⟨hiend.symm, hbp⟩]
        | cons j B'' =>
          subst hBB
          simp only [List.cons_append, List.cons.injEq] at hrt
          have hbp : b = pend := by
            have hon2 := (List.nodup_append.mp h.nodup).1
            by_contra hne
            have hjb : t ∈ s.chain b := by rw [hch, hrt.1]; simp
            unfold order at hon2
            rw [spanN_at _ hb] at hon2
            rcases Nat.lt_or_gt_of_ne hne with hlt | hgt
            · have m1 : t ∈ spanN s.chain (s.nb - (b + 1)) (b + 1) := mem_spanN.mpr ⟨pend, by omega, by omega, u2⟩
              exact (List.nodup_append.mp (List.nodup_append.mp hon2).2.1).2.2 t hjb t m1 rfl
            · have m1 : t ∈ spanN s.chain b 0 := mem_spanN.mpr ⟨pend, by omega, by omega, u2⟩
              exact (List.nodup_append.mp hon2).2.2 t m1 t (by simp [hjb]) rfl
          refine ⟨s', ?_, g2, g4, g5, fun x hx => hoth x (by omega), _, hch'⟩
          rw [if_pos ⟨by rw [hiend, ← hrt.1]; rfl, hbp⟩]
    · -- more to erase
      have hne_iend : ∀ j B'', B = j :: B'' → ¬ (headLI B = iend ∧ b = pend) := by
        rintro j B'' rfl ⟨hh, _⟩
        cases R with
        | nil => exact hR rfl
        | cons j' R' =>
          simp only [List.cons_append, List.cons.injEq] at hrt
          cases T with
          | nil => rw [← hT] at hh; simp [headLI] at hh
          | cons t T' =>
            rw [← hT] at hh
            have : j = t := by simpa [headLI] using hh
            have hh2 := (List.nodup_cons.mp honi).2
            rw [List.cons_append] at hh2
            exact (List.nodup_cons.mp hh2).1 (by rw [hrt.1, this]; simp)
      have hne_post : B = [] → post s b ≠ [] := by
        rintro rfl e
        rw [e] at hrt
        simp only [List.append_nil] at hrt
        exact hR (List.append_eq_nil_iff.mp hrt).1
      have ht2' : T = [] → LastIs s' pend := by
        intro e
        obtain ⟨q1, q2, q3⟩ := ht2 e
        refine ⟨by omega, ?_, ?_⟩
        · by_cases hpb : pend = b
          · rw [hpb, hch']
            cases hBB : B with
            | nil =>
              exfalso
              apply hne_post hBB
              refine spanN_nil (fun x hx1 hx2 => q3 x (by omega) (by omega))
            | cons j B'' => simp
          · rw [hoth _ hpb]; exact q2
        · intro x hx1 hx2
          by_cases hxb : x = b
          · exfalso
            have := q3 b (by omega) hb
            rw [hch] at this; simp at this
          · rw [hoth _ hxb]; exact q3 x hx1 (by omega)
      cases hBB : B with
      | nil =>
        have hcond : ¬ (headLI ([] : List Nat) = iend ∧ b = pend) := by
          rintro ⟨hh, hpb⟩
          have hT0 : T = [] := headLI_term.mp (by rw [hT, ← hh]; rfl)
          obtain ⟨q1, q2, q3⟩ := ht2' hT0
          apply q2
          rw [← hpb, hch', hBB]
          -- A would have to be empty
          exfalso
          apply hne_post hBB
          refine spanN_nil (fun x hx1 hx2 => ?_)
          rw [← hoth x (by omega)]
          exact q3 x (by omega) (by omega)
        rw [if_neg hcond, if_pos (show headLI [] = LI.term from rfl)]
        have hpp : post s' b = R ++ T := by rw [hpost', hrt, hBB]; rfl
        have hsp : spanN s'.chain (s'.nb - (b + 1)) (b + 1) ≠ [] := by
          intro e
          have : post s' b = [] := e
          rw [hpost'] at this
          exact hne_post hBB this
        obtain ⟨b', v1, v2, v3, v4, v5, v6⟩ := seek_spec s' _ _ hsp
        rw [v1]
        have hb' : b' < s'.nb := by omega
        have hpost2 : R ++ T = s'.chain b' ++ post s' b' := by
          rw [← hpp]
          have v6' : post s' b = s'.chain b' ++ spanN s'.chain (b + 1 + (s'.nb - (b + 1)) - (b' + 1)) (b' + 1) := v6
          rw [v6', show b + 1 + (s'.nb - (b + 1)) - (b' + 1) = s'.nb - (b' + 1) by omega]
        have hprelen : (pre s' b' ++ []).length = M1.length := by
          rw [List.append_nil, ← hl, ← hpre']
          have : pre s' b' = pre s' b ++ s'.chain b := by
            show spanN s'.chain b' 0 = spanN s'.chain b 0 ++ s'.chain b
            have hz : spanN s'.chain (b' - (b + 1)) (b + 1) = [] := spanN_nil (fun x hx1 hx2 => v5 x (by omega) (by omega))
            have hz2 : spanN s'.chain b' 0 = spanN s'.chain (b + (1 + (b' - (b + 1)))) 0 := by
              congr 1; omega
            rw [hz2, spanN_add, spanN_add]
            simp only [spanN, List.append_nil, Nat.zero_add, hz]
          rw [this, hch', hBB]; simp
        obtain ⟨s'', x1, x2, x3, x4, x5, x6⟩ := ih fuel s' _ b' [] (s'.chain b') M1 VR M2 g2 hb' rfl hpost2 hR v4 rfl hprelen hr' (by simp at hfu; omega) ht1' ht2'
        refine ⟨s'', x1, x2, by omega, by omega, ?_, [], ?_⟩
        · intro x hx
          rw [x5 x (by omega), hoth x (by omega)]
        · rw [x5 b (by omega), hch', hBB]
      | cons j B'' =>
        rw [if_neg (by rw [← hBB]; exact hne_iend j B'' hBB), if_neg (by simp [headLI])]
        subst hBB
        obtain ⟨s'', x1, x2, x3, x4, x5, x6⟩ := ih fuel s' _ b A (j :: B'') M1 VR M2 g2 (by omega) hch' (by rw [hpost']; exact hrt) hR (by simp) rfl (by rw [hpre']; exact hl) hr' (by simp at hfu; omega) ht1' ht2'
        refine ⟨s'', x1, x2, by omega, by omega, ?_, x6⟩
        intro x hx
        rw [x5 x hx, hoth x (by omega)]

/-- `++` from the place before a part of a bucket. -/
theorem next_before (h : Sim c s m) {b : Nat} (hb : b < s.nb) {A B : List Nat} (hch : s.chain b = A ++ B) :
    ∃ it, next s ⟨b, lastLI .before A⟩ = .ok it ∧ Points s it (B ++ post s b) := by
  have hst : (lastLI .before A).step (s.chain b) = .ok (headLI B) := by
    rw [hch]; exact step_last A B (hch ▸ h.chainNodup hb)
  cases B with
  | nil =>
    refine ⟨enter s (skip s (s.nb - (b + 1)) (b + 1)), by simp [next, h.bucket hb, hst, headLI], ?_⟩
    exact skip_spec s _ _ (by omega)
  | cons j B =>
    exact ⟨⟨b, .node j⟩, by simp [next, h.bucket hb, hst, headLI], A, B, rfl, hb, hch, rfl⟩

theorem Points.suffix {it : It} {r : List Nat} (h : Points s it r) : ∃ P, order s = P ++ r := by
  cases r with
  | nil => exact ⟨order s, by simp⟩
  | cons i r =>
    obtain ⟨A, B, h1, h2, h3, h4⟩ := h
    refine ⟨pre s it.bkt ++ A, ?_⟩
    unfold order
    rw [spanN_at _ h2, h3, h4]; simp

theorem same_bucket (h : Sim c s m) {a b : Nat} (ha : a < s.nb) (hb : b < s.nb) {i : Nat} (h1 : i ∈ s.chain a) (h2 : i ∈ s.chain b) : a = b := by
  have : s.val i ∈ (order s).map s.val := List.mem_map_of_mem (mem_spanN.mpr ⟨a, Nat.zero_le _, by omega, h1⟩)
  rw [h.view] at this
  obtain ⟨v, _, e⟩ := List.mem_map.mp this
  rw [← h.home a ha i h1 v e.symm, ← h.home b hb i h2 v e.symm]

theorem eraseRange_spec (h : Sim c s m) {f l : It} {R T : List Nat} (hf : Points s f (R ++ T)) (hl : Points s l T) (he : T = [] → R ≠ [] ∧ LastIs s l.bkt) :
    ∃ M1 VR M2 s' it, m = M1 ++ (VR ++ M2) ∧ VR.length = R.length ∧ M2.length = T.length ∧ eraseRange s f l = .ok (s', it) ∧ Sim c s' (M1 ++ M2) ∧ s'.nb = s.nb ∧ s'.cap = s.cap ∧ UMap.rest s' it = .ok M2 := by
  obtain ⟨b0, hb0, hp0⟩ := begin_spec h
  obtain ⟨P, hP⟩ := hf.suffix
  have hview := h.view
  rw [hP, List.map_append, List.map_append] at hview
  obtain ⟨M1, M', e1, e2, e3⟩ := List.map_eq_append_iff.mp hview.symm
  obtain ⟨VR, M2, e4, e5, e6⟩ := List.map_eq_append_iff.mp e3
  have lR : VR.length = R.length := by have := congrArg List.length e5; simpa using this
  have lT : M2.length = T.length := by have := congrArg List.length e6; simpa using this
  have lP : M1.length = P.length := by have := congrArg List.length e2; simpa using this
  have hm : m = M1 ++ (VR ++ M2) := by rw [e1, e4]
  have hne : R ++ T ≠ [] := by
    intro e
    obtain ⟨q1, q2⟩ := List.append_eq_nil_iff.mp e
    exact (he q2).1 q1
  obtain ⟨i, r, hir⟩ : ∃ i r, R ++ T = i :: r := by
    cases hh : R ++ T with
    | nil => exact absurd hh hne
    | cons i r => exact ⟨i, r, rfl⟩
  have hf' : Points s f (i :: r) := hir ▸ hf
  obtain ⟨A, B, h1, h2, h3, h4⟩ := hf'
  have hnd : (A ++ i :: B).Nodup := h3 ▸ h.chainNodup h2
  have hon : (order s).Nodup := (List.nodup_append.mp h.nodup).1
  have hPA : P = pre s f.bkt ++ A := by
    have : order s = (pre s f.bkt ++ A) ++ (i :: r) := by
      unfold order
      rw [spanN_at _ h2, h3, h4]; simp
    rw [hP, hir] at this
    exact List.append_cancel_right this
  by_cases hall : (eqIt f b0 && eqIt l (endIt s)) = true
  · obtain ⟨q1, q2⟩ : eqIt f b0 = true ∧ eqIt l (endIt s) = true := by simpa using hall
    have hT : T = [] := hl.atEnd.mp q2
    have hPnil : P = [] := by
      have hpos : f.pos = b0.pos := by simpa [eqIt] using q1
      rw [h1, hp0.head, hP, hir] at hpos
      cases P with
      | nil => rfl
      | cons p P =>
        exfalso
        have : i = p := by simpa [headLI] using hpos
        rw [hP, hir, this] at hon
        rw [List.cons_append] at hon
        exact (List.nodup_cons.mp hon).1 (by simp)
    obtain ⟨s', g1, g2, g3, g4⟩ := clear_spec h
    have hM1 : M1 = [] := List.length_eq_zero_iff.mp (by rw [lP, hPnil]; rfl)
    have hM2 : M2 = [] := List.length_eq_zero_iff.mp (by rw [lT, hT]; rfl)
    refine ⟨M1, VR, M2, s', endIt s', hm, lR, lT, ?_, by rw [hM1, hM2]; exact g2, g3, g4, by rw [hM2]; exact g2.rest_end⟩
    simp only [eraseRange, hb0]
    rw [if_pos hall]
    simp only [g1]
  · have hprev : previous f.pos .before (s.chain f.bkt) = .ok (lastLI .before A) := by
      rw [h1, h3]; exact previous_at A B i .before (notin_left hnd)
    have hloop : ∃ s', eraseLoop l.pos l.bkt (s.cap + 1) s f.bkt (lastLI .before A) f.pos = .ok s' ∧ Sim c s' (M1 ++ M2) ∧ s'.nb = s.nb ∧ s'.cap = s.cap ∧ (∀ x, x < f.bkt → s'.chain x = s.chain x) ∧ ∃ B', s'.chain f.bkt = A ++ B' := by
      by_cases hR : R = []
      · subst hR
        have hVR : VR = [] := List.length_eq_zero_iff.mp lR
        subst hVR
        simp only [List.nil_append] at hir hm
        rw [hir] at hl
        obtain ⟨A2, B2, k1, k2, k3, k4⟩ := hl
        have hbb : f.bkt = l.bkt := same_bucket h h2 k2 (i := i) (by rw [h3]; simp) (by rw [k3]; simp)
        refine ⟨s, ?_, hm ▸ h, rfl, rfl, fun _ _ => rfl, i :: B, h3⟩
        rw [h1, eraseLoop, if_pos ⟨k1.symm, hbb⟩]
      · have hcapR : R.length < s.cap + 1 := by
          have := h.total
          rw [hm] at this
          simp only [List.length_append] at this
          omega
        have hl1 : ∀ t T', T = t :: T' → l.bkt < s.nb ∧ t ∈ s.chain l.bkt := by
          intro t T' e
          rw [e] at hl
          obtain ⟨A2, B2, k1, k2, k3, k4⟩ := hl
          exact ⟨k2, by rw [k3]; simp⟩
        have := eraseLoop_spec (c := c) l.pos l.bkt R T hl.head.symm (s.cap + 1) s m f.bkt A (i :: B) M1 VR M2 h h2 h3 (by rw [hir, h4]; rfl) hR (by simp) hm (by rw [← hPA]; exact lP.symm) lR.symm hcapR hl1 (fun e => (he e).2)
        rw [h1]
        exact this
    obtain ⟨s', g1, g2, g3, g4, g5, B', g6⟩ := hloop
    obtain ⟨it, n1, n2⟩ := next_before g2 (by omega) g6
    refine ⟨M1, VR, M2, s', it, hm, lR, lT, ?_, g2, g3, g4, ?_⟩
    · simp only [eraseRange, hb0]
      rw [if_neg hall]
      simp only [h.bucket h2, hprev, g1, n1]
    · refine g2.rest n2 ?_
      have hv' := g2.view
      have hord' : order s' = (pre s' f.bkt ++ A) ++ (B' ++ post s' f.bkt) := by
        unfold order
        rw [spanN_at _ (show f.bkt < s'.nb by omega), g6]; simp
      have hpre : pre s' f.bkt = pre s f.bkt := spanN_congr _ _ (fun x _ hx => g5 x (by omega))
      have hv2 : (pre s' f.bkt ++ A).map s'.val ++ (B' ++ post s' f.bkt).map s'.val = M1.map Cell.live ++ M2.map Cell.live := by
        rw [← List.map_append, ← List.map_append, ← hord']; exact hv'
      exact (List.append_inj hv2 (by rw [List.length_map, List.length_map, hpre, ← hPA]; exact lP.symm)).2

theorem eraseRange_all (h : Sim c s m) {f l : It} (hf : Points s f (order s)) (hl : Points s l []) :
    ∃ s', eraseRange s f l = .ok (s', endIt s') ∧ Sim c s' [] ∧ s'.nb = s.nb ∧ s'.cap = s.cap := by
  obtain ⟨b0, hb0, hp0⟩ := begin_spec h
  obtain ⟨s', g1, g2, g3, g4⟩ := clear_spec h
  refine ⟨s', ?_, g2, g3, g4⟩
  have h1 : eqIt f b0 = true := by simp [eqIt, hf.head, hp0.head]
  have h2 : eqIt l (endIt s) = true := hl.atEnd.mpr rfl
  simp only [eraseRange, hb0]
  rw [if_pos (by simp [h1, h2])]
  simp only [g1]

end Etl.UMap
