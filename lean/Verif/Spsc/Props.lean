import Verif.Spsc.Lemmas

/-!
# Properties of `etl::queue_spsc_atomic` (C01, C02, C03)

All theorems quantify over every capacity `size`, every schedule `acts` (any interleaving of the two
threads' micro-steps, any calls, any legal staleness of the loads).
-/
namespace Etl.Spsc

variable {α : Type}

/-! ## Facts about legal FIFO histories (specification side only) -/

/-- In a legal history the contents are what was pushed and not yet popped, pops deliver the pushed values in
    order, and the contents, the free places known and the elements known are within bounds. -/
theorem Accepts.facts {size : Nat} {t : List (Ev α)} {q : List α} {f a : Nat} (h : Accepts size t q f a) :
    (pops t).length ≤ (pushes t).length ∧ q = (pushes t).drop (pops t).length ∧ f + q.length ≤ size ∧ a ≤ q.length ∧
      ∀ (i : Nat) (v : α), (pops t)[i]? = some (some v) → (pushes t)[i]? = some v := by
  induction h with
  | nil => simp [pushes, pops]
  | learnP h h1 h2 ih => obtain ⟨i0, i1, i2, i3, i4⟩ := ih; exact ⟨i0, i1, h2, i3, i4⟩
  | learnC h h1 h2 ih => obtain ⟨i0, i1, i2, i3, i4⟩ := ih; exact ⟨i0, i1, i2, h2, i4⟩
  | @pushed t q f a v h ih =>
    obtain ⟨i0, i1, i2, i3, i4⟩ := ih
    simp only [pushes_append, pops_append, pushes, pops, List.append_nil, List.length_append, List.length_singleton]
    refine ⟨by omega, ?_, by omega, by omega, ?_⟩
    · rw [List.drop_append_of_le_length i0, i1]
    · intro i v' h'
      have := i4 i v' h'
      rw [List.getElem?_append_left (List.getElem?_eq_some_iff.1 this).1]; exact this
  | @popped t q f a v h ih =>
    obtain ⟨i0, i1, i2, i3, i4⟩ := ih
    have hlen : (pushes t).length - (pops t).length = q.length + 1 := by
      have := congrArg List.length i1; simpa using this.symm
    simp only [pushes_append, pops_append, pushes, pops, List.append_nil, List.length_append, List.length_singleton]
    simp only [List.length_cons] at i2 i3
    refine ⟨by omega, ?_, by omega, by omega, ?_⟩
    · have := congrArg List.tail i1; simpa [List.drop_drop] using this
    · intro i v' h'
      by_cases hi : i < (pops t).length
      · rw [List.getElem?_append_left hi] at h'; exact i4 i v' h'
      · have : i = (pops t).length := by
          have := (List.getElem?_eq_some_iff.1 h').1; simp at this; omega
        subst this
        simp at h'; subst h'
        have := congrArg (fun l => l[0]?) i1
        simpa using this.symm
  | @discarded t q f a v h ih =>
    obtain ⟨i0, i1, i2, i3, i4⟩ := ih
    have hlen : (pushes t).length - (pops t).length = q.length + 1 := by
      have := congrArg List.length i1; simpa using this.symm
    simp only [pushes_append, pops_append, pushes, pops, List.append_nil, List.length_append, List.length_singleton]
    simp only [List.length_cons] at i2 i3
    refine ⟨by omega, ?_, by omega, by omega, ?_⟩
    · have := congrArg List.tail i1; simpa [List.drop_drop] using this
    · intro i v' h'
      by_cases hi : i < (pops t).length
      · rw [List.getElem?_append_left hi] at h'; exact i4 i v' h'
      · have : i = (pops t).length := by
          have := (List.getElem?_eq_some_iff.1 h').1; simp at this; omega
        subst this
        simp at h'
  | _ h ih =>
    obtain ⟨i0, i1, i2, i3, i4⟩ := ih
    simp only [pushes_append, pops_append, pushes, pops, List.append_nil]
    exact ⟨i0, i1, i2, i3, i4⟩

/-! ## C01: FIFO under every interleaving -/

/-- **C01.**  Every schedule runs without undefined behaviour and the completed calls form a legal history of one
    bounded FIFO queue (i.e. the concurrent queue is linearizable, up to each side's knowledge of the other lagging). -/
theorem C01_linearizable (size : Nat) (acts : List (Act α)) :
    ∃ s, run (init size) acts = .ok s ∧ ∃ q f a, Accepts size s.trace q f a := by
  obtain ⟨s, vals, R, h1, h2⟩ := run_inv acts (inv_init (α := α) size)
  obtain ⟨f, a, h3, -, -⟩ := h2.acc
  exact ⟨s, h1, _, f, a, h3⟩

/-- **C01**, in terms of the calls alone: the i-th successful pop delivers the i-th successfully pushed value. -/
theorem C01_fifo (size : Nat) (acts : List (Act α)) (s : St α) (h : run (init size) acts = .ok s) :
    (pops s.trace).length ≤ (pushes s.trace).length ∧
    ∀ (i : Nat) (v : α), (pops s.trace)[i]? = some (some v) → (pushes s.trace)[i]? = some v := by
  obtain ⟨s', h1, q, f, a, h2⟩ := C01_linearizable size acts
  rw [h1] at h; cases h
  exact ⟨h2.facts.1, h2.facts.2.2.2.2⟩

/-! ## C02: no data race, no lifetime error -/

/-- **C02.**  No schedule produces a data race, a construction over a live object, an access to a dead object or an out-of-bounds access. -/
theorem C02_no_undefined_behaviour (size : Nat) (acts : List (Act α)) (e : UB) :
    run (init size : St α) acts ≠ .error e := by
  obtain ⟨s, h1, -⟩ := C01_linearizable size acts
  rw [h1]; simp

/-- Number of live objects in the buffer. -/
def liveCount (s : St α) : Nat := ((List.range s.reserved).filter (fun i => (s.slot i).obj.isSome)).length

theorem filter_length_map {N : Nat} (f : Nat → Bool) (l : List Nat) (hl : l.Nodup)
    (hf : ∀ i, i < N → (f i = true ↔ i ∈ l)) (hb : ∀ i ∈ l, i < N) :
    ((List.range N).filter f).length = l.length := by
  apply List.Perm.length_eq
  rw [List.perm_ext_iff_of_nodup (List.Nodup.sublist List.filter_sublist List.nodup_range) hl]
  intro i
  simp only [List.mem_filter, List.mem_range]
  constructor
  · rintro ⟨h1, h2⟩; exact (hf i h1).1 h2
  · intro h; exact ⟨hb i h, (hf i (hb i h)).2 h⟩

/-- **C02.**  When no call is in progress, the live objects in the buffer are exactly one per element pushed and not
    yet popped: together with `C02_no_undefined_behaviour` (no construction over a live object, no destruction of a dead
    one) every pushed element is destroyed exactly once, by the pop that removes it. -/
theorem C02_live_objects (size : Nat) (acts : List (Act α)) (s : St α) (h : run (init size) acts = .ok s)
    (hp : s.ppc = .idle) (hc : s.cpc = .idle) :
    liveCount s = (pushes s.trace).length - (pops s.trace).length := by
  obtain ⟨s', vals, R, h1, h2⟩ := run_inv acts (inv_init (α := α) size)
  rw [h1] at h; cases h
  obtain ⟨f, a, h3, -, -⟩ := h2.acc
  have hq := congrArg List.length h3.facts.2.1
  simp at hq
  rw [← hq]
  have hN := h2.hN
  have hNpos : 0 < s.reserved := by omega
  have hclk : s.p.clock = vals.length := by simpa [hp, pend] using h2.clkP
  have := h2.wp; have := h2.pts
  have hlen : ((List.range (vals.length - R)).map (fun j => (R + j) % s.reserved)).length = vals.length - R := by simp
  rw [← hlen]
  apply filter_length_map
  · rw [List.Nodup, List.pairwise_iff_getElem]
    intro i j hi hj hij
    simp only [List.length_map, List.length_range] at hi hj
    simp only [List.getElem_map, List.getElem_range]
    intro e
    have := mod_inj e (by omega) (by omega)
    omega
  · intro i hi
    simp only [List.mem_map, List.mem_range]
    constructor
    · intro hs
      rcases h2.dead i hi with ⟨j, h5, h6, h7⟩ | h'
      · simp [hc, lag] at h5
        exact ⟨j - R, by omega, by rw [Nat.add_sub_cancel' h5]; exact h7⟩
      · simp [h'] at hs
    · rintro ⟨j, hj, rfl⟩
      rw [h2.live (R + j) (by simp [hc, lag]) (by omega)]
      rw [List.getElem?_append_left (by omega)]
      simp; omega
  · intro i hi
    simp only [List.mem_map, List.mem_range] at hi
    obtain ⟨j, -, rfl⟩ := hi
    exact Nat.mod_lt _ hNpos

/-! ## C03: size, full, empty -/

/-- **C03.**  The queue never holds more than `size` elements. -/
theorem C03_bounded (size : Nat) (acts : List (Act α)) (s : St α) (h : run (init size) acts = .ok s) :
    (pushes s.trace).length - (pops s.trace).length ≤ size := by
  obtain ⟨s', h1, q, f, a, h2⟩ := C01_linearizable size acts
  rw [h1] at h; cases h
  have h3 := h2.facts
  have hq := congrArg List.length h3.2.1
  simp at hq
  omega

/-- **C03.**  `push`: with `t` the number of pops its load of the consumer's index shows (never more than have
    happened; exactly as many if the load is not stale), it fails iff pushes - t = size and goes on to succeed
    iff pushes - t < size. -/
theorem C03_push_fails_iff_full (size : Nat) (acts : List (Act α)) (s : St α) (h : run (init size) acts = .ok s)
    (v : α) (w k : Nat) (hpc : s.ppc = .gotW (.push v) w) :
    ∃ s' t, stepP s k = .ok s' ∧ t ≤ (pops s.trace).length ∧
      (s.p.ts + k ≥ (pops s.trace).length → t = (pops s.trace).length) ∧
      ((s'.ppc = .idle ∧ s'.trace = s.trace ++ [.pushFull v]) ↔ (pushes s.trace).length - t = size) ∧
      ((∃ w n, s'.ppc = .construct v w n) ↔ (pushes s.trace).length - t < size) := by
  obtain ⟨s', vals, R, h1, h2⟩ := run_inv acts (inv_init (α := α) size)
  rw [h1] at h; cases h
  have hNpos : 0 < s.reserved := by have := h2.hN; omega
  rw [h2.hpush, h2.hpop]
  obtain ⟨t, known, hl, h3, h4, h5, -, -⟩ := load_read h2 k
  have hw : w = vals.length % s.reserved := by simpa [hpc, PInv] using h2.pinv
  have hrc := h2.rc; have hct := h2.cts; have hwp := h2.wp
  have hnx := next_ne_iff (N := s.reserved) h2.hN (W := vals.length) (t := t) (by omega) (by omega)
  simp only [stepP, hpc, hl, hw, nextIndex_mod _ _ hNpos]
  split
  · rename_i hc
    have := hnx.1 hc
    exact ⟨_, t, rfl, h4, h5, by simp; omega, by simp; omega⟩
  · rename_i hc
    have : ¬ vals.length < t + size := fun hlt => hc (hnx.2 hlt)
    exact ⟨_, t, rfl, h4, h5, by simp [emit]; omega, by simp [emit]; omega⟩

/-- **C03.**  `pop(value)`: with `t` the number of pushes its load of the producer's index shows (never more than have
    happened; exactly as many if not stale), it fails iff t = pops, and otherwise goes on to remove the front. -/
theorem C03_pop_fails_iff_empty (size : Nat) (acts : List (Act α)) (s : St α) (h : run (init size) acts = .ok s)
    (r k : Nat) (hpc : s.cpc = .gotR .pop r) :
    ∃ s' t, stepC s k = .ok s' ∧ t ≤ (pushes s.trace).length ∧
      (s.c.ts + k ≥ (pushes s.trace).length → t = (pushes s.trace).length) ∧
      ((s'.cpc = .idle ∧ s'.trace = s.trace ++ [.popEmpty]) ↔ t = (pops s.trace).length) ∧
      ((∃ r n, s'.cpc = .move r n) ↔ (pops s.trace).length < t) := by
  obtain ⟨s', vals, R, h1, h2⟩ := run_inv acts (inv_init (α := α) size)
  rw [h1] at h; cases h
  have hN := h2.hN
  rw [h2.hpush, h2.hpop]
  obtain ⟨t, known, hl, h3, h4, h5, -, -⟩ := load_write h2 k
  have hr : r = R % s.reserved := by simpa [hpc, CInv] using h2.cinv
  have hrc := h2.rc; have hct := h2.cts; have hwp := h2.wp; have hpt := h2.pts
  simp only [stepC, hpc, hl, hr]
  split
  · rename_i hc
    have := mod_inj hc (by omega) (by omega)
    exact ⟨_, t, rfl, h4, h5, by simp [emit]; omega, by simp [emit]; omega⟩
  · rename_i hc
    have : R ≠ t := by intro e; exact hc (by rw [e])
    exact ⟨_, t, rfl, h4, h5, by simp; omega, by simp; omega⟩

/-- Legal histories are closed under prefixes. -/
theorem Accepts.pre {size : Nat} {t : List (Ev α)} {q : List α} {f a : Nat} (h : Accepts size t q f a) :
    ∀ t1 e, t = t1 ++ [e] → ∃ q1 f1 a1, Accepts size t1 q1 f1 a1 ∧
      (∀ b, e = .pFull b → b = (f1 == 0)) ∧ (∀ b, e = .cEmpty b → b = (a1 == 0)) ∧
      (∀ n, e = .pSize n → n = size - f1) ∧ (∀ n, e = .cSize n → n = a1) ∧
      (∀ v, e = .front v → q1[0]? = some v) := by
  induction h with
  | nil => intro t1 e h; simp at h
  | learnP h h1 h2 ih => exact ih
  | learnC h h1 h2 ih => exact ih
  | _ h ih =>
    intro t1 e he
    obtain ⟨rfl, he2⟩ := List.append_inj' he rfl
    simp only [List.cons.injEq, and_true] at he2
    subst he2
    refine ⟨_, _, _, h, ?_⟩
    simp

theorem Accepts.prefix {size : Nat} (u : List (Ev α)) : ∀ {t : List (Ev α)} {q : List α} {f a : Nat},
    Accepts size (t ++ u) q f a → ∃ q1 f1 a1, Accepts size t q1 f1 a1 := by
  generalize hn : u.length = n
  induction n generalizing u with
  | zero =>
    intro t q f a h
    have : u = [] := List.eq_nil_of_length_eq_zero hn
    subst this
    exact ⟨_, _, _, by simpa using h⟩
  | succ n ih =>
    intro t q f a h
    have hne : u ≠ [] := by intro e; simp [e] at hn
    have hu := (List.dropLast_concat_getLast hne).symm
    obtain ⟨q1, f1, a1, h1, -⟩ := h.pre (t ++ u.dropLast) (u.getLast hne) (by rw [List.append_assoc, ← hu])
    exact ih u.dropLast (by simp [hn]) h1

/-- **C03.**  Own-side queries never err in the unsafe direction.  At the moment such a call completes (history `t`
    before it, so the queue then holds `pushes t - pops t` elements):
    `full() = false` on the producer side means there is room; `empty() = false` on the consumer side means there is an element;
    the producer's `size()` is an upper bound within `size`, the consumer's a lower bound;
    and `front(value)` delivers the oldest element. -/
theorem C03_queries (size : Nat) (acts : List (Act α)) (s : St α) (h : run (init size) acts = .ok s)
    (t u : List (Ev α)) (e : Ev α) (ht : s.trace = t ++ e :: u) :
    (e = .pFull false → (pushes t).length - (pops t).length < size) ∧
    (e = .cEmpty false → 0 < (pushes t).length - (pops t).length) ∧
    (∀ n, e = .pSize n → (pushes t).length - (pops t).length ≤ n ∧ n ≤ size) ∧
    (∀ n, e = .cSize n → n ≤ (pushes t).length - (pops t).length) ∧
    (∀ v, e = .front v → (pushes t)[(pops t).length]? = some v) := by
  obtain ⟨s', h1, q, f, a, h2⟩ := C01_linearizable size acts
  rw [h1] at h; cases h
  rw [ht, List.append_cons] at h2
  obtain ⟨q1, f1, a1, h3⟩ := h2.prefix
  obtain ⟨q2, f2, a2, h4, e1, e2, e3, e4, e5⟩ := h3.pre t e rfl
  obtain ⟨l1, l2, l3, l4, -⟩ := h4.facts
  have hq := congrArg List.length l2
  simp only [List.length_drop] at hq
  rw [← hq]
  refine ⟨?_, ?_, ?_, ?_, ?_⟩
  · intro he
    have h := (e1 _ he).symm
    have : f2 ≠ 0 := by simpa using h
    omega
  · intro he
    have h := (e2 _ he).symm
    have : a2 ≠ 0 := by simpa using h
    omega
  · intro n he
    have := e3 n he; omega
  · intro n he
    have := e4 n he; omega
  · intro v he
    have h5 := e5 v he
    rw [l2] at h5
    simpa using h5

/-- `available()`, queue_spsc_atomic.h l.107-110: `Reserved - size() - 1`. -/
def availableOf (reserved n : Nat) : Nat := reserved - n - 1

/-- `capacity()`, l.115-118: `Reserved - 1`. -/
def capacityOf (reserved : Nat) : Nat := reserved - 1

/-- **C03.**  `size()` with a fresh load is exact on either side, and `size() + available() == capacity() == size`. -/
theorem C03_size_exact (size : Nat) (acts : List (Act α)) (s : St α) (h : run (init size) acts = .ok s) (k : Nat) :
    (∀ w, s.ppc = .gotW .size w → s.p.ts + k ≥ (pops s.trace).length →
      ∃ s', stepP s k = .ok s' ∧ s'.trace = s.trace ++ [.pSize ((pushes s.trace).length - (pops s.trace).length)]) ∧
    (∀ r, s.cpc = .gotR .size r → s.c.ts + k ≥ (pushes s.trace).length →
      ∃ s', stepC s k = .ok s' ∧ s'.trace = s.trace ++ [.cSize ((pushes s.trace).length - (pops s.trace).length)]) ∧
    capacityOf s.reserved = size ∧
    ((pushes s.trace).length - (pops s.trace).length) +
      availableOf s.reserved ((pushes s.trace).length - (pops s.trace).length) = capacityOf s.reserved := by
  have hb := C03_bounded size acts s h
  obtain ⟨s', vals, R, h1, h2⟩ := run_inv acts (inv_init (α := α) size)
  rw [h1] at h; cases h
  rw [h2.hpush, h2.hpop] at hb ⊢
  have hrc := h2.rc; have hct := h2.cts; have hwp := h2.wp; have hpt := h2.pts; have hN := h2.hN
  refine ⟨?_, ?_, ?_, ?_⟩
  · intro w hpc hk
    obtain ⟨t, known, hl, h3, h4, h5, -, -⟩ := load_read h2 k
    have hw : w = vals.length % s.reserved := by simpa [hpc, PInv] using h2.pinv
    have := h5 hk; subst this
    simp only [stepP, hpc, hl, hw, sizeOf_mod hN (W := vals.length) (t := t) (by omega) (by omega)]
    exact ⟨_, rfl, rfl⟩
  · intro r hpc hk
    obtain ⟨t, known, hl, h3, h4, h5, -, -⟩ := load_write h2 k
    have hr : r = R % s.reserved := by simpa [hpc, CInv] using h2.cinv
    have := h5 hk; subst this
    simp only [stepC, hpc, hl, hr, sizeOf_mod hN (W := vals.length) (t := R) (by omega) (by omega)]
    exact ⟨_, rfl, rfl⟩
  · simp [capacityOf, hN]
  · simp only [availableOf, capacityOf, hN]; omega

/-! ### clear() -/

/-- One call of `pop()` by the consumer with nothing else running; `k` large enough makes the load fresh (thread joined). -/
def popCall (k : Nat) : List (Act α) := [.startC .popDiscard, .stepC 0, .stepC k, .stepC 0, .stepC 0]

theorem run_append (s : St α) (a b : List (Act α)) :
    run s (a ++ b) = (run s a).bind (fun s => run s b) := by
  induction a generalizing s with
  | nil => rfl
  | cons x a ih =>
    simp only [List.cons_append, run, bind, Except.bind]
    cases step s x with
    | error e => rfl
    | ok s => simpa [Except.bind, bind] using ih s

theorem popCall_spec {size : Nat} {s : St α} {vals : List α} {R : Nat} (h : Inv size s vals R)
    (hp : s.ppc = .idle) (hc : s.cpc = .idle) (hlt : R < vals.length) (k : Nat) (hk : vals.length ≤ k) :
    ∃ s', run s (popCall k) = .ok s' ∧ Inv size s' vals (R + 1) ∧ s'.ppc = .idle ∧ s'.cpc = .idle := by
  have hN := h.hN
  -- start
  have i1 : Inv size { s with cpc := .start .popDiscard } vals R := inv_cpc h _ (by simp [hc, lag]) (by simp [CInv])
  generalize hs1 : ({ s with cpc := .start .popDiscard } : St α) = s1 at i1
  have c1 : s1.cpc = .start .popDiscard := by rw [← hs1]
  have p1 : s1.ppc = .idle := by rw [← hs1]; exact hp
  have r1 : step s (.startC .popDiscard) = .ok s1 := by simp [step, hc, hs1]
  -- load own
  have i2 : Inv size { s1 with cpc := .gotR .popDiscard (latest s1.read) } vals R :=
    inv_cpc i1 _ (by simp [c1, lag]) (by simp [CInv, latest_read i1])
  generalize hs2 : ({ s1 with cpc := .gotR .popDiscard (latest s1.read) } : St α) = s2 at i2
  have c2 : s2.cpc = .gotR .popDiscard (R % s2.reserved) := by rw [← hs2]; simp [latest_read i1]
  have p2 : s2.ppc = .idle := by rw [← hs2]; exact p1
  have r2 : step s1 (.stepC 0) = .ok s2 := by simp [step, stepC, c1, hs2]
  -- load other
  obtain ⟨t, known, hl, h3, h4, h5, -, h6⟩ := load_write i2 k
  have ht : t = vals.length := h5 (by omega)
  subst ht
  have i3' := inv_learnC i2 h3 h4 h6
  have hne : R % s2.reserved ≠ vals.length % s2.reserved := by
    intro e
    have := mod_inj e (by omega) (by have := i2.hN; have := i2.wp; have := i2.pts; omega)
    omega
  have i3 : Inv size { s2 with c := { s2.c with ts := vals.length, known := known }
                               cpc := .destroy none (R % s2.reserved) (nextIndex (R % s2.reserved) s2.reserved) } vals R :=
    inv_cpc i3' _ (by simp [c2, lag]) (by
      simp only [CInv]
      exact ⟨trivial, nextIndex_mod _ _ (by have := i2.hN; omega), hlt, by simp⟩)
  generalize hs3 : ({ s2 with c := { s2.c with ts := vals.length, known := known }
                              cpc := .destroy none (R % s2.reserved) (nextIndex (R % s2.reserved) s2.reserved) } : St α) = s3 at i3
  have c3 : ∃ n, s3.cpc = .destroy none (R % s3.reserved) n := by rw [← hs3]; exact ⟨_, rfl⟩
  have p3 : s3.ppc = .idle := by rw [← hs3]; exact p2
  have t3 : s3.c.ts = vals.length := by rw [← hs3]
  have r3 : step s2 (.stepC k) = .ok s3 := by simp [step, stepC, c2, hl, hne, hs3]
  -- destroy
  obtain ⟨n, c3⟩ := c3
  obtain ⟨s4, R4, r4, i4⟩ := stepC_inv i3 0
  have f4 : R4 = R ∧ s4.cpc = .store none n ∧ s4.ppc = .idle := by
    simp only [stepC, c3, accessC] at r4
    obtain ⟨b1, b2, v, b3, -⟩ := front_ok i3 (by rw [t3]; exact hlt) (by simp [c3, lag])
    simp only [b1, b2, b3, destroyObj, if_true, bind, Except.bind] at r4
    cases r4
    refine ⟨?_, rfl, p3⟩
    have e1 := i3.hpop; have e2 := i4.hpop; rw [← e1, ← e2]
  obtain ⟨rfl, c4, p4⟩ := f4
  -- store
  obtain ⟨s5, R5, r5, i5⟩ := stepC_inv i4 0
  have f5 : R5 = R4 + 1 ∧ s5.cpc = .idle ∧ s5.ppc = .idle := by
    simp only [stepC, c4] at r5
    cases r5
    refine ⟨?_, rfl, p4⟩
    have e1 := i4.hpop; have e2 := i5.hpop
    rw [← e1, ← e2]; simp [emit, pops_append, pops]
  obtain ⟨rfl, c5, p5⟩ := f5
  refine ⟨s5, ?_, i5, p5, c5⟩
  have r4' : step s3 (.stepC 0) = .ok s4 := r4
  have r5' : step s4 (.stepC 0) = .ok s5 := r5
  simp [popCall, run, r1, r2, r3, r4', r5', bind, Except.bind]

theorem popCalls_spec {size : Nat} (k n : Nat) : ∀ {s : St α} {vals : List α} {R : Nat}, Inv size s vals R →
    s.ppc = .idle → s.cpc = .idle → R + n = vals.length → vals.length ≤ k →
    ∃ s', run s (List.replicate n (popCall k)).flatten = .ok s' ∧ Inv size s' vals vals.length ∧ s'.ppc = .idle ∧ s'.cpc = .idle := by
  induction n with
  | zero => intro s vals R h hp hc hR hk; simp at hR; subst hR; exact ⟨s, rfl, h, hp, hc⟩
  | succ n ih =>
    intro s vals R h hp hc hR hk
    obtain ⟨s1, r1, i1, p1, c1⟩ := popCall_spec h hp hc (by omega) k hk
    obtain ⟨s2, r2, i2, p2, c2⟩ := ih i1 p1 c1 (by omega) hk
    refine ⟨s2, ?_, i2, p2, c2⟩
    rw [List.replicate_succ, List.flatten_cons, run_append, r1]
    exact r2

/-- **C02** (`clear()`, l.483-489, and the destructor l.556-559, run when there is no concurrent access, loads fresh):
    calling `pop()` once per element succeeds each time, destroys every remaining object, and leaves no live object;
    the next `pop()` then reports empty. -/
theorem C02_clear_destroys_all (size : Nat) (acts : List (Act α)) (s : St α) (h : run (init size) acts = .ok s)
    (hp : s.ppc = .idle) (hc : s.cpc = .idle) (k : Nat) (hk : (pushes s.trace).length ≤ k) :
    ∃ s', run s (List.replicate ((pushes s.trace).length - (pops s.trace).length) (popCall k)).flatten = .ok s' ∧
      pushes s'.trace = pushes s.trace ∧ (pops s'.trace).length = (pushes s.trace).length ∧ liveCount s' = 0 ∧
      ∃ s'', run s' [.startC .popDiscard, .stepC 0, .stepC k] = .ok s'' ∧ s''.trace = s'.trace ++ [.popEmpty] := by
  obtain ⟨s0, vals, R, h1, h2⟩ := run_inv acts (inv_init (α := α) size)
  rw [h1] at h; cases h
  rw [h2.hpush] at hk
  have hle : R ≤ vals.length := Nat.le_trans h2.rc h2.cts
  obtain ⟨s', r, i, p, c⟩ := popCalls_spec k (vals.length - R) h2 hp hc (by omega) hk
  refine ⟨s', by rw [h2.hpush, h2.hpop]; exact r, by rw [i.hpush, h2.hpush], by rw [i.hpop, h2.hpush], ?_, ?_⟩
  · have hrun : run (init size) (acts ++ (List.replicate (vals.length - R) (popCall k)).flatten) = .ok s' := by
      rw [run_append, h1]; exact r
    have := C02_live_objects size _ s' hrun p c
    rw [this, i.hpush, i.hpop]; omega
  · have i1 : Inv size { s' with cpc := .gotR .popDiscard (latest s'.read) } vals vals.length :=
      inv_cpc i _ (by simp [c, lag]) (by simp [CInv, latest_read i])
    obtain ⟨t, known, hl, h3, h4, h5, -, h6⟩ := load_write i1 k
    have ht : t = vals.length := h5 (by omega)
    subst ht
    simp only at hl
    have hlr := latest_read i
    simp only [run, step, c, stepC, bind, Except.bind, hl, hlr]
    simp [emit]

/-! ## Non-vacuity: concrete schedules -/

/-- capacity 2; push 7, push 8, failed push 9 (stale), pop 7, with the threads' steps interleaved -/
def demo : List (Act Nat) :=
  [.startP (.push 7), .stepP 0, .startC .pop, .stepC 0, .stepP 0, .stepC 0, .stepP 0, .stepP 0,
   .startP (.push 8), .startC .pop, .stepP 0, .stepP 0, .stepC 0, .stepP 0, .stepP 0, .stepC 5, .stepC 0, .startP (.push 9),
   .stepP 0, .stepC 0, .stepC 0, .stepP 0]

/-- the observable trace of the demo -/
def traceOf (r : Res (St Nat)) : List (Option Nat) × List Nat × Nat :=
  match r with
  | .ok s => (pops s.trace, pushes s.trace, s.trace.length)
  | .error _ => ([], [], 0)

example : traceOf (run (init 2) demo) = ([some 7], [7, 8], 5) := by decide

/-- the hypotheses of the `gotW`/`gotR` theorems are met by reachable states -/
example : ∃ s, run (init 1 : St Nat) [.startP (.push 3), .stepP 0] = .ok s ∧ ∃ w, s.ppc = .gotW (.push 3) w :=
  ⟨_, rfl, _, rfl⟩
example : ∃ s, run (init 1 : St Nat) [.startC .pop, .stepC 0] = .ok s ∧ ∃ w, s.cpc = .gotR .pop w :=
  ⟨_, rfl, _, rfl⟩

/-- the detector is not blind: accessing an unpublished element is reported as a race -/
example : (accessC { (init 1 : St Nat) with slot := fun _ => ⟨some 1, 1, 0⟩ } 0 copyOut).toOption.isNone := by decide

end Etl.Spsc
