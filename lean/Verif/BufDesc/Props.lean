import Verif.BufDesc.Spec
import Mathlib.Tactic.ByContra
import Mathlib.Tactic.SplitIfs
import Mathlib.Tactic.Tauto

/-! # C68: buffer descriptors -/
namespace Etl.BufDesc
variable {α : Type}

/-- Two elements have one address only if they are the same element of the same buffer. -/
theorem addr_inj {SZ i j i' j' : Nat} (h1 : j < SZ) (h2 : j' < SZ) (h : i * SZ + j = i' * SZ + j') : i = i' ∧ j = j' := by
  have e1 : (i * SZ + j) / SZ = i := by
    rw [Nat.mul_comm, Nat.mul_add_div (by omega), Nat.div_eq_of_lt h1]; rfl
  have e2 : (i' * SZ + j') / SZ = i' := by
    rw [Nat.mul_comm, Nat.mul_add_div (by omega), Nat.div_eq_of_lt h2]; rfl
  have : i = i' := by rw [← e1, ← e2, h]
  subst this
  exact ⟨rfl, by omega⟩

theorem addr_lt {N SZ i j : Nat} (h1 : i < N) (h2 : j < SZ) : i * SZ + j < N * SZ := by
  have : (i + 1) * SZ ≤ N * SZ := Nat.mul_le_mul_right _ (by omega)
  rw [Nat.add_mul] at this; omega

/-- The flag of buffer `x` as the history has it, given where the allocating thread is: set for owned buffers, and for the one being handed out once it is set. -/
def flag (pc : Pc α) (h : List (Vis α)) (x : Nat) : Bool :=
  match pc with
  | .fill i _ _ => if x = i then true else owned h x
  | _ => owned h x

/-- How many buffers have been taken, counting the one being handed out once `next` has moved on. -/
def taken (pc : Pc α) (h : List (Vis α)) : Nat :=
  match pc with
  | .set _ _ => handed h + 1
  | .fill _ _ _ => handed h + 1
  | _ => handed h

/-- The call under way. -/
def underWay : Pc α → Option (Option α)
  | .idle => none
  | .test f => some f
  | .inc _ f => some f
  | .set _ f => some f
  | .fill _ f _ => some (some f)

/-- The buffer being handed out is the next in order and has no owner. -/
def curOk (N : Nat) (pc : Pc α) (h : List (Vis α)) : Prop :=
  match pc with
  | .inc i _ => i = handed h % N ∧ owned h i = false
  | .set i _ => i = handed h % N ∧ owned h i = false
  | .fill i _ _ => i = handed h % N ∧ owned h i = false
  | _ => True

/-- The contents of memory: `fill_n` has written the first elements of the buffer being handed out. -/
def memAt (m0 : Nat → Nat → α) (pc : Pc α) (h : List (Vis α)) (i j : Nat) : α :=
  match pc with
  | .fill i' f j' => if i = i' ∧ j < j' then f else contents m0 h i j
  | _ => contents m0 h i j

structure Inv (N SZ : Nat) (m0 : Nat → Nat → α) (s : St α) (pc : Pc α) (h : List (Vis α)) : Prop where
  hN : s.N = N
  hSZ : s.SZ = SZ
  good : Good N m0 h
  lt : ∀ x, owned h x = true → x < N
  flags : ∀ x < N, s.inUse x = flag pc h x
  next : s.next = taken pc h % N
  pend : pending h = underWay pc
  cur : curOk N pc h
  mem : ∀ i < N, ∀ j < SZ, s.mem (i * SZ + j) = memAt m0 pc h i j

theorem inv_init (N SZ : Nat) (mem : Nat → α) : Inv N SZ (fun i j => mem (i * SZ + j)) (init N SZ mem) .idle [] :=
  ⟨rfl, rfl, trivial, by simp [owned], fun _ _ => rfl, by simp [init, taken, handed], rfl, trivial, fun _ _ _ _ => rfl⟩

theorem incNext_eq {s : St α} {N k : Nat} (hN : s.N = N) (hp : 0 < N) (h : s.next = k % N) : incNext s = (k + 1) % N := by
  have hlt : k % N < N := Nat.mod_lt _ hp
  have h1 : (k + 1) % N = (k % N + 1) % N := by simp
  unfold incNext
  rw [hN, h, h1]
  split_ifs with hc
  · rw [show k % N + 1 = N by omega, Nat.mod_self]
  · exact (Nat.mod_eq_of_lt (by omega)).symm

theorem mem_upd {N SZ : Nat} {s : St α} {i j : Nat} {v : α} (hj : j < SZ) {i' j' : Nat} (hj' : j' < SZ) :
    upd s.mem (i * SZ + j) v (i' * SZ + j') = if i' = i ∧ j' = j then v else s.mem (i' * SZ + j') := by
  by_cases hc : i' = i ∧ j' = j
  · rw [if_pos hc, hc.1, hc.2, upd_same]
  · rw [if_neg hc, upd_other]
    intro he; exact hc (addr_inj hj' hj he)

/-- Every event within the contract succeeds and keeps the invariant. -/
theorem step_inv {N SZ : Nat} {m0 : Nat → Nat → α} {s : St α} {pc : Pc α} {h : List (Vis α)} (hp : 0 < N) (I : Inv N SZ m0 s pc h) {e : Event α} (hl : legal SZ h e) :
    ∃ s' pc' o, step s pc e = .ok (s', pc', o) ∧ Inv N SZ m0 s' pc' (vis e o ++ h) := by
  obtain ⟨hN, hSZ, good, lt, flags, next, pend, cur, mem⟩ := I
  cases e with
  | call f =>
    simp only [legal] at hl
    rw [hl] at pend
    cases pc <;> simp [underWay] at pend
    exact ⟨s, .test f, none, rfl, hN, hSZ, good, lt, flags, next, rfl, trivial, mem⟩
  | clear =>
    simp only [legal] at hl
    rw [hl] at pend
    cases pc <;> simp [underWay] at pend
    refine ⟨_, .idle, none, rfl, hN, hSZ, good, by simp [vis, owned], ?_, by simp [vis, taken, handed], hl, trivial, mem⟩
    intro x hx
    simp [hN, hx, flag, vis, owned]
  | release i =>
    simp only [legal] at hl
    refine ⟨{ s with inUse := upd s.inUse i false }, pc, none, rfl, hN, hSZ, good, ?_, ?_, ?_, ?_, ?_, ?_⟩
    · intro x hx
      simp only [vis, List.singleton_append, owned] at hx
      split_ifs at hx; exact lt x hx
    · intro x hx
      have := flags x hx
      by_cases hxi : x = i
      · subst hxi
        cases pc <;> simp only [vis, List.singleton_append, flag, owned, upd_same, if_true]
        rename_i i' f j'
        have : x ≠ i' := by rintro rfl; rw [cur.2] at hl; cases hl
        simp [this]
      · show upd s.inUse i false x = _
        rw [upd_other _ _ hxi, this]
        cases pc <;> simp [vis, flag, owned, hxi]
    · cases pc <;> exact next
    · cases pc <;> exact pend
    · cases pc <;> try exact trivial
      all_goals
        simp only [vis, List.singleton_append, curOk, owned] at cur ⊢
        refine ⟨cur.1, ?_⟩
        split_ifs
        · rfl
        · exact cur.2
    · cases pc <;> exact mem
  | write i j v =>
    simp only [legal] at hl
    have hi := lt i hl.1
    have ha : addr s i j < s.N * s.SZ := by unfold addr; rw [hN, hSZ]; exact addr_lt hi hl.2
    refine ⟨{ s with mem := upd s.mem (addr s i j) v }, pc, none, by simp [step, ha], hN, hSZ, good, lt, ?_, ?_, ?_, ?_, ?_⟩
    · cases pc <;> exact flags
    · cases pc <;> exact next
    · cases pc <;> exact pend
    · cases pc <;> exact cur
    · intro i' hi' j' hj'
      show upd s.mem (addr s i j) v (i' * SZ + j') = _
      rw [addr, hSZ, mem_upd (N := N) hl.2 hj', mem i' hi' j' hj']
      cases pc <;> try rfl
      rename_i i'' f j''
      simp only [vis, List.singleton_append, memAt, contents]
      have : i ≠ i'' := by rintro rfl; rw [cur.2] at hl; cases hl.1
      by_cases h1 : i' = i ∧ j' = j
      · rw [if_pos h1, if_neg (by rw [h1.1]; exact fun hh => this hh.1), if_pos h1]
      · rw [if_neg h1, if_neg h1]
  | read i j =>
    simp only [legal] at hl
    have hi := lt i hl.1
    have ha : addr s i j < s.N * s.SZ := by unfold addr; rw [hN, hSZ]; exact addr_lt hi hl.2
    refine ⟨s, pc, some (.val (s.mem (addr s i j))), by simp [step, ha], hN, hSZ, ⟨?_, good⟩, lt, ?_, ?_, ?_, ?_, ?_⟩
    · rw [addr, hSZ, mem i hi j hl.2]
      cases pc <;> try rfl
      rename_i i'' f j''
      have : i ≠ i'' := by rintro rfl; rw [cur.2] at hl; cases hl.1
      simp [memAt, this]
    · cases pc <;> exact flags
    · cases pc <;> exact next
    · cases pc <;> exact pend
    · cases pc <;> exact cur
    · cases pc <;> exact mem
  | micro =>
    cases pc with
    | idle => exact ⟨s, .idle, none, rfl, hN, hSZ, good, lt, flags, next, pend, cur, mem⟩
    | test f =>
      have hlt : s.next < N := by rw [next]; exact Nat.mod_lt _ hp
      have hf := flags s.next hlt
      simp only [flag] at hf
      simp only [taken] at next
      by_cases hu : s.inUse s.next = false
      · refine ⟨s, .inc s.next f, none, by simp [step, micro, hN, hu, hlt], hN, hSZ, good, lt, flags, next, pend, ⟨next, by show owned h s.next = false; rw [← hf, hu]⟩, mem⟩
      · refine ⟨s, .idle, some .invalid, by simp [step, micro, hN, hu, hlt], hN, hSZ, ⟨?_, good⟩, lt, flags, next, rfl, trivial, mem⟩
        show owned h (handed h % N) = true
        rw [← next, ← hf]; simpa using hu
    | inc i f =>
      refine ⟨{ s with next := incNext s }, .set i f, none, rfl, hN, hSZ, good, lt, flags, incNext_eq hN hp next, pend, cur, mem⟩
    | set i f =>
      have hi : i < N := by rw [cur.1]; exact Nat.mod_lt _ hp
      cases f with
      | none =>
        refine ⟨{ s with inUse := upd s.inUse i true }, .idle, some (.desc i), rfl, hN, hSZ, ⟨hi, cur.1, cur.2, good⟩, ?_, ?_, next, rfl, trivial, ?_⟩
        · intro x hx
          simp only [vis, List.singleton_append, owned] at hx
          split_ifs at hx with hc
          · rw [hc]; exact hi
          · exact lt x hx
        · intro x hx
          simp only [vis, List.singleton_append, flag, owned, upd]
          split_ifs
          · rfl
          · exact flags x hx
        · intro i' hi' j' hj'
          show s.mem _ = _
          rw [mem i' hi' j' hj']
          simp only [vis, List.singleton_append, memAt, contents]
          rw [pend]; rfl
      | some v =>
        refine ⟨{ s with inUse := upd s.inUse i true }, .fill i v 0, none, rfl, hN, hSZ, good, lt, ?_, next, pend, cur, ?_⟩
        · intro x hx
          show upd s.inUse i true x = _
          simp only [vis, List.nil_append, flag, upd]
          split_ifs
          · rfl
          · exact flags x hx
        · intro i' hi' j' hj'
          show s.mem _ = _
          rw [mem i' hi' j' hj']; simp [memAt, vis]
    | fill i v j =>
      have hi : i < N := by rw [cur.1]; exact Nat.mod_lt _ hp
      by_cases hj : j < SZ
      · have ha : addr s i j < s.N * s.SZ := by unfold addr; rw [hN, hSZ]; exact addr_lt hi hj
        refine ⟨{ s with mem := upd s.mem (addr s i j) v }, .fill i v (j + 1), none, by simp only [step, micro]; rw [if_pos (by rw [hSZ]; exact hj), if_pos ha], hN, hSZ, good, lt, flags, next, pend, cur, ?_⟩
        intro i' hi' j' hj'
        show upd s.mem (addr s i j) v (i' * SZ + j') = _
        rw [addr, hSZ, mem_upd (N := N) hj hj', mem i' hi' j' hj']
        simp only [memAt, vis, List.nil_append]
        by_cases h1 : i' = i <;> by_cases h2 : j' = j <;> by_cases h3 : j' < j <;> simp [h1, h2, h3] <;> intros <;> omega
      · refine ⟨s, .idle, some (.desc i), by simp [step, micro, hSZ, hj], hN, hSZ, ⟨hi, cur.1, cur.2, good⟩, ?_, flags, next, rfl, trivial, ?_⟩
        · intro x hx
          simp only [vis, List.singleton_append, owned] at hx
          split_ifs at hx with hc
          · rw [hc]; exact hi
          · exact lt x hx
        · intro i' hi' j' hj'
          rw [mem i' hi' j' hj']
          simp only [vis, List.singleton_append, memAt, contents]
          rw [pend]
          simp only [underWay]
          have : j' < j := by omega
          simp [this]

/-- Runs within the contract keep the invariant. -/
theorem reach_inv {N SZ : Nat} {mem : Nat → α} {s : St α} {pc : Pc α} {h : List (Vis α)} (hp : 0 < N) (r : Reach N SZ mem s pc h) :
    Inv N SZ (fun i j => mem (i * SZ + j)) s pc h := by
  induction r with
  | start => exact inv_init N SZ mem
  | next _ hl hs ih =>
    obtain ⟨s', pc', o, h1, h2⟩ := step_inv hp ih hl
    rw [h1] at hs
    cases hs
    exact h2

/-! ## C68 -/

/-- **C68**: at every point of every interleaving within the contract: every buffer was handed out to one owner at a time, in cyclic order, refused only if the
next one was still owned, and every owner has read what was last written through its own buffer's descriptor; the flags of owned buffers say `is_allocated`,
and while no allocation is under way so do no others. -/
theorem C68_exclusive_in_order (N SZ : Nat) (hp : 0 < N) (mem : Nat → α) {s : St α} {pc : Pc α} {h : List (Vis α)} (r : Reach N SZ mem s pc h) :
    Good N (fun i j => mem (i * SZ + j)) h ∧ (∀ i, owned h i = true → i < N ∧ isAllocated s i = true) ∧
      (pending h = none → ∀ i < N, isAllocated s i = owned h i) := by
  have I := reach_inv hp r
  refine ⟨I.good, ?_, ?_⟩
  · intro i hi
    have hlt := I.lt i hi
    refine ⟨hlt, ?_⟩
    rw [isAllocated, I.flags i hlt]
    cases pc <;> simp [flag, hi]
  · intro hpe i hi
    rw [isAllocated, I.flags i hi]
    have := I.pend
    rw [hpe] at this
    cases pc <;> simp [underWay] at this
    rfl

/-- **C68**: within the contract nothing undefined happens: every event of a run has a result. -/
theorem C68_safe (N SZ : Nat) (hp : 0 < N) (mem : Nat → α) {s : St α} {pc : Pc α} {h : List (Vis α)} (r : Reach N SZ mem s pc h) (e : Event α) (hl : legal SZ h e) :
    ∃ s' pc' o, step s pc e = .ok (s', pc', o) ∧ Reach N SZ mem s' pc' (vis e o ++ h) := by
  obtain ⟨s', pc', o, h1, _⟩ := step_inv hp (reach_inv hp r) hl
  exact ⟨s', pc', o, h1, r.next hl h1⟩

/-- The number of micro-steps in a list of events. -/
def micros : List (Event α) → Nat
  | [] => 0
  | .micro :: es => micros es + 1
  | _ :: es => micros es

/-- The micro-steps the call under way still needs. -/
def left (SZ : Nat) : Pc α → Nat
  | .idle => 0
  | .test _ => SZ + 4
  | .inc _ _ => SZ + 3
  | .set _ _ => SZ + 2
  | .fill _ _ j => SZ + 1 - j

theorem left_micro {s s' : St α} {pc pc' : Pc α} {o} (h : step s pc .micro = .ok (s', pc', o)) (hpc : ∀ i f j, pc = .fill i f j → j ≤ s.SZ) :
    (left s.SZ pc' ≤ left s.SZ pc - 1) ∧ s'.SZ = s.SZ ∧ (∀ i f j, pc' = .fill i f j → j ≤ s.SZ) := by
  cases pc with
  | idle => cases h; exact ⟨by simp [left], rfl, by simp⟩
  | test f =>
    simp only [step, micro] at h
    split_ifs at h <;> cases h <;> exact ⟨by simp [left], rfl, by simp⟩
  | inc i f => cases h; exact ⟨by simp [left], rfl, by simp⟩
  | set i f =>
    cases f with
    | none => cases h; exact ⟨by simp [left], rfl, by simp⟩
    | some v => cases h; exact ⟨by simp [left], rfl, by intro i f j hh; cases hh; omega⟩
  | fill i v j =>
    simp only [step, micro] at h
    have := hpc i v j rfl
    split_ifs at h <;> cases h
    · exact ⟨by simp [left]; omega, rfl, by intro i f j hh; cases hh; omega⟩
    · exact ⟨by simp [left], rfl, by simp⟩

theorem left_other {s s' : St α} {pc pc' : Pc α} {e : Event α} {o} (h : step s pc e = .ok (s', pc', o)) (he : e ≠ .micro) (hc : ∀ f, e ≠ .call f) :
    pc' = pc ∧ s'.SZ = s.SZ := by
  cases e <;> simp only [step] at h <;> try (first | exact absurd rfl he | exact absurd rfl (hc _))
  all_goals first
    | (cases h; exact ⟨rfl, rfl⟩)
    | (split_ifs at h; cases h; exact ⟨rfl, rfl⟩)

theorem run_left : ∀ (es : List (Event α)) {s s' : St α} {pc pc' : Pc α} {os}, run s pc es = .ok (s', pc', os) → (∀ e ∈ es, ∀ f, e ≠ .call f) →
    (∀ i f j, pc = .fill i f j → j ≤ s.SZ) → left s.SZ pc' ≤ left s.SZ pc - micros es
  | [], s, s', pc, pc', os, h, _, _ => by cases h; simp [micros]
  | e :: es, s, s', pc, pc', os, h, hc, hpc => by
    simp only [run] at h
    cases hs : step s pc e with
    | error u => rw [hs] at h; cases h
    | ok q =>
      obtain ⟨s1, pc1, o⟩ := q
      rw [hs] at h
      simp only at h
      cases hr : run s1 pc1 es with
      | error u => rw [hr] at h; cases h
      | ok q =>
        obtain ⟨s2, pc2, os2⟩ := q
        rw [hr] at h
        cases h
        have hc' : ∀ e ∈ es, ∀ f, e ≠ .call f := fun x hx => hc x (by simp [hx])
        by_cases hm : e = .micro
        · subst hm
          obtain ⟨h1, h2, h3⟩ := left_micro hs hpc
          have := run_left es hr hc' (by rw [h2]; exact h3)
          rw [h2] at this
          simp only [micros]; omega
        · obtain ⟨rfl, h2⟩ := left_other hs hm (hc e (by simp))
          have := run_left es hr hc' (by rw [h2]; exact hpc)
          rw [h2] at this
          have hmi : micros (e :: es) = micros es := by cases e <;> first | rfl | exact absurd rfl hm
          rw [hmi]; exact this

/-- **C68**: `allocate` never waits: whatever the other threads do meanwhile, it has returned after `BUFFER_SIZE + 4` accesses of its own. -/
theorem C68_wait_free (s s' : St α) (pc pc' : Pc α) (f : Option α) (es : List (Event α)) (os : List (Out α)) (hc : ∀ e ∈ es, ∀ f, e ≠ .call f) (hm : s.SZ + 4 ≤ micros es)
    (h : run s pc (.call f :: es) = .ok (s', pc', os)) : pc' = .idle := by
  simp only [run, step] at h
  cases hr : run s (.test f) es with
  | error u => rw [hr] at h; cases h
  | ok q =>
    obtain ⟨s2, pc2, os2⟩ := q
    rw [hr] at h
    cases h
    have := run_left es hr hc (by simp)
    have hz : left s.SZ pc' = 0 := by simp only [left] at this ⊢; omega
    have hb : ∀ i v j, pc' = Pc.fill i v j → False := by
      intro i v j hh
      have key : ∀ (es : List (Event α)) {s s' : St α} {pc pc' : Pc α} {os}, run s pc es = .ok (s', pc', os) → (∀ e ∈ es, ∀ f, e ≠ .call f) →
          (∀ i f j, pc = .fill i f j → j ≤ s.SZ) → ∀ i f j, pc' = .fill i f j → j ≤ s.SZ := by
        intro es
        induction es with
        | nil => intro s s' pc pc' os h _ hpc; cases h; exact hpc
        | cons e es ih =>
          intro s s' pc pc' os h hc hpc
          simp only [run] at h
          cases hs : step s pc e with
          | error u => rw [hs] at h; cases h
          | ok q =>
            obtain ⟨s1, pc1, o⟩ := q
            rw [hs] at h
            simp only at h
            cases hr : run s1 pc1 es with
            | error u => rw [hr] at h; cases h
            | ok q =>
              obtain ⟨s2, pc2, os2⟩ := q
              rw [hr] at h
              cases h
              by_cases hm : e = .micro
              · subst hm
                obtain ⟨_, h2, h3⟩ := left_micro hs hpc
                rw [← h2] at h3 ⊢
                exact ih hr (fun x hx => hc x (by simp [hx])) h3
              · obtain ⟨rfl, h2⟩ := left_other hs hm (hc e (by simp))
                rw [← h2] at hpc ⊢
                exact ih hr (fun x hx => hc x (by simp [hx])) hpc
      have hj := key es hr hc (by simp) i v j hh
      rw [hh] at hz
      simp only [left] at hz
      omega
    cases pc' <;> first
      | rfl
      | (simp only [left] at hz; omega)
      | exact (hb _ _ _ rfl).elim

/-! ## Cases that meet the hypotheses, and what happens outside the contract -/

def exOut (r : Res (St Nat × Pc Nat × List (Out Nat))) : List (Out Nat) := match r with | .ok (_, _, os) => os | .error _ => []

/-- Two buffers of two elements.  The first is filled with 7 and written to while the second is being handed out; a third allocation is refused; the first is
released in the middle of the next call, before its test, and is handed out again with its old contents. -/
def exEvents : List (Event Nat) :=
  [.call (some 7), .micro, .micro, .micro, .micro, .micro, .micro, .call none, .micro, .write 0 1 5, .micro, .read 0 0, .micro, .read 0 1,
    .call none, .micro, .call none, .release 0, .micro, .micro, .micro, .read 0 1]

example : exOut (run (init 2 2 (fun _ => 0)) .idle exEvents) = [.desc 0, .val 7, .desc 1, .val 5, .invalid, .desc 0, .val 5] := by decide +kernel

/-- The same run is within the contract up to the moment after the write. -/
example : ∃ s pc, Reach 2 2 (fun _ => (0 : Nat)) s pc [.wrote 0 1 5, .call none, .ret (some 0), .call (some 7)] := by
  have r0 := Reach.start (N := 2) (SZ := 2) (mem := fun _ => (0 : Nat))
  have r1 := r0.next (e := .call (some 7)) rfl rfl
  have r2 := r1.next (e := .micro) trivial rfl
  have r3 := r2.next (e := .micro) trivial rfl
  have r4 := r3.next (e := .micro) trivial rfl
  have r5 := r4.next (e := .micro) trivial rfl
  have r6 := r5.next (e := .micro) trivial rfl
  have r7 := r6.next (e := .micro) trivial rfl
  have r8 := r7.next (e := .call none) rfl rfl
  have r9 := r8.next (e := .micro) trivial rfl
  have r10 := r9.next (e := .write 0 1 5) ⟨rfl, by decide⟩ rfl
  exact ⟨_, _, r10⟩

/-- Finding: releasing a copy of a descriptor a second time, after the buffer has been handed out again, gives one buffer to two owners. -/
theorem second_release_shares_buffer :
    exOut (run (init 1 1 (fun _ => 0)) .idle [.call none, .micro, .micro, .micro, .release 0, .call none, .micro, .micro, .micro, .release 0, .call none, .micro, .micro, .micro]) =
      [.desc 0, .desc 0, .desc 0] := by decide +kernel

end Etl.BufDesc
