import Verif.TimerIsr.Steps
import Mathlib.Data.List.Induction

/-!
# Timers ticked from an interrupt (C64) and what their callbacks may do (C65)

The specification is in `Spec`.
-/
namespace Etl.TimerIsr
open Etl.Timer

/-- Well formed calls. -/
def ActOk (max : Nat) : Act → Prop
  | .call (.op o) => OpOk max o
  | _ => True

/-- `stop`, `unregister_timer`, `set_period` and `set_mode` look whether the timer is running, and take it out of the list later.  No tick in between is the one at which that timer, not being a repeating one, expires:
the timer is still running after the tick. -/
def Clean (v : Variant) (fuel max : Nat) (es : List Act) : Prop :=
  ∀ pre c post s s' o k i, es = pre ++ .tick c :: post → run v fuel (init max) pre = .ok s → act v fuel s (.tick c) = .ok s' → s.pc = .run o (.enter (.remove k i)) → (s'.t.timers i).delta ≠ Inactive

theorem run_append {v : Variant} {fuel : Nat} : ∀ (es fs : List Act) (s : S), run v fuel s (es ++ fs) = (match run v fuel s es with | .error u => .error u | .ok s' => run v fuel s' fs)
  | [], fs, s => rfl
  | e :: es, fs, s => by
    simp only [List.cons_append, run]
    cases act v fuel s e with
    | error u => rfl
    | ok s' => exact run_append es fs s'

theorem inv_act {v : Variant} {max fuel : Nat} {s : S} {sp : Sp} {h : Trace} (hI : Inv v max s sp h) (a : Act) (ha : ActOk max a)
    (hcl : ∀ c, a = .tick c → ∀ s' o k i, tick v fuel s c = .ok s' → s.pc = .run o (.enter (.remove k i)) → (s'.t.timers i).delta ≠ Inactive) :
    act v fuel s a = .error .diverge ∨ ∃ s' sp' h', act v fuel s a = .ok s' ∧ Inv v max s' sp' h' ∧ ((sp' = sp ∧ h' = h) ∨ (∃ o p r, s.pc = .run o p ∧ h' = h ∧ Does max sp h (.call o r) sp' h) ∨ ∃ c, Does max sp h (.tick c true) sp' h') := by
  cases a with
  | call o =>
    unfold act
    cases hpc : s.pc with
    | run _ _ => exact .inr ⟨s, sp, h, rfl, hI, .inl ⟨rfl, rfl⟩⟩
    | idle =>
      refine .inr ⟨_, sp, h, rfl, ⟨?_, hI.log, hI.max, ⟨?_, ?_⟩, ?_, trivial⟩, .inl ⟨rfl, rfl⟩⟩
      · show Legal max (items (s.trace ++ [.inv o])) sp h
        rw [items_append]; simp only [items, List.append_nil]; exact hI.legal
      · have := hI.coup; rw [hpc] at this; exact this
      · intro p hp; subst hp; show OpOk s.t.max p; rw [hI.max]; exact ha
      · have := hI.thr; rw [hpc] at this; exact .inv this
  | step =>
    obtain ⟨s', sp', e1, e2, e3⟩ := inv_step hI
    refine .inr ⟨s', sp', h, e1, e2, ?_⟩
    rcases e3 with e3 | ⟨o, p, r, e3, e4⟩
    · exact .inl ⟨e3, rfl⟩
    · exact .inr (.inl ⟨o, p, r, e3, rfl, e4⟩)
  | tick c =>
    rcases inv_tick hI (hcl c rfl) with e | ⟨s', sp', h', e1, e2, e3⟩
    · exact .inl e
    · exact .inr ⟨s', sp', h', e1, e2, e3.elim .inl (fun e => .inr (.inr ⟨c, e⟩))⟩

theorem inv_run {v : Variant} {max fuel : Nat} (hmax : max ≤ 254) (es : List Act) (hok : ∀ a ∈ es, ActOk max a) (hcl : Clean v fuel max es) :
    run v fuel (init max) es = .error .diverge ∨ ∃ s sp h, run v fuel (init max) es = .ok s ∧ Inv v max s sp h := by
  induction es using List.reverseRecOn with
  | nil => exact .inr ⟨_, _, _, rfl, inv_init v hmax⟩
  | append_singleton es a ih =>
    rw [run_append]
    rcases ih (fun a ha => hok a (by simp [ha])) (fun pre c post s s' o k i e => hcl pre c (post ++ [a]) s s' o k i (by rw [e]; simp)) with e | ⟨s, sp, h, e1, e2⟩
    · rw [e]; exact .inl rfl
    · rw [e1]
      simp only [run]
      rcases inv_act (fuel := fuel) e2 a (hok a (by simp)) (fun c hc s' o k i ht hp => hcl es c [] s s' o k i (by rw [hc]) e1 ht hp) with g | ⟨s', sp', h', g1, g2, _⟩
      · rw [g]; exact .inl rfl
      · rw [g1]; exact .inr ⟨s', sp', h', rfl, g2⟩

/-- **C64.** Three ways of protecting the list, a thread that makes calls, and ticks that come in at any moment, in the middle of any call: nothing undefined happens, and if every tick returns, the calls with their answers,
the ticks with theirs, and the timers fired, are those of some history in which every call is done at one moment between its beginning and its end.
The one thing the user has to see to is `Clean`. -/
theorem C64_calls_and_ticks_linearizable (v : Variant) (max fuel : Nat) (hmax : max ≤ 254) (es : List Act) (hok : ∀ a ∈ es, ActOk max a) (hcl : Clean v fuel max es) :
    run v fuel (init max) es = .error .diverge ∨ ∃ s h, run v fuel (init max) es = .ok s ∧ Linearizable max (visible s.trace) h ∧ s.t.log = h.map Prod.fst := by
  rcases inv_run hmax es hok hcl with e | ⟨s, sp, h, e1, e2⟩
  · exact .inl e
  · exact .inr ⟨s, h, e1, ⟨s.trace, rfl, ⟨_, e2.thr⟩, sp, e2.legal⟩, e2.log⟩

theorem does_trace {max : Nat} {s s' : Sp} {h h' : Trace} {x : Item} (hd : Does max s h x s' h') (hf : Fresh s) (hs : h.Pairwise (fun a b => a.2 ≤ b.2)) (hle : ∀ a ∈ h, a.2 ≤ s.now) :
    Fresh s' ∧ h'.Pairwise (fun a b => a.2 ≤ b.2) ∧ (∀ a ∈ h', a.2 ≤ s'.now) ∧ s.now ≤ s'.now := by
  cases hd with
  | op h1 => have := specOp_now h1; exact ⟨specOp_fresh h1 hf, hs, by rw [this]; exact hle, by omega⟩
  | hasActive _ => exact ⟨hf, hs, hle, Nat.le_refl _⟩
  | next _ _ => exact ⟨hf, hs, hle, Nat.le_refl _⟩
  | nextNone _ => exact ⟨hf, hs, hle, Nat.le_refl _⟩
  | isActive _ => exact ⟨hf, hs, hle, Nat.le_refl _⟩
  | missed => exact ⟨hf, hs, hle, Nat.le_refl _⟩
  | tick _ h1 =>
    obtain ⟨n, e1, e2, e3, e4, e5⟩ := specTick_trace h1 hf (by omega)
    refine ⟨e4, ?_, ?_, by omega⟩
    · rw [e1, List.pairwise_append]
      exact ⟨hs, e3, fun a ha b hb => Nat.le_trans (hle a ha) (e2 b hb).1⟩
    · intro a ha
      rw [e1] at ha
      rcases List.mem_append.1 ha with ha | ha
      · have := hle a ha; omega
      · have := (e2 a ha).2; omega

/-- The time counted: that of the ticks answered with true. -/
def elapsed : List Ev → Nat
  | [] => 0
  | .tick c true :: t => c + elapsed t
  | _ :: t => elapsed t

def elapsedI : List Item → Nat
  | [] => 0
  | .tick c true :: t => c + elapsedI t
  | _ :: t => elapsedI t

theorem elapsedI_append (a b : List Item) : elapsedI (a ++ b) = elapsedI a + elapsedI b := by
  induction a with
  | nil => simp [elapsedI]
  | cons e a ih =>
    cases e with
    | call o r => simp [elapsedI, ih]
    | tick c b => cases b <;> simp [elapsedI, ih]; omega

theorem elapsed_items : ∀ t, elapsedI (items t) = elapsed t
  | [] => rfl
  | .inv o :: t => by simp only [items, elapsed]; exact elapsed_items t
  | .ret o r :: t => by simp only [items, elapsed]; exact elapsed_items t
  | .lin o r :: t => by simp only [items, elapsed, elapsedI]; exact elapsed_items t
  | .tick c b :: t => by cases b <;> simp only [items, elapsed, elapsedI, elapsed_items t]

theorem elapsed_visible : ∀ t, elapsed (visible t) = elapsed t
  | [] => rfl
  | .inv o :: t => by simp only [visible, elapsed]; exact elapsed_visible t
  | .ret o r :: t => by simp only [visible, elapsed]; exact elapsed_visible t
  | .lin o r :: t => by simp only [visible, elapsed]; exact elapsed_visible t
  | .tick c b :: t => by cases b <;> simp only [visible, elapsed, elapsed_visible t]

theorem legal_trace {max : Nat} {l : List Item} {s : Sp} {h : Trace} (hl : Legal max l s h) : Fresh s ∧ h.Pairwise (fun a b => a.2 ≤ b.2) ∧ (∀ a ∈ h, a.2 ≤ s.now) ∧ s.now = elapsedI l := by
  induction hl with
  | nil => exact ⟨by intro i d hd; simp [Sp.init] at hd, .nil, by simp, rfl⟩
  | @snoc l s h x s' h' _ hd ih =>
    obtain ⟨e1, e2, e3, _⟩ := does_trace hd ih.1 ih.2.1 ih.2.2.1
    refine ⟨e1, e2, e3, ?_⟩
    rw [elapsedI_append, ← ih.2.2.2]
    cases hd with
    | op h1 => simp [elapsedI, specOp_now h1]
    | tick _ h1 => rw [(specTick_cfg h1).2.2]; simp [elapsedI]
    | _ => simp [elapsedI]

/-- **C64.** The timers fire in the order of their deadlines, none before its time: the firings carry times that do not go down and are not after the time counted by the accepted ticks; time rejected ticks reported is not counted. -/
theorem C64_fires_in_deadline_order (v : Variant) (max fuel : Nat) (hmax : max ≤ 254) (es : List Act) (hok : ∀ a ∈ es, ActOk max a) (hcl : Clean v fuel max es) (s : S) (hr : run v fuel (init max) es = .ok s) :
    ∃ h : Trace, Linearizable max (visible s.trace) h ∧ s.t.log = h.map Prod.fst ∧ h.Pairwise (fun a b => a.2 ≤ b.2) ∧ ∀ a ∈ h, a.2 ≤ elapsed (visible s.trace) := by
  rcases inv_run hmax es hok hcl with e | ⟨s', sp, h, e1, e2⟩
  · rw [hr] at e; cases e
  · rw [hr] at e1; injection e1 with e1; subst e1
    obtain ⟨f1, f2, f3, f4⟩ := legal_trace e2.legal
    exact ⟨h, ⟨s.trace, rfl, ⟨_, e2.thr⟩, sp, e2.legal⟩, e2.log, f2, by rw [elapsed_visible, ← elapsed_items, ← f4]; exact f3⟩

/-- **C64.** A tick is answered with false only if ticking is disabled or, where the list is protected by a counter or a lock, a call is going on; with interrupts masked, a tick that comes in is answered with false only if ticking is disabled. -/
theorem C64_tick_answer (v : Variant) (fuel c : Nat) (s s' : S) (h : act v fuel s (.tick c) = .ok s') :
    (s'.trace = s.trace ++ [.tick c true] ∧ s.t.enabled = true) ∨ (s'.trace = s.trace ++ [.tick c false] ∧ s'.t = s.t ∧ (s.t.enabled = false ∨ (v ≠ .interrupt ∧ s.pc ≠ .idle))) ∨
    (v = .interrupt ∧ s.pc ≠ .idle ∧ s' = s) := by
  simp only [act, tick] at h
  by_cases hb : busy s.pc = true
  · have hp : s.pc ≠ .idle := by intro e; rw [e] at hb; simp [busy] at hb
    rw [if_pos hb] at h
    by_cases hv : v = .interrupt
    · rw [if_pos hv] at h; injection h with h; exact .inr (.inr ⟨hv, hp, h.symm⟩)
    · rw [if_neg hv] at h; injection h with h; subst h; exact .inr (.inl ⟨rfl, rfl, .inr ⟨hv, hp⟩⟩)
  · rw [if_neg hb] at h
    unfold tickA at h
    by_cases he : s.t.enabled = true
    · rw [if_pos he] at h
      cases hl : loopA (fun _ _ => []) fuel c s.t with
      | error u => rw [hl] at h; cases h
      | ok t => rw [hl] at h; simp only at h; injection h with h; subst h; exact .inl ⟨rfl, he⟩
    · rw [if_neg he] at h; simp only at h; injection h with h; subst h
      exact .inr (.inl ⟨rfl, rfl, .inl (by simpa using he)⟩)

/-! ## A stopped timer does not fire -/

/-- Events that do not start timer `i`. -/
def ActNoStart (i : Nat) : Act → Prop
  | .call (.op (.start j _)) => j ≠ i
  | _ => True

/-- A call that starts timer `i` is not going on. -/
def PcNoStart (i : Nat) : Pc → Prop
  | .run (.op (.start j _)) _ => j ≠ i
  | _ => True

theorem act_pcNoStart {v : Variant} {fuel i : Nat} {s s' : S} {a : Act} (ha : ActNoStart i a) (hp : PcNoStart i s.pc) (h : act v fuel s a = .ok s') : PcNoStart i s'.pc := by
  have hsame : ∀ o p, s.pc = .run o p → ∀ q, PcNoStart i (.run o q) := by
    intro o p e q; rw [e] at hp
    cases o with
    | op x => cases x <;> first | trivial | exact hp
    | _ => trivial
  cases a with
  | call o =>
    simp only [act] at h
    cases hpc : s.pc with
    | run o' p => rw [hpc] at h; simp only at h; injection h with h; subst h; exact hp
    | idle =>
      rw [hpc] at h; simp only at h; injection h with h; subst h
      cases o with
      | op x => cases x <;> first | trivial | exact ha
      | _ => trivial
  | tick c =>
    simp only [act, tick] at h
    split at h
    · split at h <;> (injection h with h; subst h; exact hp)
    · split at h
      · cases h
      · injection h with h; subst h; exact hp
  | step =>
    simp only [act] at h
    unfold step at h
    cases hpc : s.pc with
    | idle => rw [hpc] at h; simp only at h; injection h with h; subst h; exact hp
    | run o p =>
      have hq := hsame o p hpc
      rw [hpc] at h
      cases p with
      | begin =>
        simp only at h
        split at h
        · cases h
        · injection h with h; subst h; exact hq _
        · injection h with h; subst h; exact hq _
      | enter x => injection h with h; subst h; exact hq _
      | body x =>
        simp only at h
        split at h
        · cases h
        · injection h with h; subst h; exact hq _
      | leave x r => injection h with h; subst h; exact hq _
      | create a b c => injection h with h; subst h; exact hq _
      | finish k i => injection h with h; subst h; exact hq _
      | wipe k =>
        simp only at h
        split at h <;> (injection h with h; subst h; exact hq _)
      | ret r => injection h with h; subst h; trivial

/-- Ops that are about to take effect do not start `i`, so that it stays stopped. -/
theorem inv_act_stopped {v : Variant} {max fuel i : Nat} {s s' : S} {sp : Sp} {h : Trace} (hI : Inv v max s sp h) (a : Act) (ha : ActOk max a) (hns : ActNoStart i a) (hp : PcNoStart i s.pc) (hd : sp.due i = none)
    (hcl : ∀ c, a = .tick c → ∀ s' o k i, tick v fuel s c = .ok s' → s.pc = .run o (.enter (.remove k i)) → (s'.t.timers i).delta ≠ Inactive) (hr : act v fuel s a = .ok s') :
    ∃ sp' h', Inv v max s' sp' h' ∧ sp'.due i = none ∧ ∃ n : List Nat, s'.t.log = s.t.log ++ n ∧ i ∉ n := by
  rcases inv_act (fuel := fuel) hI a ha hcl with e | ⟨s2, sp', h', e1, e2, e3⟩
  · rw [hr] at e; cases e
  · rw [hr] at e1; injection e1 with e1; subst e1
    refine ⟨sp', h', e2, ?_⟩
    have same : h' = h → ∃ n : List Nat, s'.t.log = s.t.log ++ n ∧ i ∉ n := by
      intro hh; exact ⟨[], by rw [e2.log, hI.log, hh]; simp, by simp⟩
    rcases e3 with ⟨rfl, rfl⟩ | ⟨o, p, r, hpc, rfl, hD⟩ | ⟨c, hD⟩
    · exact ⟨hd, same rfl⟩
    · refine ⟨?_, same rfl⟩
      have hq : ∀ q, o = .op q → NoStart i q := by
        intro q hq; rw [hpc, hq] at hp
        cases q <;> first | trivial | exact hp
      cases hD with
      | op h1 => exact specOp_noStart h1 (hq _ rfl) hd
      | _ => exact hd
    · cases hD with
      | tick _ h1 =>
        obtain ⟨n, f1, f2, f3⟩ := specTick_noStart h1 i (by intro j l o ho; simp at ho) hd
        refine ⟨f2, n.map Prod.fst, by rw [e2.log, hI.log, f1]; simp, ?_⟩
        intro hm
        obtain ⟨x, hx, hxi⟩ := List.mem_map.1 hm
        exact f3 x hx hxi

theorem stopped_run {v : Variant} {max fuel i : Nat} (pre : List Act) : ∀ (es : List Act) (s s' : S) (sp : Sp) (h : Trace), run v fuel (init max) pre = .ok s → Inv v max s sp h → (∀ a ∈ es, ActOk max a ∧ ActNoStart i a) → PcNoStart i s.pc →
    sp.due i = none → Clean v fuel max (pre ++ es) → run v fuel s es = .ok s' → ∃ n : List Nat, s'.t.log = s.t.log ++ n ∧ i ∉ n := by
  intro es
  induction es generalizing pre with
  | nil => intro s s' sp h _ _ _ _ _ _ hr; injection hr with hr; subst hr; exact ⟨[], by simp, by simp⟩
  | cons a es ih =>
    intro s s' sp h hpre hI hok hp hd hcl hr
    rw [run] at hr
    cases ha : act v fuel s a with
    | error u => rw [ha] at hr; cases hr
    | ok s1 =>
      rw [ha] at hr
      simp only at hr
      obtain ⟨sp1, h1, e1, e2, n, e3, e4⟩ := inv_act_stopped (i := i) hI a (hok a (by simp)).1 (hok a (by simp)).2 hp hd
        (fun c hc s' o k i ht hpc => hcl pre c es s s' o k i (by rw [hc]) hpre ht hpc) ha
      obtain ⟨m, f1, f2⟩ := ih (pre ++ [a]) s1 s' sp1 h1 (by rw [run_append, hpre]; simp only [run, ha]) e1 (fun b hb => hok b (by simp [hb])) (act_pcNoStart (hok a (by simp)).2 hp ha) e2 (by simpa using hcl) hr
      exact ⟨n ++ m, by rw [f1, e3]; simp, by simp [e4, f2]⟩

/-- **C64.** After `stop(i)` has returned true, timer `i` does not fire, whatever calls are made and whenever ticks come in, until `start(i)` is called. -/
theorem C64_stopped_never_fires (v : Variant) (max fuel i : Nat) (hmax : max ≤ 254) (es fs : List Act) (hok : ∀ a ∈ es ++ fs, ActOk max a) (hns : ∀ a ∈ fs, ActNoStart i a) (hcl : Clean v fuel max (es ++ .step :: fs))
    (s s1 s' : S) (hr : run v fuel (init max) es = .ok s) (hs : act v fuel s .step = .ok s1) (hret : s1.trace = s.trace ++ [.ret (.op (.stop i)) yes]) (hr' : run v fuel s1 fs = .ok s') :
    ∃ n : List Nat, s'.t.log = s1.t.log ++ n ∧ i ∉ n := by
  have hcl1 : Clean v fuel max es := fun pre c post s s' o k j e => hcl pre c (post ++ .step :: fs) s s' o k j (by rw [e]; simp)
  rcases inv_run hmax es (fun a ha => hok a (by simp [ha])) hcl1 with e | ⟨s2, sp, h, e1, e2⟩
  · rw [hr] at e; cases e
  · rw [hr] at e1; injection e1 with e1; subst e1
    -- the step is the return of `stop(i)`
    have hpc : s.pc = .run (.op (.stop i)) (.ret yes) := by
      simp only [act] at hs
      unfold step at hs
      cases hp : s.pc with
      | idle => rw [hp] at hs; simp only at hs; injection hs with hs; subst hs; simp at hret
      | run o p =>
        rw [hp] at hs
        cases p with
        | begin =>
          simp only at hs
          split at hs
          · cases hs
          · injection hs with hs; subst hs; simp at hret
          · injection hs with hs; subst hs; simp at hret
        | enter x => injection hs with hs; subst hs; simp at hret
        | body x =>
          simp only at hs
          split at hs
          · cases hs
          · injection hs with hs; subst hs; simp only at hret; split at hret <;> simp at hret
        | leave x r => injection hs with hs; subst hs; simp at hret
        | create a b c => injection hs with hs; subst hs; simp at hret
        | finish k i => injection hs with hs; subst hs; simp at hret
        | wipe k =>
          simp only at hs
          split at hs <;> (injection hs with hs; subst hs; simp at hret)
        | ret r => injection hs with hs; subst hs; simp at hret; rw [hret.1, hret.2]
    have hco := e2.coup
    rw [hpc] at hco
    have hd : sp.due i = none := hco.2 i rfl rfl
    have hs1 : s1 = { s with pc := .idle, trace := s.trace ++ [.ret (.op (.stop i)) yes] } := by
      simp only [act] at hs; unfold step at hs; rw [hpc] at hs; simp only at hs; injection hs with hs; exact hs.symm
    have hI1 : Inv v max s1 sp h := by
      rw [hs1]
      refine ⟨?_, e2.log, e2.max, hco.1, ?_, trivial⟩
      · show Legal max (items (s.trace ++ [.ret _ _])) sp h
        rw [items_append]; simp only [items, List.append_nil]; exact e2.legal
      · have := e2.thr; rw [hpc] at this; exact .ret this
    refine stopped_run (es ++ [.step]) fs s1 s' sp h (by rw [run_append, hr]; simp only [run, hs]) hI1 (fun a ha => ⟨hok a (by simp [ha]), hns a ha⟩) (by rw [hs1]; trivial) hd (by simpa using hcl) hr'

/-! ## When is a schedule clean? -/

/-- If, whenever a tick comes in between the look and the removal, ticking is disabled or the timer is a repeating one, the schedule is clean. -/
theorem C64_repeating_timers_are_safe (v : Variant) (max fuel : Nat) (hmax : max ≤ 254) (es : List Act) (hok : ∀ a ∈ es, ActOk max a)
    (h : ∀ pre c post s o k i, es = pre ++ .tick c :: post → run v fuel (init max) pre = .ok s → s.pc = .run o (.enter (.remove k i)) → s.t.enabled = false ∨ (s.t.timers i).repeating = true) : Clean v fuel max es := by
  induction es using List.reverseRecOn with
  | nil => intro pre c post s s' o k i e; cases pre <;> simp at e
  | append_singleton es a ih =>
    have hcl := ih (fun a ha => hok a (by simp [ha])) (fun pre c post s o k i e => h pre c (post ++ [a]) s o k i (by rw [e]; simp))
    intro pre c post s s' o k i e hr ht hpc
    rcases List.eq_nil_or_concat post with rfl | ⟨post', b, rfl⟩
    · have e' : es ++ [a] = pre ++ [.tick c] := e
      obtain ⟨rfl, e''⟩ := List.append_inj' e' rfl
      injection e'' with e'' _; subst e''
      rcases inv_run hmax es (fun a ha => hok a (by simp [ha])) hcl with g | ⟨s2, sp, hh, g1, g2⟩
      · rw [hr] at g; cases g
      · rw [hr] at g1; injection g1 with g1; subst g1
        have hco := g2.coup
        rw [hpc] at hco
        obtain ⟨⟨D, hR⟩, ho, hi, hc, hd, hper⟩ := hco
        have hact : i ∈ ids D := by by_contra hn; exact hd ((due_none hR).2 hn)
        simp only [act, tick] at ht
        rw [if_neg (by rw [hpc]; simp [busy])] at ht
        unfold tickA at ht
        by_cases he : s.t.enabled = true
        · rw [if_pos he] at ht
          have hrep := (h es c [] s o k i rfl hr hpc).resolve_left (by rw [he]; simp)
          rcases loopA_R (cb := noCb) fuel c hR (by intro i l o ho; simp [noCb] at ho) g2.log with f | ⟨t', sp', D', h', f1, f2, f3, f4, f5⟩
          · unfold noCb at f; rw [f] at ht; cases ht
          · unfold noCb at f1; rw [f1] at ht; simp only at ht; injection ht with ht; subst ht
            refine (f3.active_iff (by rw [f5]; exact hi)).2 ?_
            have hcf : sp.cfg i = some ((s.t.timers i).period, true) := by
              rcases hR.cfg i hi with x | x
              · rw [x.2, hrep]
              · exact absurd x.2 hc
            have := specTick_repeating i _ f2 hcf hd
            by_contra hn
            exact this ((due_none f3).2 hn)
        · rw [if_neg he] at ht; simp only at ht; injection ht with ht; subst ht
          exact (hR.active_iff hi).2 hact
    · have e' : es ++ [a] = (pre ++ .tick c :: post') ++ [b] := by rw [e]; simp
      obtain ⟨e1, _⟩ := List.append_inj' e' rfl
      exact hcl pre c post' s s' o k i e1 hr ht hpc

/-! ## `tick` returns -/

theorem loopA_returns {cb : Nat → List Nat → List Op} (hns : ∀ i l, ∀ o ∈ cb i l, ∀ j b, o ≠ .start j b) : ∀ (fuel count : Nat) {s : St} {sp : Sp} {D : DL}, R s sp D → (∀ i l, ∀ o ∈ cb i l, OpOk s.max o ∧ Leaves i o) → Q sp →
    msum (sp.now + count) sp.due s.max < fuel → ∃ s', loopA cb fuel count s = .ok s'
  | 0, _, _, _, _, _, _, _, h => by omega
  | fuel + 1, count, s, sp, D, hR, hcb, hq, hm => by
    rw [loopA]
    by_cases hN : s.head = NO
    · rw [if_pos hN]; exact ⟨s, rfl⟩
    · rw [if_neg hN]
      cases D with
      | nil => exact absurd ((head_none hR).2 rfl) hN
      | cons y D =>
        obtain ⟨x, d⟩ := y
        have hh : s.head = x := hR.lst.head
        have hx := hR.lst.lt x (by simp [ids])
        have hrep := hR.lst.rep
        have hxd : (s.timers x).delta = d - sp.now ∧ sp.now ≤ d := by simp only [Rep] at hrep; exact ⟨hrep.2.2.2.1, hrep.2.2.1⟩
        rw [hh, if_neg (fun hc => hc hx.1)]
        by_cases hc : count ≥ (s.timers x).delta
        · rw [if_pos hc]
          obtain ⟨s1, sp1, D1, p, r, f1, f2, f3, f4, f5, f6⟩ := fireA_R hR hcb
          rw [f1]
          simp only
          have hdue := (hR.due x d).2 (by simp)
          have hq1 : Q { sp with now := d, due := Timer.set sp.due x (if r then some (d + p) else none) } := by
            intro j e p' he hc'
            by_cases hj : j = x
            · subst hj; exact hq j d p' hdue hc'
            · simp only [set_other _ _ hj] at he; exact hq j e p' he hc'
          have hreg1 : ∀ i e, (Timer.set sp.due x (if r then some (d + p) else none)) i = some e → sp.cfg i ≠ none := by
            intro i e he
            by_cases hj : i = x
            · subst hj; rw [f2]; simp
            · rw [set_other _ _ hj] at he; exact hR.reg_of_due he
          have hsh := specOps_shrinks f3 (hns _ _) hq1 hreg1
          have hnow : sp1.now = d := specOps_now f3
          refine loopA_returns hns fuel _ f4 (by rw [f5]; exact hcb) hsh.2 ?_
          rw [f5, hnow, show d + (count - (s.timers x).delta) = sp.now + count by omega]
          have h1 := msum_le (limit := sp.now + count) hsh.1 s.max
          have h2 := msum_lt (limit := sp.now + count) (due := sp.due) (due' := Timer.set sp.due x (if r then some (d + p) else none)) hdue (by omega) (by
            intro e he
            rw [set_self] at he
            cases r with
            | false => simp at he
            | true =>
              have := hq x d p hdue f2
              simp at he; omega) (fun j hj => set_other _ _ hj) s.max hx.1
          simp only at h1
          omega
        · rw [if_neg hc, put_ok _ hx.1]; exact ⟨_, rfl⟩

theorem coup_cases {v : Variant} {s : St} {sp : Sp} {pc : Pc} (h : Coup v s sp pc) : (∃ spc D, R s spc D) ∨ s.head = NO := by
  have g : (∃ D, R s sp D) → (∃ spc D, R s spc D) ∨ s.head = NO := fun h => .inl ⟨sp, h⟩
  cases pc with
  | idle => exact g h
  | run o p =>
    cases p with
    | begin => exact g h.1
    | enter x => cases x <;> exact g h.1
    | body x => cases x <;> exact g h.1
    | leave x r =>
      cases x with
      | remove k i => obtain ⟨⟨spc, D, c, hR, _⟩, _⟩ := h; exact .inl ⟨spc, D, hR⟩
      | clearList => exact .inr h.1.head
      | _ => exact g h.1
    | create a b c => exact g h.1
    | finish k i => obtain ⟨⟨spc, D, c, hR, _⟩, _⟩ := h; exact .inl ⟨spc, D, hR⟩
    | wipe k => exact .inr h.1.head
    | ret r => exact g h.1

/-- **C64.** `tick` returns, in whatever state it finds the timer, if no repeating timer has period 0: with enough steps allowed, it is not the reason for which `run` stops. -/
theorem C64_tick_returns (v : Variant) (max fuel : Nat) (hmax : max ≤ 254) (es : List Act) (hok : ∀ a ∈ es, ActOk max a) (hcl : Clean v fuel max es) (s : S) (hr : run v fuel (init max) es = .ok s)
    (hq : ∀ i < max, (s.t.timers i).repeating = true → 0 < (s.t.timers i).period) (c : Nat) : ∃ fuel' s', act v fuel' s (.tick c) = .ok s' := by
  rcases inv_run hmax es hok hcl with e | ⟨s2, sp, h, e1, e2⟩
  · rw [hr] at e; cases e
  · rw [hr] at e1; injection e1 with e1; subst e1
    have key : ∃ f t', loopA (fun _ _ => []) f c s.t = .ok t' := by
      rcases coup_cases e2.coup with ⟨spc, D, hR⟩ | hN
      · have hQ : Q spc := by
          intro i d p hd hc
          have hl := hR.lst.lt i (mem_ids ((hR.due i d).1 hd))
          rcases hR.cfg i hl.1 with hh | hh
          · rw [hc] at hh
            have := hh.2; injection this with this; injection this with h1 h2
            rw [h1]; exact hq i (by rw [← e2.max]; exact hl.1) h2.symm
          · rw [hc] at hh; cases hh.2
        obtain ⟨t', e⟩ := loopA_returns (cb := noCb) (by intro i l o ho; simp [noCb] at ho) (msum (spc.now + c) spc.due s.t.max + 1) c hR (by intro i l o ho; simp [noCb] at ho) hQ (by omega)
        exact ⟨_, t', e⟩
      · exact ⟨1, s.t, by rw [loopA, if_pos hN]⟩
    obtain ⟨f, t', ht⟩ := key
    refine ⟨f, ?_⟩
    simp only [act, tick]
    by_cases hb : busy s.pc = true
    · rw [if_pos hb]; split <;> exact ⟨_, rfl⟩
    · rw [if_neg hb]
      unfold tickA
      by_cases he : s.t.enabled = true
      · rw [if_pos he, ht]; exact ⟨_, rfl⟩
      · rw [if_neg he]; exact ⟨_, rfl⟩

/-! ## C65: callbacks that use the timer -/

/-- A history of calls and ticks, one after the other. -/
def runAllA (cb : Nat → List Nat → List Op) (fuel : Nat) : St → List Call → Res (List Ret × St)
  | s, [] => .ok ([], s)
  | s, .op o :: cs =>
    match apply s o with
    | .error u => .error u
    | .ok (r, s) => match runAllA cb fuel s cs with
      | .error u => .error u
      | .ok (rs, s) => .ok (r :: rs, s)
  | s, .tick c :: cs =>
    match tickA cb fuel s c with
    | .error u => .error u
    | .ok (b, s) => match runAllA cb fuel s cs with
      | .error u => .error u
      | .ok (rs, s) => .ok (.bool b :: rs, s)

theorem runAllA_R {cb : Nat → List Nat → List Op} (fuel : Nat) : ∀ (cs : List Call) {s : St} {sp : Sp} {D : DL} {h : Trace}, R s sp D → (∀ i l, ∀ o ∈ cb i l, OpOk s.max o ∧ Leaves i o) → (∀ c ∈ cs, CallOk s.max c) →
    s.log = h.map Prod.fst →
    runAllA cb fuel s cs = .error .diverge ∨
    ∃ rs s' sp' D' h', runAllA cb fuel s cs = .ok (rs, s') ∧ SpecRun s.max cb sp h cs rs sp' h' ∧ R s' sp' D' ∧ s'.log = h'.map Prod.fst ∧ s'.max = s.max
  | [], s, sp, D, h, hR, _, _, hlog => .inr ⟨[], s, sp, D, h, rfl, .nil, hR, hlog, rfl⟩
  | .op o :: cs, s, sp, D, h, hR, hcb, hcs, hlog => by
    obtain ⟨r, s1, sp1, D1, e1, e2, e3, e4⟩ := apply_R hR (hcs (.op o) (by simp))
    rw [runAllA, e1]
    simp only
    rcases runAllA_R fuel cs e3 (by rw [e4.1]; exact hcb) (fun c hc => by rw [e4.1]; exact hcs c (by simp [hc])) (e4.2.trans hlog) with f | ⟨rs, s', sp', D', h', f1, f2, f3, f4, f5⟩
    · rw [f]; exact .inl rfl
    · rw [f1]; exact .inr ⟨_, s', sp', D', h', rfl, .op e2 (by rw [← e4.1]; exact f2), f3, f4, f5.trans e4.1⟩
  | .tick c :: cs, s, sp, D, h, hR, hcb, hcs, hlog => by
    rw [runAllA, tickA]
    by_cases he : s.enabled = true
    · rw [if_pos he]
      rcases loopA_R fuel c hR hcb hlog with g | ⟨s1, sp1, D1, h1, g1, g2, g3, g4, g5⟩
      · rw [g]; exact .inl rfl
      · rw [g1]
        simp only
        rcases runAllA_R fuel cs g3 (by rw [g5]; exact hcb) (fun c hc => by rw [g5]; exact hcs c (by simp [hc])) g4 with f | ⟨rs, s', sp', D', h', f1, f2, f3, f4, f5⟩
        · rw [f]; exact .inl rfl
        · rw [f1]; exact .inr ⟨_, s', sp', D', h', rfl, .tick (by rw [← hR.en]; exact he) g2 (by rw [← g5]; exact f2), f3, f4, f5.trans g5⟩
    · rw [if_neg he]
      simp only
      rcases runAllA_R fuel cs hR hcb (fun c hc => hcs c (by simp [hc])) hlog with f | ⟨rs, s', sp', D', h', f1, f2, f3, f4, f5⟩
      · rw [f]; exact .inl rfl
      · rw [f1]; exact .inr ⟨_, s', sp', D', h', rfl, .tickOff (by rw [← hR.en]; simpa using he) f2, f3, f4, f5⟩

/-- **C65.** In these three files a repeating timer is put back *after* its callback.  As long as a callback leaves its own timer alone (and does not call `clear`), it may make any calls on the others, and everything is as in the specification,
in which the next deadline is set before the callback: no undefined behaviour, and if every `tick` returns, the same answers and the same firings. -/
theorem C65_callbacks_may_use_other_timers (max : Nat) (hmax : max ≤ 254) (cb : Nat → List Nat → List Op) (hcb : ∀ i l, ∀ o ∈ cb i l, OpOk max o ∧ Leaves i o) (cs : List Call) (hcs : ∀ c ∈ cs, CallOk max c) (fuel : Nat) :
    runAllA cb fuel (Timer.init max) cs = .error .diverge ∨
    ∃ rs s sp h, runAllA cb fuel (Timer.init max) cs = .ok (rs, s) ∧ SpecRun max cb Sp.init [] cs rs sp h ∧ s.log = h.map Prod.fst ∧ h.Pairwise (fun x y => x.2 ≤ y.2) := by
  rcases runAllA_R fuel cs (h := []) (init_R hmax) hcb hcs rfl with e | ⟨rs, s, sp, D, h, e1, e2, e3, e4, e5⟩
  · exact .inl e
  · refine .inr ⟨rs, s, sp, h, e1, e2, e4, ?_⟩
    obtain ⟨n, f1, f2, f3, _⟩ := specRun_trace e2 (by intro i d hd; simp [Sp.init] at hd)
    rw [f1]; simpa using f3

/-! ## Examples and findings -/

def look (r : Res S) : Option (List Nat × Nat × Bool) :=
  match r with
  | .ok s => some (s.t.log, s.t.head, match s.pc with | .idle => true | _ => false)
  | .error _ => none

def calls (o : Op) (n : Nat) : List Act := .call (.op o) :: List.replicate n .step

/-- Two repeating timers and a one-shot one; ticks between all steps of `stop(0)`. -/
def demo : List Act := calls (.register 3 true) 3 ++ calls (.register 5 true) 3 ++ calls (.register 4 false) 3 ++ calls (.enable true) 2 ++ calls (.start 0 false) 6 ++ calls (.start 1 false) 6 ++ calls (.start 2 false) 6 ++
  [.tick 3, .call (.op (.stop 0)), .tick 1, .step, .tick 1, .step, .tick 1, .step, .tick 1, .step, .tick 1, .step, .tick 1, .step, .tick 4]

example : look (run .atomic 20 (init 3) demo) = some ([0, 2, 1, 1], 1, true) := by decide +kernel
example : look (run .locked 20 (init 3) demo) = some ([0, 2, 1, 1], 1, true) := by decide +kernel
example : look (run .interrupt 20 (init 3) demo) = some ([0, 2, 1, 1], 1, true) := by decide +kernel

/-- A test for `Clean`, along a run. -/
def cleanFrom (v : Variant) (fuel : Nat) : S → List Act → Bool
  | _, [] => true
  | s, a :: as =>
    match act v fuel s a with
    | .error _ => true
    | .ok s' => (match a, s.pc with | .tick _, .run _ (.enter (.remove _ i)) => decide ((s'.t.timers i).delta ≠ Inactive) | _, _ => true) && cleanFrom v fuel s' as

theorem clean_of_cleanFrom {v : Variant} {fuel max : Nat} {es : List Act} (h : cleanFrom v fuel (init max) es = true) : Clean v fuel max es := by
  have key : ∀ (pre : List Act) (s0 : S) (c : Nat) (post : List Act) (s s' : S) o k i, cleanFrom v fuel s0 (pre ++ .tick c :: post) = true → run v fuel s0 pre = .ok s → act v fuel s (.tick c) = .ok s' →
      s.pc = .run o (.enter (.remove k i)) → (s'.t.timers i).delta ≠ Inactive := by
    intro pre
    induction pre with
    | nil =>
      intro s0 c post s s' o k i hc hr ha hp
      injection hr with hr; subst hr
      simp only [List.nil_append, cleanFrom, ha, hp, Bool.and_eq_true, decide_eq_true_eq] at hc
      exact hc.1
    | cons a pre ih =>
      intro s0 c post s s' o k i hc hr ha hp
      simp only [List.cons_append, cleanFrom] at hc
      rw [run] at hr
      cases hx : act v fuel s0 a with
      | error u => rw [hx] at hr; cases hr
      | ok s1 =>
        rw [hx] at hr hc
        simp only [Bool.and_eq_true] at hc
        exact ih s1 c post s s' o k i hc.2 hr ha hp
  intro pre c post s s' o k i e hr ha hp
  subst e
  exact key pre (init max) c post s s' o k i h hr ha hp

/-- The schedule above, with ticks at every step of `stop`, is clean: `C64` applies to it. -/
example : Clean .atomic 20 3 demo ∧ Clean .locked 20 3 demo ∧ Clean .interrupt 20 3 demo :=
  ⟨clean_of_cleanFrom (by decide +kernel), clean_of_cleanFrom (by decide +kernel), clean_of_cleanFrom (by decide +kernel)⟩

example : ∀ a ∈ demo, ActOk 3 a := by
  intro a ha
  simp only [demo, calls, List.replicate, List.cons_append, List.nil_append, List.append_assoc, List.mem_cons, List.not_mem_nil, or_false] at ha
  rcases ha with rfl | rfl | rfl | rfl | rfl | rfl | rfl | rfl | rfl | rfl | rfl | rfl | rfl | rfl | rfl | rfl | rfl | rfl | rfl | rfl | rfl | rfl | rfl | rfl | rfl | rfl | rfl | rfl | rfl | rfl | rfl | rfl | rfl | rfl | rfl | rfl | rfl | rfl | rfl | rfl | rfl | rfl | rfl | rfl | rfl | rfl | rfl | rfl | rfl | rfl | rfl | rfl | rfl | rfl | rfl <;> simp [ActOk, OpOk, Inactive]

/-- A one-shot timer expires between the look and the removal: `Clean` fails, and `stop` writes to `timer_array[255]`, in all three files. -/
def race (o : Op) : List Act := calls (.register 3 false) 3 ++ calls (.enable true) 2 ++ calls (.start 0 false) 6 ++ [.call (.op o), .step, .tick 3, .step, .step]

def isOob {α : Type} : Res α → Bool
  | .error .outOfBounds => true
  | _ => false

theorem stop_races_with_tick : ∀ v ∈ [Variant.atomic, .interrupt, .locked], isOob (run v 20 (init 4) (race (.stop 0))) = true ∧ isOob (run v 20 (init 4) (race (.unregister 0))) = true ∧
    isOob (run v 20 (init 4) (race (.setPeriod 0 7))) = true ∧ isOob (run v 20 (init 4) (race (.setMode 0 true))) = true := by decide +kernel

/-- The same with the tick one step later, in the section: the tick is rejected, all is well. -/
example : look (run .atomic 20 (init 4) (calls (.register 3 false) 3 ++ calls (.enable true) 2 ++ calls (.start 0 false) 6 ++ [.call (.op (.stop 0)), .step, .step, .tick 3, .step, .step, .step, .step, .tick 3])) = some ([], 255, true) := by decide +kernel

/-- A callback that unregisters its own repeating timer: the record is reset to a *repeating* one with id `NO_TIMER`, which is then put back: `timer_array[255]` is written. -/
theorem unregister_self_out_of_bounds : isOob (runAllA (fun i _ => [.unregister i]) 20 (Timer.init 4) [.op (.register 3 true), .op (.enable true), .op (.start 0 false), .op (.register 9 false), .op (.start 1 false), .tick 3]) = true := by decide +kernel

/-- A callback that stops its own repeating timer: the answer is true, but the timer fires again.  (In `callback_timer.h` it is stopped.) -/
theorem stop_self_is_ignored : (match runAllA (fun i _ => [.stop i]) 20 (Timer.init 4) [.op (.register 3 true), .op (.enable true), .op (.start 0 false), .tick 3, .tick 3, .tick 3] with | .ok (_, s) => s.log | _ => []) = [0, 0, 0] ∧
    (match runAll (fun i _ => [.stop i]) 20 (Timer.init 4) [.op (.register 3 true), .op (.enable true), .op (.start 0 false), .tick 3, .tick 3, .tick 3] with | .ok (_, s) => s.log | _ => []) = [0] := by decide +kernel

/-- A callback that starts its own repeating timer: it is put into the list twice, becomes its own successor and is due at once: `tick` does not return. -/
theorem start_self_corrupts_list : (match runAllA (fun _ _ => []) 20 (Timer.init 4) [.op (.register 3 true), .op (.enable true), .op (.start 0 false)] with
    | .ok (_, s) => (match fireA (fun i _ => [.start i false]) s with
      | .ok s' => decide (s'.head = 0 ∧ (s'.timers 0).next = 0 ∧ (s'.timers 0).prev = 0 ∧ (s'.timers 0).delta = 0)
      | _ => false)
    | _ => false) = true := by decide +kernel

/-- A callback that uses another timer: `C65` applies. -/
def demoCb (i : Nat) (_ : List Nat) : List Op := if i = 0 then [.stop 1, .start 2 false] else []

example : ∀ i l, ∀ o ∈ demoCb i l, OpOk 3 o ∧ Leaves i o := by
  intro i l o ho
  simp only [demoCb] at ho
  split at ho
  · subst i; simp only [List.mem_cons, List.not_mem_nil, or_false] at ho; rcases ho with rfl | rfl <;> simp [OpOk, Leaves]
  · simp at ho

example : (match runAllA demoCb 30 (Timer.init 3) [.op (.register 3 true), .op (.register 5 true), .op (.register 2 false), .op (.enable true), .op (.start 0 false), .op (.start 1 false), .tick 11] with | .ok (_, s) => s.log | _ => []) = [0, 2, 0, 2, 0, 2] := by decide +kernel

end Etl.TimerIsr
