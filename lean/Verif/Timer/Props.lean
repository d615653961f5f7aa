import Verif.Timer.Sim

/-!
# callback_timer: firing in deadline order without drift (C28), registration and bookkeeping (C29)

The specification is in `Spec`: `SpecRun`.
-/
namespace Etl.Timer

/-- A history of calls on the code. -/
def runAll (cb : Nat → List Nat → List Op) (fuel : Nat) : St → List Call → Res (List Ret × St)
  | s, [] => .ok ([], s)
  | s, .op o :: cs =>
    match apply s o with
    | .error u => .error u
    | .ok (r, s) => match runAll cb fuel s cs with
      | .error u => .error u
      | .ok (rs, s) => .ok (r :: rs, s)
  | s, .tick c :: cs =>
    match tick cb fuel s c with
    | .error u => .error u
    | .ok (b, s) => match runAll cb fuel s cs with
      | .error u => .error u
      | .ok (rs, s) => .ok (.bool b :: rs, s)

def CallOk (max : Nat) : Call → Prop
  | .op o => OpOk max o
  | .tick _ => True

theorem init_R {max : Nat} (h : max ≤ 254) : R (init max) Sp.init [] := by
  refine ⟨⟨rfl, rfl, trivial, by simp [ids], by simp [ids], h⟩, by simp [Sp.init], fun i _ => .inr ⟨rfl, rfl⟩, fun i _ => rfl, by simp, fun i _ _ => rfl, fun i => Nat.zero_le _, ?_, rfl⟩
  show 0 = cnt (fun _ => {}) max
  have : ∀ n, cnt (fun _ => {}) n = 0 := by
    intro n; induction n with
    | zero => rfl
    | succ n ih => simp [cnt, ih]
  exact (this _).symm

theorem runAll_R {cb : Nat → List Nat → List Op} (fuel : Nat) : ∀ (cs : List Call) {s : St} {sp : Sp} {D : DL} {h : Trace}, R s sp D → (∀ i l, ∀ o ∈ cb i l, OpOk s.max o) → (∀ c ∈ cs, CallOk s.max c) →
    s.log = h.map Prod.fst →
    runAll cb fuel s cs = .error .diverge ∨
    ∃ rs s' sp' D' h', runAll cb fuel s cs = .ok (rs, s') ∧ SpecRun s.max cb sp h cs rs sp' h' ∧ R s' sp' D' ∧ s'.log = h'.map Prod.fst ∧ s'.max = s.max
  | [], s, sp, D, h, hR, _, _, hlog => .inr ⟨[], s, sp, D, h, rfl, .nil, hR, hlog, rfl⟩
  | .op o :: cs, s, sp, D, h, hR, hcb, hcs, hlog => by
    obtain ⟨r, s1, sp1, D1, e1, e2, e3, e4⟩ := apply_R hR (hcs (.op o) (by simp))
    rw [runAll, e1]
    simp only
    rcases runAll_R fuel cs e3 (by rw [e4.1]; exact hcb) (fun c hc => by rw [e4.1]; exact hcs c (by simp [hc])) (e4.2.trans hlog) with f | ⟨rs, s', sp', D', h', f1, f2, f3, f4, f5⟩
    · rw [f]; exact .inl rfl
    · rw [f1]; exact .inr ⟨_, s', sp', D', h', rfl, .op e2 (by rw [← e4.1]; exact f2), f3, f4, f5.trans e4.1⟩
  | .tick c :: cs, s, sp, D, h, hR, hcb, hcs, hlog => by
    rw [runAll, tick]
    by_cases he : s.enabled = true
    · rw [if_pos he]
      rcases tickLoop_R fuel c hR hcb hlog with g | ⟨s1, sp1, D1, h1, g1, g2, g3, g4, g5⟩
      · rw [g]; exact .inl rfl
      · rw [g1]
        simp only
        rcases runAll_R fuel cs g3 (by rw [g5]; exact hcb) (fun c hc => by rw [g5]; exact hcs c (by simp [hc])) g4 with f | ⟨rs, s', sp', D', h', f1, f2, f3, f4, f5⟩
        · rw [f]; exact .inl rfl
        · rw [f1]; exact .inr ⟨_, s', sp', D', h', rfl, .tick (by rw [← hR.en]; exact he) g2 (by rw [← g5]; exact f2), f3, f4, f5.trans g5⟩
    · rw [if_neg he]
      simp only
      rcases runAll_R fuel cs hR hcb (fun c hc => hcs c (by simp [hc])) hlog with f | ⟨rs, s', sp', D', h', f1, f2, f3, f4, f5⟩
      · rw [f]; exact .inl rfl
      · rw [f1]; exact .inr ⟨_, s', sp', D', h', rfl, .tickOff (by rw [← hR.en]; simpa using he) f2, f3, f4, f5⟩

/-- **C28.** Any history of calls, with callbacks that may call the timer themselves, from the constructor on: no undefined behaviour; if every `tick` returns, the answers, and the timers fired, in their order,
are those of the specification, in which a timer fires exactly at its deadline, earliest deadline first, and a repeating timer's next deadline is the last one plus its period. -/
theorem C28_callback_timer_meets_specification (max : Nat) (hmax : max ≤ 254) (cb : Nat → List Nat → List Op) (hcb : ∀ i l, ∀ o ∈ cb i l, OpOk max o) (cs : List Call) (hcs : ∀ c ∈ cs, CallOk max c) (fuel : Nat) :
    runAll cb fuel (init max) cs = .error .diverge ∨
    ∃ rs s' sp' tr, runAll cb fuel (init max) cs = .ok (rs, s') ∧ SpecRun max cb Sp.init [] cs rs sp' tr ∧ s'.log = tr.map Prod.fst := by
  rcases runAll_R fuel cs (init_R hmax) hcb hcs (h := []) rfl with h | ⟨rs, s', sp', D', h', h1, h2, h3, h4, h5⟩
  · exact .inl h
  · exact .inr ⟨rs, s', sp', h', h1, h2, h4⟩

/-- **C28.** The callbacks are made in the order of their deadlines. -/
theorem C28_fires_in_deadline_order (max : Nat) (hmax : max ≤ 254) (cb : Nat → List Nat → List Op) (hcb : ∀ i l, ∀ o ∈ cb i l, OpOk max o) (cs : List Call) (hcs : ∀ c ∈ cs, CallOk max c) (fuel : Nat)
    (rs : List Ret) (s' : St) (h : runAll cb fuel (init max) cs = .ok (rs, s')) :
    ∃ sp' tr, SpecRun max cb Sp.init [] cs rs sp' tr ∧ s'.log = tr.map Prod.fst ∧ tr.Pairwise (fun x y => x.2 ≤ y.2) ∧ (∀ x ∈ tr, x.2 ≤ sp'.now) ∧ (∀ i d, sp'.due i = some d → sp'.now ≤ d) := by
  rcases C28_callback_timer_meets_specification max hmax cb hcb cs hcs fuel with h1 | ⟨rs', s'', sp', tr, h1, h2, h3⟩
  · rw [h] at h1; cases h1
  · rw [h] at h1; injection h1 with h1; injection h1 with h1 h4; subst h1; subst h4
    obtain ⟨n, e1, e2, e3, e4, e5⟩ := specRun_trace h2 (by intro i d hd; simp [Sp.init] at hd)
    rw [List.nil_append] at e1; subst e1
    exact ⟨sp', tr, h2, h3, e3, fun x hx => (e2 x hx).2, e4⟩

/-- A state the timers can be in, together with what it means. -/
def Reach (max : Nat) (cb : Nat → List Nat → List Op) (s : St) (sp : Sp) (h : Trace) : Prop := max ≤ 254 ∧ s.max = max ∧ s.log = h.map Prod.fst ∧
  (∀ i l, ∀ o ∈ cb i l, OpOk max o) ∧ ∃ D, R s sp D

/-- Every state after a history is such a state. -/
theorem reach_of_run (max : Nat) (hmax : max ≤ 254) (cb : Nat → List Nat → List Op) (hcb : ∀ i l, ∀ o ∈ cb i l, OpOk max o) (cs : List Call) (hcs : ∀ c ∈ cs, CallOk max c) (fuel : Nat)
    (rs : List Ret) (s' : St) (h : runAll cb fuel (init max) cs = .ok (rs, s')) : ∃ sp' tr, SpecRun max cb Sp.init [] cs rs sp' tr ∧ Reach max cb s' sp' tr := by
  rcases runAll_R fuel cs (init_R hmax) hcb hcs (h := []) rfl with h1 | ⟨rs', s'', sp', D', h', h1, h2, h3, h4, h5⟩
  · rw [h] at h1; cases h1
  · rw [h] at h1; injection h1 with h1; injection h1 with h1 h6; subst h1; subst h6
    exact ⟨sp', h', h2, hmax, h5, h4, hcb, D', h3⟩

/-- **C28.** No drift: from any state, a timer with period `p > 0` and deadline `d` that nobody stops, changes or restarts fires exactly at `d`, `d + p`, `d + 2p`, … up to the present (a one shot timer: once, at `d`),
however the elapsed time is divided into ticks, whatever the other timers do, and whatever is called in between. -/
theorem C28_no_drift (max : Nat) (cb : Nat → List Nat → List Op) (s : St) (sp : Sp) (h : Trace) (hr : Reach max cb s sp h) (i d p : Nat) (r : Bool) (hc : sp.cfg i = some (p, r)) (hd : sp.due i = some d) (hp : 0 < p)
    (hcbi : ∀ j l, ∀ o ∈ cb j l, Leaves i o) (cs : List Call) (hcs : ∀ c ∈ cs, CallOk max c) (hcsi : ∀ o, Call.op o ∈ cs → Leaves i o) (htick : ∃ c, Call.tick c ∈ cs) (fuel : Nat) (rs : List Ret) (s' : St)
    (hrun : runAll cb fuel s cs = .ok (rs, s')) (hrs : ∀ c r, (Call.tick c, r) ∈ cs.zip rs → r = Ret.bool true) :
    ∃ (new : Trace), s'.log = s.log ++ new.map Prod.fst ∧ new.Pairwise (fun x y => x.2 ≤ y.2) ∧
      (new.filter (fun x => x.1 = i)).map Prod.snd =
        (if d ≤ sp.now + total cs then (if r then (List.range ((sp.now + total cs - d) / p + 1)).map (fun k => d + k * p) else [d]) else []) := by
  obtain ⟨hmax, hm, hlog, hcb, D, hR⟩ := hr
  subst hm
  rcases runAll_R fuel cs hR hcb hcs hlog with h1 | ⟨rs', s'', sp', D', h', h1, h2, h3, h4, h5⟩
  · rw [hrun] at h1; cases h1
  · rw [hrun] at h1; injection h1 with h1; injection h1 with h1 h6; subst h1; subst h6
    obtain ⟨n, e1, _, _, e4, _⟩ := specRun_timer h2 i hcbi hcsi hrs hp hc
    have hf : Fresh sp := fun j e he => hR.now_le ((hR.due j e).1 he)
    obtain ⟨n', f1, _, f3, _, _⟩ := specRun_trace h2 hf
    have hnn : n' = n := by rw [e1] at f1; exact (List.append_cancel_left f1).symm
    subst hnn
    exact ⟨n', by rw [h4, e1, hlog]; simp, f3, (e4 d hd (.inr htick)).1⟩

/-- **C29.** A timer that has been stopped or unregistered (or never started) is not called back, as long as it is not started again. -/
theorem C29_stopped_never_fires (max : Nat) (cb : Nat → List Nat → List Op) (s : St) (sp : Sp) (h : Trace) (hr : Reach max cb s sp h) (i : Nat) (hd : sp.due i = none)
    (hcbi : ∀ j l, ∀ o ∈ cb j l, NoStart i o) (cs : List Call) (hcs : ∀ c ∈ cs, CallOk max c) (hcsi : ∀ o, Call.op o ∈ cs → NoStart i o) (fuel : Nat) (rs : List Ret) (s' : St)
    (hrun : runAll cb fuel s cs = .ok (rs, s')) : ∃ new : List Nat, s'.log = s.log ++ new ∧ i ∉ new := by
  obtain ⟨hmax, hm, hlog, hcb, D, hR⟩ := hr
  subst hm
  rcases runAll_R fuel cs hR hcb hcs hlog with h1 | ⟨rs', s'', sp', D', h', h1, h2, h3, h4, h5⟩
  · rw [hrun] at h1; cases h1
  · rw [hrun] at h1; injection h1 with h1; injection h1 with h1 h6; subst h1; subst h6
    obtain ⟨n, e1, _, e3⟩ := specRun_noStart h2 i hcbi hcsi hd
    refine ⟨n.map Prod.fst, by rw [h4, e1, hlog]; simp, ?_⟩
    intro hm
    obtain ⟨x, hx, hxi⟩ := List.mem_map.1 hm
    exact e3 x hx hxi

/-- **C29.** Every call answers and changes the registered and running timers as specified: `register_timer` gives an unused id, or `NO_TIMER` exactly if all slots are taken; the calls that name a timer change that
one only; their answer is whether it is registered (and, for `start`, has a period). -/
theorem C29_calls_meet_specification (max : Nat) (cb : Nat → List Nat → List Op) (s : St) (sp : Sp) (h : Trace) (hr : Reach max cb s sp h) (o : Op) (ho : OpOk max o) :
    ∃ r s' sp', apply s o = .ok (r, s') ∧ SpecOp max sp o r sp' ∧ Reach max cb s' sp' h := by
  obtain ⟨hmax, hm, hlog, hcb, D, hR⟩ := hr
  subst hm
  obtain ⟨r, s', sp', D', e1, e2, e3, e4⟩ := apply_R hR ho
  exact ⟨r, s', sp', e1, e2, hmax, e4.1, e4.2.trans hlog, hcb, D', e3⟩

/-- **C29.** `register_timer` gives `NO_TIMER` exactly if `MAX_TIMERS` timers are registered; otherwise an id below `MAX_TIMERS` that was not in use. -/
theorem C29_register_id (max : Nat) (cb : Nat → List Nat → List Op) (s : St) (sp : Sp) (h : Trace) (hr : Reach max cb s sp h) (p : Nat) (r : Bool) (hp : p ≤ Inactive) :
    ∃ i s', apply s (.register p r) = .ok (.id i, s') ∧ (i = NO ↔ ∀ j < max, sp.cfg j ≠ none) ∧ (i ≠ NO → i < max ∧ sp.cfg i = none) := by
  obtain ⟨ret, s', sp', e1, e2, e3⟩ := C29_calls_meet_specification max cb s sp h hr (.register p r) hp
  cases e2 with
  | @register _ _ i hi hc =>
    have : i ≠ NO := by have := hr.1; unfold NO; omega
    exact ⟨i, s', e1, ⟨fun h => absurd h this, fun h => absurd hc (h i hi)⟩, fun _ => ⟨hi, hc⟩⟩
  | registerFull hf => exact ⟨NO, s', e1, ⟨fun _ => hf, fun _ => rfl⟩, fun h => absurd rfl h⟩

/-- **C29.** `stop` and `unregister_timer` of one timer leave the deadlines and settings of all others as they are. -/
theorem C29_others_unaffected (max : Nat) (cb : Nat → List Nat → List Op) (s : St) (sp : Sp) (h : Trace) (hr : Reach max cb s sp h) (i : Nat) (hi : i < max ∨ i = NO) (o : Op) (ho : o = .stop i ∨ o = .unregister i) :
    ∃ b s' sp', apply s o = .ok (.bool b, s') ∧ Reach max cb s' sp' h ∧ sp'.due i = none ∧ (b = true ↔ sp.cfg i ≠ none) ∧ sp'.now = sp.now ∧ ∀ j, j ≠ i → sp'.due j = sp.due j ∧ sp'.cfg j = sp.cfg j := by
  have hnd : sp.cfg i = none → sp.due i = none := by
    intro hc
    obtain ⟨_, hm, _, _, D, hR⟩ := hr
    rw [due_none hR]
    intro hm'
    have hl := hR.lst.lt i hm'
    rcases hR.cfg i hl.1 with hh | hh
    · rw [hh.2] at hc; cases hc
    · exact lt_ne_NO hR hl.1 (hl.2.symm.trans hh.1)
  rcases ho with rfl | rfl
  · obtain ⟨r, s', sp', e1, e2, e3⟩ := C29_calls_meet_specification max cb s sp h hr (.stop i) hi
    cases e2 with
    | stop hc => exact ⟨true, s', _, e1, e3, set_self _ _ _, by simp [hc], rfl, fun j hj => ⟨set_other _ _ hj, rfl⟩⟩
    | stopNot hc => exact ⟨false, s', _, e1, e3, hnd hc, by simp [hc], rfl, fun j hj => ⟨rfl, rfl⟩⟩
  · obtain ⟨r, s', sp', e1, e2, e3⟩ := C29_calls_meet_specification max cb s sp h hr (.unregister i) hi
    cases e2 with
    | unregister hc => exact ⟨true, s', _, e1, e3, set_self _ _ _, by simp [hc], rfl, fun j hj => ⟨set_other _ _ hj, set_other _ _ hj⟩⟩
    | unregisterNot hc => exact ⟨false, s', _, e1, e3, hnd hc, by simp [hc], rfl, fun j hj => ⟨rfl, rfl⟩⟩

/-- **C29.** `time_to_next` is the time to the earliest deadline, or "no interval" if no timer is running; `has_active_timer` and `is_active` tell which are running. -/
theorem C29_time_to_next (max : Nat) (cb : Nat → List Nat → List Op) (s : St) (sp : Sp) (h : Trace) (hr : Reach max cb s sp h) :
    ((∀ i, sp.due i = none) → timeToNext s = Inactive) ∧
    (∀ i d, sp.due i = some d → sp.now + timeToNext s ≤ d ∧ ∃ j, sp.due j = some (sp.now + timeToNext s)) ∧
    (hasActive s = true ↔ ∃ i d, sp.due i = some d) ∧ (∀ i, isActive s i = true ↔ ∃ d, sp.due i = some d) := by
  obtain ⟨hmax, hm, hlog, hcb, D, hR⟩ := hr
  have hact : ∀ i, (∃ d, sp.due i = some d) ↔ i ∈ ids D := by
    intro i; rw [mem_ids_iff]
    exact ⟨fun ⟨d, hd⟩ => ⟨d, (hR.due i d).1 hd⟩, fun ⟨d, hd⟩ => ⟨d, (hR.due i d).2 hd⟩⟩
  refine ⟨?_, ?_, ?_, ?_⟩
  · intro hn
    have : D = [] := by
      cases D with
      | nil => rfl
      | cons x D => obtain ⟨x, d⟩ := x; have := (hR.due x d).2 (by simp); rw [hn x] at this; cases this
    rw [timeToNext, if_neg (fun hc => hc ((head_none hR).2 this))]
  · intro i d hd
    cases D with
    | nil => exact absurd ((hR.due i d).1 hd) (by simp)
    | cons x D =>
      obtain ⟨x, e⟩ := x
      have hh : s.head = x := hR.lst.head
      have hN : s.head ≠ NO := fun hc => by have := (head_none hR).1 hc; cases this
      have hrep := hR.lst.rep
      have hxd : (s.timers x).delta = e - sp.now ∧ sp.now ≤ e := by simp only [Rep] at hrep; exact ⟨hrep.2.2.2.1, hrep.2.2.1⟩
      rw [timeToNext, if_pos hN, hh, hxd.1]
      refine ⟨?_, x, ?_⟩
      · have hm' := (hR.due i d).1 hd
        have hs := rep_sorted hrep
        have : e ≤ d := by
          rcases List.mem_cons.1 hm' with hm' | hm'
          · injection hm' with _ hm'; omega
          · exact (List.pairwise_cons.1 hs).1 _ hm'
        omega
      · rw [show sp.now + (e - sp.now) = e by omega]; exact (hR.due x e).2 (by simp)
  · rw [hasActive, decide_eq_true_iff]
    constructor
    · intro hN
      cases D with
      | nil => exact absurd ((head_none hR).2 rfl) hN
      | cons x D => obtain ⟨x, e⟩ := x; exact ⟨x, e, (hR.due x e).2 (by simp)⟩
    · rintro ⟨i, d, hd⟩ hc
      have := (hR.due i d).1 hd
      rw [(head_none hR).1 hc] at this; simp at this
  · intro i
    rw [hact, isActive]
    simp only [Bool.and_eq_true, decide_eq_true_iff, hasActive]
    constructor
    · rintro ⟨⟨⟨h1, _⟩, _⟩, h4⟩; exact (hR.active_iff h1).1 h4
    · intro hm'
      have hl := hR.lst.lt i hm'
      refine ⟨⟨⟨hl.1, fun hc => ?_⟩, by rw [hl.2]; exact lt_ne_NO hR hl.1⟩, (hR.active_iff hl.1).2 hm'⟩
      rw [(head_none hR).1 hc] at hm'; simp [ids] at hm'

/-! ## Dividing a tick -/

theorem tickLoop_mono {cb : Nat → List Nat → List Op} : ∀ (fuel k count : Nat) (s s' : St), tickLoop cb fuel count s = .ok s' → tickLoop cb (fuel + k) count s = .ok s'
  | 0, _, _, _, _, h => by cases h
  | fuel + 1, k, count, s, s', h => by
    rw [show fuel + 1 + k = (fuel + k) + 1 by omega]
    rw [tickLoop] at h ⊢
    by_cases h1 : s.head = NO
    · rw [if_pos h1] at h ⊢; exact h
    · rw [if_neg h1] at h ⊢
      by_cases h2 : ¬ s.head < s.max
      · rw [if_pos h2] at h; cases h
      · rw [if_neg h2] at h ⊢
        by_cases h3 : count ≥ (s.timers s.head).delta
        · rw [if_pos h3] at h ⊢
          cases hf : fire cb s with
          | error u => rw [hf] at h; cases h
          | ok s1 => rw [hf] at h; exact tickLoop_mono fuel k _ s1 s' h
        · rw [if_neg h3] at h ⊢; exact h

/-- Firing does not depend on the time left. -/
theorem fire_delta {cb : Nat → List Nat → List Op} {s : St} {sp : Sp} {D : DL} {x d : Nat} (h : R s sp ((x, d) :: D)) (v : Nat) :
    fire cb { s with timers := upd s.timers x { s.timers x with delta := v } } = fire cb s := by
  have hx := h.lst.lt x (by simp [ids])
  have hh : s.head = x := h.lst.head
  have hrep := h.lst.rep
  have hnx : (s.timers x).next = hd NO D := by simp only [Rep] at hrep; exact hrep.2.1
  have hne : (s.timers x).next ≠ x := by
    rw [hnx]
    cases D with
    | nil => exact Ne.symm (lt_ne_NO h hx.1)
    | cons y D =>
      obtain ⟨y, e⟩ := y
      have := h.lst.nodup
      simp only [ids, List.map_cons, List.nodup_cons, List.mem_cons, not_or] at this
      exact fun e => this.1.1 e.symm
  have key : remove { s with timers := upd s.timers x { s.timers x with delta := v } } x true = remove s x true := by
    rw [remove, remove, if_pos hx.1, if_pos (show x < s.max from hx.1)]
    simp only [unlinkPrev, hh, if_true, bind, Except.bind, upd_same]
    simp only [unlinkNext, upd_same]
    by_cases ht : s.tail = x
    · simp only [ht, if_true, giveDelta, Bool.true_eq_false, false_and, if_false, put, hx.1]
      congr 2
      funext y; by_cases hy : y = x <;> simp [upd, hy]
    · simp only [ht, if_false, put]
      by_cases hb : (s.timers x).next < s.max
      · simp only [hb, if_true, giveDelta, Bool.true_eq_false, false_and, if_false, put, hx.1]
        congr 2
        funext y
        by_cases hy : y = x
        · subst hy; simp [upd, Ne.symm hne]
        · by_cases hy2 : y = (s.timers x).next <;> simp [upd, hy, hy2, hne]
      · simp only [hb, if_false]
  have e0 : (({ s with timers := upd s.timers x { s.timers x with delta := v } } : St).timers ({ s with timers := upd s.timers x { s.timers x with delta := v } } : St).head).id = x := by
    show (upd s.timers x { s.timers x with delta := v } s.head).id = x
    rw [hh, upd_same]; exact hx.2
  have e1 : (s.timers s.head).id = x := by rw [hh]; exact hx.2
  rw [fire, fire, e0, e1, key]

/-- **C28.** However the elapsed time is divided into ticks: two ticks in a row, of `a` and `b`, leave the very same state, with the same timers called back, as one of `a + b` - for any callbacks, provided they have not
disabled the timers meanwhile. -/
theorem C28_ticks_can_be_divided (max : Nat) (cb : Nat → List Nat → List Op) (s : St) (sp : Sp) (h : Trace) (hr : Reach max cb s sp h) (f1 f2 a b : Nat) (s1 s2 : St)
    (h1 : tick cb f1 s a = .ok (true, s1)) (h2 : tick cb f2 s1 b = .ok (true, s2)) : tick cb (f1 + f2) s (a + b) = .ok (true, s2) := by
  obtain ⟨hmax, hm, hlog, hcb, D, hR⟩ := hr
  subst hm
  have key : ∀ (f1 a : Nat) {s : St} {sp : Sp} {D : DL}, R s sp D → (∀ i l, ∀ o ∈ cb i l, OpOk s.max o) → tickLoop cb f1 a s = .ok s1 → tickLoop cb f2 b s1 = .ok s2 → tickLoop cb (f1 + f2) (a + b) s = .ok s2 := by
    intro f1
    induction f1 with
    | zero => intro a s sp D _ _ h1; cases h1
    | succ f1 ih =>
      intro a s sp D hR hcb h1 h2
      by_cases hN : s.head = NO
      · rw [tickLoop, if_pos hN] at h1
        injection h1 with h1; subst h1
        cases f2 with
        | zero => cases h2
        | succ f2 =>
          rw [tickLoop, if_pos hN] at h2
          rw [show f1 + 1 + (f2 + 1) = (f1 + f2 + 1) + 1 by omega, tickLoop, if_pos hN]; exact h2
      · cases D with
        | nil => exact absurd ((head_none hR).2 rfl) hN
        | cons y D =>
          obtain ⟨x, d⟩ := y
          have hh : s.head = x := hR.lst.head
          have hx := hR.lst.lt x (by simp [ids])
          have hxN : x ≠ NO := lt_ne_NO hR hx.1
          rw [tickLoop, if_neg hN, hh, if_neg (fun hc => hc hx.1)] at h1
          by_cases hc : a ≥ (s.timers x).delta
          · rw [if_pos hc] at h1
            obtain ⟨s3, sp3, D3, p, r, g1, g2, g3, g4, g5, g6⟩ := fire_R hR hcb
            rw [g1] at h1
            simp only at h1
            have := ih _ g4 (by rw [g5]; exact hcb) h1 h2
            rw [show f1 + 1 + f2 = (f1 + f2) + 1 by omega, tickLoop, if_neg hN, hh, if_neg (fun hc => hc hx.1), if_pos (by omega), g1]
            simp only
            rw [show a + b - (s.timers x).delta = a - (s.timers x).delta + b by omega]; exact this
          · rw [if_neg hc, put_ok _ hx.1] at h1
            injection h1 with h1; subst h1
            cases f2 with
            | zero => cases h2
            | succ f2 =>
              rw [tickLoop, if_neg (by show s.head ≠ NO; exact hN), if_neg (by show ¬ ¬ s.head < s.max; rw [hh]; exact fun hc => hc hx.1)] at h2
              simp only [hh, upd_same] at h2
              rw [show f1 + 1 + (f2 + 1) = (f2 + (f1 + 1)) + 1 by omega, tickLoop, if_neg hN, hh, if_neg (fun hc => hc hx.1)]
              by_cases hb : b ≥ (s.timers x).delta - a
              · rw [if_pos hb] at h2
                rw [if_pos (by omega)]
                have hfd := fire_delta (cb := cb) hR ((s.timers x).delta - a)
                rw [hh] at hfd
                rw [hfd] at h2
                cases hf : fire cb s with
                | error u => rw [hf] at h2; cases h2
                | ok s3 =>
                  rw [hf] at h2
                  simp only at h2 ⊢
                  rw [show a + b - (s.timers x).delta = b - ((s.timers x).delta - a) by omega]
                  exact tickLoop_mono f2 (f1 + 1) _ _ _ h2
              · rw [if_neg hb] at h2
                rw [if_neg (by omega), put_ok _ hx.1]
                rw [put_ok _ (by exact hx.1)] at h2
                rw [← h2]
                simp only [upd_same]
                congr 2
                funext y; by_cases hy : y = x <;> simp [upd, hy]
                omega
  have he : s.enabled = true := by
    by_contra he
    rw [tick, if_neg he] at h1; simp at h1
  have he1 : s1.enabled = true := by
    by_contra he
    rw [tick, if_neg he] at h2; simp at h2
  rw [tick, if_pos he] at h1 ⊢
  rw [tick, if_pos he1] at h2
  cases g1 : tickLoop cb f1 a s with
  | error u => rw [g1] at h1; cases h1
  | ok s3 =>
    rw [g1] at h1; injection h1 with h1; injection h1 with _ h1; subst h1
    cases g2 : tickLoop cb f2 b s3 with
    | error u => rw [g2] at h2; cases h2
    | ok s4 =>
      rw [g2] at h2; injection h2 with h2; injection h2 with _ h2; subst h2
      rw [key f1 a hR hcb g1 g2]

/-! ## `tick` returns -/

/-- Steps left until `limit`. -/
def msum (limit : Nat) (due : Nat → Option Nat) : Nat → Nat
  | 0 => 0
  | n + 1 => msum limit due n + (match due n with | some d => limit + 1 - d | none => 0)

theorem msum_le {limit : Nat} {due due' : Nat → Option Nat} (h : ∀ i, due' i = due i ∨ due' i = none) : ∀ n, msum limit due' n ≤ msum limit due n
  | 0 => Nat.le_refl _
  | n + 1 => by
    have := msum_le (limit := limit) h n
    simp only [msum]
    rcases h n with e | e
    · rw [e]; omega
    · rw [e]; simp only; omega

theorem msum_lt {limit : Nat} {due due' : Nat → Option Nat} {i d : Nat} (hd : due i = some d) (hl : d ≤ limit) (h' : ∀ e, due' i = some e → d < e) (h : ∀ j, j ≠ i → due' j = due j) :
    ∀ n, i < n → msum limit due' n < msum limit due n
  | 0, hi => by omega
  | n + 1, hi => by
    simp only [msum]
    by_cases hin : i = n
    · subst hin
      have hc : ∀ k, k ≤ i → msum limit due' k = msum limit due k := by
        intro k; induction k with
        | zero => intro _; rfl
        | succ k ih => intro hk; simp only [msum]; rw [ih (by omega), h k (by omega)]
      rw [hc i (Nat.le_refl _), hd]
      cases he : due' i with
      | none => simp only; omega
      | some e => have := h' e he; simp only; omega
    · have := msum_lt hd hl h' h n (by omega)
      rw [h n (fun e => hin e.symm)]; omega

/-- Running repeating timers have a period. -/
def Q (sp : Sp) : Prop := ∀ i d p, sp.due i = some d → sp.cfg i = some (p, true) → 0 < p

theorem specOp_shrinks {max : Nat} {s s' : Sp} {o : Op} {r : Ret} (h : SpecOp max s o r s') (hns : ∀ i b, o ≠ .start i b) (hq : Q s) (hreg : ∀ i d, s.due i = some d → s.cfg i ≠ none) :
    (∀ i, s'.due i = s.due i ∨ s'.due i = none) ∧ Q s' := by
  cases h with
  | @register p r i hi hc =>
    refine ⟨fun i => .inl rfl, fun j d p' hd hc' => ?_⟩
    by_cases hj : j = i
    · subst hj; exact absurd hc (hreg j d hd)
    · simp only [set_other _ _ hj] at hc'; exact hq j d p' hd hc'
  | registerFull _ => exact ⟨fun i => .inl rfl, hq⟩
  | unregisterNot _ => exact ⟨fun i => .inl rfl, hq⟩
  | startNot _ => exact ⟨fun i => .inl rfl, hq⟩
  | stopNot _ => exact ⟨fun i => .inl rfl, hq⟩
  | setPeriodNot _ => exact ⟨fun i => .inl rfl, hq⟩
  | setModeNot _ => exact ⟨fun i => .inl rfl, hq⟩
  | enable => exact ⟨fun i => .inl rfl, hq⟩
  | clear => exact ⟨fun i => .inr rfl, fun i d p hd => by simp at hd⟩
  | start _ _ => exact absurd rfl (hns _ _)
  | @unregister i c _ =>
    refine ⟨fun j => ?_, fun j d p hd hc => ?_⟩
    · by_cases hj : j = i
      · subst hj; exact .inr (set_self _ _ _)
      · exact .inl (set_other _ _ hj)
    · by_cases hj : j = i
      · subst hj; simp only [set_self] at hd; cases hd
      · simp only [set_other _ _ hj] at hd hc; exact hq j d p hd hc
  | @stop i c _ =>
    refine ⟨fun j => ?_, fun j d p hd hc => ?_⟩
    · by_cases hj : j = i
      · subst hj; exact .inr (set_self _ _ _)
      · exact .inl (set_other _ _ hj)
    · by_cases hj : j = i
      · subst hj; simp only [set_self] at hd; cases hd
      · simp only [set_other _ _ hj] at hd hc; exact hq j d p hd hc
  | @setPeriod i _ _ _ _ =>
    refine ⟨fun j => ?_, fun j d p hd hc => ?_⟩
    · by_cases hj : j = i
      · subst hj; exact .inr (set_self _ _ _)
      · exact .inl (set_other _ _ hj)
    · by_cases hj : j = i
      · subst hj; simp only [set_self] at hd; cases hd
      · simp only [set_other _ _ hj] at hd hc; exact hq j d p hd hc
  | @setMode i _ _ _ _ =>
    refine ⟨fun j => ?_, fun j d p hd hc => ?_⟩
    · by_cases hj : j = i
      · subst hj; exact .inr (set_self _ _ _)
      · exact .inl (set_other _ _ hj)
    · by_cases hj : j = i
      · subst hj; simp only [set_self] at hd; cases hd
      · simp only [set_other _ _ hj] at hd hc; exact hq j d p hd hc

theorem R.reg_of_due {s : St} {sp : Sp} {D : DL} (hR : R s sp D) {i d : Nat} (hd : sp.due i = some d) : sp.cfg i ≠ none := by
  have hl := hR.lst.lt i (mem_ids ((hR.due i d).1 hd))
  rcases hR.cfg i hl.1 with hh | hh
  · rw [hh.2]; simp
  · exact absurd (hl.2.symm.trans hh.1) (lt_ne_NO hR hl.1)

theorem specOps_shrinks {max : Nat} {s s' : Sp} {os : List Op} (h : SpecOps max s os s') (hns : ∀ o ∈ os, ∀ i b, o ≠ .start i b) (hq : Q s) (hreg : ∀ i d, s.due i = some d → s.cfg i ≠ none) :
    (∀ i, s'.due i = s.due i ∨ s'.due i = none) ∧ Q s' := by
  induction h with
  | nil => exact ⟨fun i => .inl rfl, hq⟩
  | @cons s o r s1 os s2 h1 _ ih =>
    have e := specOp_shrinks h1 (hns _ (by simp)) hq hreg
    have hreg' : ∀ i d, s1.due i = some d → s1.cfg i ≠ none := by
      intro i d hd
      rcases e.1 i with he | he
      · rw [he] at hd
        have hc := hreg i d hd
        cases h1 <;> simp_all [set] <;> grind
      · rw [he] at hd; cases hd
    have f := ih (fun o ho => hns o (by simp [ho])) e.2 hreg'
    refine ⟨fun i => ?_, f.2⟩
    rcases f.1 i with hf | hf
    · rw [hf]; exact e.1 i
    · exact .inr hf

theorem tickLoop_returns {cb : Nat → List Nat → List Op} (hns : ∀ i l, ∀ o ∈ cb i l, ∀ j b, o ≠ .start j b) : ∀ (fuel count : Nat) {s : St} {sp : Sp} {D : DL}, R s sp D → (∀ i l, ∀ o ∈ cb i l, OpOk s.max o) → Q sp →
    msum (sp.now + count) sp.due s.max < fuel → ∃ s', tickLoop cb fuel count s = .ok s'
  | 0, _, _, _, _, _, _, _, h => by omega
  | fuel + 1, count, s, sp, D, hR, hcb, hq, hm => by
    rw [tickLoop]
    by_cases hN : s.head = NO
    · rw [if_pos hN]; exact ⟨s, rfl⟩
    · rw [if_neg hN]
      cases D with
      | nil => exact absurd ((head_none hR).2 rfl) hN
      | cons y D =>
        obtain ⟨x, d⟩ := y
        have hh : s.head = x := hR.lst.head
        have hx := hR.lst.lt x (by simp [ids])
        have hrep := hR.lst.rep
        have hxd : (s.timers x).delta = d - sp.now ∧ sp.now ≤ d := by simp only [Rep] at hrep; exact ⟨hrep.2.2.2.1, hrep.2.2.1⟩
        rw [hh, if_neg (fun hc => hc hx.1)]
        by_cases hc : count ≥ (s.timers x).delta
        · rw [if_pos hc]
          obtain ⟨s1, sp1, D1, p, r, f1, f2, f3, f4, f5, f6⟩ := fire_R hR hcb
          rw [f1]
          simp only
          have hdue := (hR.due x d).2 (by simp)
          have hq1 : Q { sp with now := d, due := set sp.due x (if r then some (d + p) else none) } := by
            intro j e p' he hc'
            by_cases hj : j = x
            · subst hj; exact hq j d p' hdue hc'
            · simp only [set_other _ _ hj] at he; exact hq j e p' he hc'
          have hreg1 : ∀ i e, (set sp.due x (if r then some (d + p) else none)) i = some e → sp.cfg i ≠ none := by
            intro i e he
            by_cases hj : i = x
            · subst hj; rw [f2]; simp
            · rw [set_other _ _ hj] at he; exact hR.reg_of_due he
          have hsh := specOps_shrinks f3 (hns _ _) hq1 hreg1
          have hnow : sp1.now = d := specOps_now f3
          refine tickLoop_returns hns fuel _ f4 (by rw [f5]; exact hcb) hsh.2 ?_
          rw [f5, hnow, show d + (count - (s.timers x).delta) = sp.now + count by omega]
          have h1 := msum_le (limit := sp.now + count) hsh.1 s.max
          have h2 := msum_lt (limit := sp.now + count) (due := sp.due) (due' := set sp.due x (if r then some (d + p) else none)) hdue (by omega) (by
            intro e he
            rw [set_self] at he
            cases r with
            | false => simp at he
            | true =>
              have := hq x d p hdue f2
              simp at he; omega) (fun j hj => set_other _ _ hj) s.max hx.1
          simp only at h1
          omega
        · rw [if_neg hc, put_ok _ hx.1]; exact ⟨_, rfl⟩

/-- **C28.** `tick` returns, if no callback starts a timer and no running repeating timer has period 0. -/
theorem C28_tick_returns (max : Nat) (cb : Nat → List Nat → List Op) (s : St) (sp : Sp) (h : Trace) (hr : Reach max cb s sp h) (hns : ∀ i l, ∀ o ∈ cb i l, ∀ j b, o ≠ .start j b)
    (hq : ∀ i d p, sp.due i = some d → sp.cfg i = some (p, true) → 0 < p) (count : Nat) : ∃ fuel b s', tick cb fuel s count = .ok (b, s') := by
  obtain ⟨hmax, hm, hlog, hcb, D, hR⟩ := hr
  subst hm
  obtain ⟨s', e⟩ := tickLoop_returns hns (msum (sp.now + count) sp.due s.max + 1) count hR hcb hq (by omega)
  refine ⟨msum (sp.now + count) sp.due s.max + 1, ?_⟩
  rw [tick]
  by_cases he : s.enabled = true
  · rw [if_pos he, e]; exact ⟨_, _, rfl⟩
  · rw [if_neg he]; exact ⟨_, _, rfl⟩

/-! ## Examples -/

/-- four slots; timers 0 (repeating, 3), 1 (repeating, 5), 2 (one shot, 4) and 3 (one shot, 7) -/
def demoCalls : List Call := [.op (.register 3 true), .op (.register 5 true), .op (.register 4 false), .op (.register 7 false), .op (.register 1 true),
  .op (.enable true), .op (.start 0 false), .op (.start 1 false), .op (.start 2 false), .op (.start 3 false), .tick 16]
/-- Timer 2 stops timer 3. -/
def demoCb (i : Nat) (_ : List Nat) : List Op := if i = 2 then [.stop 3] else []

/-- the log and the time left, after the calls -/
def look (r : Res (List Ret × St)) : Option (List Ret × List Nat × Nat) :=
  match r with
  | .ok (rs, s) => some (rs, s.log, timeToNext s)
  | .error _ => none

example : look (runAll demoCb 20 (init 4) demoCalls) = some
    ([.id 0, .id 1, .id 2, .id 3, .id 255, .unit, .bool true, .bool true, .bool true, .bool true, .bool true], [0, 2, 1, 0, 0, 1, 0, 0, 1], 2) := by decide +kernel
/-- the same in one by one ticks -/
example : look (runAll demoCb 20 (init 4) (demoCalls.dropLast ++ List.replicate 16 (.tick 1))) = some
    ([.id 0, .id 1, .id 2, .id 3, .id 255, .unit, .bool true, .bool true, .bool true, .bool true] ++ List.replicate 16 (.bool true), [0, 2, 1, 0, 0, 1, 0, 0, 1], 2) := by decide +kernel
/-- The hypotheses are met: the calls and the callbacks are well formed, so this history is covered. -/
example : (∀ c ∈ demoCalls, CallOk 4 c) ∧ (∀ i l, ∀ o ∈ demoCb i l, OpOk 4 o) ∧ (∀ i l, ∀ o ∈ demoCb i l, Leaves 0 o ∧ ∀ j b, o ≠ .start j b) := by
  refine ⟨?_, ?_, ?_⟩
  · intro c hc
    simp only [demoCalls, List.mem_cons, List.not_mem_nil, or_false] at hc
    rcases hc with rfl | rfl | rfl | rfl | rfl | rfl | rfl | rfl | rfl | rfl | rfl <;> simp [CallOk, OpOk, Inactive]
  · intro i l o ho
    rw [demoCb] at ho; split at ho <;> simp at ho; subst ho; simp [OpOk]
  · intro i l o ho
    rw [demoCb] at ho; split at ho <;> simp at ho; subst ho; simp [Leaves]
example : times 16 3 3 true = [3, 6, 9, 12, 15] ∧ times 16 5 5 true = [5, 10, 15] ∧ times 16 4 4 false = [4] := by decide

/-! ## Findings -/

/-- `start` accepts a period of 0; a repeating timer with it makes `tick` loop for ever. -/
theorem period_zero_never_returns : ∀ fuel, runAll (fun _ _ => []) fuel (init 1) [.op (.register 0 true), .op (.enable true), .op (.start 0 false), .tick 1] = .error .diverge := by
  intro fuel
  have key : ∀ fuel (s : St), s.head = 0 → s.tail = 0 → s.max = 1 → s.timers 0 = { period := 0, delta := 0, id := 0, prev := NO, next := NO, repeating := true } → tickLoop (fun _ _ => []) fuel 1 s = .error .diverge := by
    intro fuel
    induction fuel with
    | zero => intro s _ _ _ _; rfl
    | succ fuel ih =>
      intro s h1 h2 h3 h4
      have hf : ∃ s', fire (fun _ _ => []) s = .ok s' ∧ s'.head = 0 ∧ s'.tail = 0 ∧ s'.max = 1 ∧ s'.timers 0 = { period := 0, delta := 0, id := 0, prev := NO, next := NO, repeating := true } := by
        simp [fire, remove, unlinkPrev, unlinkNext, giveDelta, put, upd, rearm, insert, NO, bind, Except.bind, applyAll, h1, h2, h3, h4]
      obtain ⟨s', e1, e2, e3, e4, e5⟩ := hf
      rw [tickLoop, if_neg (by rw [h1]; decide), h1, if_neg (by rw [h3]; decide), if_pos (by rw [h4]; decide), e1, h4]
      exact ih s' e2 e3 e4 e5
  have h3 : ∃ s3, start { (register (init 1) 0 true).2 with enabled := true } 0 false = .ok (true, s3) ∧ s3.enabled = true ∧ s3.head = 0 ∧ s3.tail = 0 ∧ s3.max = 1 ∧
      s3.timers 0 = { period := 0, delta := 0, id := 0, prev := NO, next := NO, repeating := true } := ⟨_, rfl, rfl, rfl, rfl, rfl, rfl⟩
  obtain ⟨s3, e1, e2, e3, e4, e5, e6⟩ := h3
  simp only [runAll, apply, ret, e1, tick, e2, if_true, key fuel s3 e3 e4 e5 e6]

/-- Two timers with the same deadline fire in the reverse order of being started. -/
example : look (runAll (fun _ _ => []) 20 (init 2) [.op (.register 5 false), .op (.register 5 false), .op (.enable true), .op (.start 0 false), .op (.start 1 false), .tick 5]) =
    some ([.id 0, .id 1, .unit, .bool true, .bool true, .bool true], [1, 0], Inactive) := by decide +kernel

/-- Ids that are neither slots nor `NO_TIMER` are not checked. -/
theorem other_ids_out_of_bounds : stop (init 4) 7 = .error .outOfBounds := rfl

end Etl.Timer
