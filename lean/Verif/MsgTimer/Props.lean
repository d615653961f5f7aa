import Verif.MsgTimer.Sim
import Verif.TimerIsr.Props

/-!
# Message timers (C66)

`late = false`: message_timer.h; `late = true`: message_timer_atomic.h, message_timer_interrupt.h, message_timer_locked.h.  The specification of timers is `SpecRun` (`Verif/Timer/Spec.lean`);
`DoesRun` (`Spec`) is what these files do when running timers are unregistered.
-/
namespace Etl.MsgTimer
open Etl.Timer

/-- A history of calls on the code. -/
def runAll (late : Bool) (cb : Nat → List Nat → List Op) (fuel : Nat) : St → List Call → Res (List Ret × St)
  | s, [] => .ok ([], s)
  | s, .op o :: cs =>
    match apply s o with
    | .error u => .error u
    | .ok (r, s) => match runAll late cb fuel s cs with
      | .error u => .error u
      | .ok (rs, s) => .ok (r :: rs, s)
  | s, .tick c :: cs =>
    match tick late cb fuel s c with
    | .error u => .error u
    | .ok (b, s) => match runAll late cb fuel s cs with
      | .error u => .error u
      | .ok (rs, s) => .ok (.bool b :: rs, s)

/-- What the receivers of the messages may call: anything well formed; in the three files that put the timer back afterwards, they leave their own timer alone. -/
def CbOk (late : Bool) (max : Nat) (cb : Nat → List Nat → List Op) : Prop := (∀ i l, ∀ o ∈ cb i l, OpOk max o) ∧ (late = true → ∀ i l, ∀ o ∈ cb i l, Leaves i o)

theorem runAll_R {late : Bool} {cb : Nat → List Nat → List Op} (fuel : Nat) : ∀ (cs : List Call) {s : St} {sp : Sp} {D : DL} {h : Trace}, R s sp D → CbOk late s.max cb → (∀ c ∈ cs, CallOk s.max c) →
    s.log = h.map Prod.fst →
    runAll late cb fuel s cs = .error .diverge ∨
    ∃ rs s' sp' D' h', runAll late cb fuel s cs = .ok (rs, s') ∧ DoesRun late s.max cb sp h cs rs sp' h' ∧ R s' sp' D' ∧ s'.log = h'.map Prod.fst ∧ s'.max = s.max
  | [], s, sp, D, h, hR, _, _, hlog => .inr ⟨[], s, sp, D, h, rfl, .nil, hR, hlog, rfl⟩
  | .op o :: cs, s, sp, D, h, hR, hcb, hcs, hlog => by
    obtain ⟨r, s1, sp1, D1, e1, e2, e3, e4⟩ := apply_R hR (hcs (.op o) (by simp))
    rw [runAll, e1]
    simp only
    rcases runAll_R fuel cs e3 (by rw [e4.1]; exact hcb) (fun c hc => by rw [e4.1]; exact hcs c (by simp [hc])) (e4.2.trans hlog) with f | ⟨rs, s', sp', D', h', f1, f2, f3, f4, f5⟩
    · rw [f]; exact .inl rfl
    · rw [f1]; exact .inr ⟨_, s', sp', D', h', rfl, .op e2 (by rw [← e4.1]; exact f2), f3, f4, f5.trans e4.1⟩
  | .tick c :: cs, s, sp, D, h, hR, hcb, hcs, hlog => by
    rw [runAll, tick]
    by_cases he : s.enabled = true
    · rw [if_pos he]
      rcases tickLoop_R fuel c hR hcb.1 hcb.2 hlog with g | ⟨s1, sp1, D1, h1, g1, g2, g3, g4, g5⟩
      · rw [g]; exact .inl rfl
      · rw [g1]
        simp only
        rcases runAll_R fuel cs g3 (by rw [g5]; exact hcb) (fun c hc => by rw [g5]; exact hcs c (by simp [hc])) g4 with f | ⟨rs, s', sp', D', h', f1, f2, f3, f4, f5⟩
        · rw [f]; exact .inl rfl
        · rw [f1]; exact .inr ⟨_, s', sp', D', h', rfl, .tick (by rw [← hR.en]; exact he) g2 (by rw [← g5]; exact f2), f3, f4, f5.trans g5⟩
    · rw [if_neg he]
      simp only
      rcases runAll_R fuel cs hR hcb (fun c hc => hcs c (by simp [hc])) hlog with f | ⟨rs, s', sp', D', h', f1, f2, f3, f4, f5⟩
      · rw [f]; exact .inl rfl
      · rw [f1]; exact .inr ⟨_, s', sp', D', h', rfl, .tickOff (by rw [← hR.en]; simpa using he) f2, f3, f4, f5⟩

/-- **C66.** Any history of calls, with receivers that call the timer themselves: no undefined behaviour; if every `tick` returns, the answers and the firings are those of `DoesRun`: each timer fires exactly at its deadline,
earliest first, a repeating timer's next deadline is the last one plus its period, and the only thing that moves the deadline of another timer is the unregistration of a running timer. -/
theorem C66_message_timer_does (late : Bool) (max : Nat) (hmax : max ≤ 254) (cb : Nat → List Nat → List Op) (hcb : CbOk late max cb) (cs : List Call) (hcs : ∀ c ∈ cs, CallOk max c) (fuel : Nat) :
    runAll late cb fuel (init max) cs = .error .diverge ∨
    ∃ rs s' sp' tr, runAll late cb fuel (init max) cs = .ok (rs, s') ∧ DoesRun late max cb Sp.init [] cs rs sp' tr ∧ s'.log = tr.map Prod.fst := by
  rcases runAll_R fuel cs (init_R hmax) hcb hcs (h := []) rfl with h | ⟨rs, s', sp', D', h', h1, h2, h3, h4, h5⟩
  · exact .inl h
  · exact .inr ⟨rs, s', sp', h', h1, h2, h4⟩

/-! ## Stopping first -/

/-- Every `unregister_timer(i)` comes right after a `stop(i)`. -/
def StopsFirst : List Op → Prop
  | [] => True
  | .unregister _ :: _ => False
  | .stop i :: .unregister j :: os => i = j ∧ StopsFirst os
  | _ :: os => StopsFirst os

def StopsFirstC : List Call → Prop
  | [] => True
  | .op (.unregister _) :: _ => False
  | .op (.stop i) :: .op (.unregister j) :: cs => i = j ∧ StopsFirstC cs
  | _ :: cs => StopsFirstC cs

/-- The unregistration of a timer that is not running is that of `callback_timer.h`. -/
theorem unregister_idle {s : St} {i : Nat} (h : i < s.max → (s.timers i).delta = Inactive) : unregister s i = Timer.unregister s i := by
  unfold unregister Timer.unregister
  by_cases hN : i = NO
  · rw [if_pos hN, if_pos hN]
  · rw [if_neg hN, if_neg hN]
    by_cases hi : i < s.max
    · have : ¬ (s.timers i).delta ≠ Inactive := fun hc => hc (h hi)
      rw [drop, deactivate, if_neg this, if_neg this]
    · rw [if_pos hi, if_pos hi]

theorem stop_idle {s s' : St} {sp : Sp} {D : DL} {i : Nat} {r : Ret} (h : R s sp D) (hi : i < s.max ∨ i = NO) (hs : Timer.apply s (.stop i) = .ok (r, s')) : i < s'.max → (s'.timers i).delta = Inactive := by
  intro hlt
  rcases stop_R h hi with ⟨e1, e2⟩ | ⟨s1, D1, hi1, hid, hc, e1, e2, e3, e4⟩
  · simp only [Timer.apply, e2, ret] at hs
    injection hs with hs; injection hs with _ hs; subst hs
    by_contra hne
    have hm := (h.active_iff hlt).1 hne
    have := (h.lst.lt i hm).2
    rcases h.cfg i hlt with hc | hc
    · rw [e1] at hc; cases hc.2
    · exact lt_ne_NO h hlt (this.symm.trans hc.1)
  · simp only [Timer.apply, e1, ret] at hs
    injection hs with hs; injection hs with _ hs; subst hs
    exact e2.idle i hlt e4

theorem apply_ne {s : St} {o : Op} (h : ∀ i, o ≠ .unregister i) : apply s o = Timer.apply s o := by
  cases o <;> first | rfl | exact absurd rfl (h _)

theorem applyAll_eq : ∀ (n : Nat) (os : List Op), os.length ≤ n → ∀ {s : St} {sp : Sp} {D : DL}, R s sp D → (∀ o ∈ os, OpOk s.max o) → StopsFirst os → applyAll s os = Timer.applyAll s os
  | _, [], _, _, _, _, _, _, _ => rfl
  | 0, o :: os, hn, _, _, _, _, _, _ => by simp at hn
  | n + 1, o :: os, hn, s, sp, D, hR, hok, hs => by
    simp only [List.length_cons] at hn
    obtain ⟨r, s1, sp1, D1, e1, e2, e3, e4⟩ := Timer.apply_R hR (hok o (by simp))
    have hok' : ∀ o ∈ os, OpOk s1.max o := fun o' ho' => by rw [e4.1]; exact hok o' (by simp [ho'])
    by_cases hu : ∃ i, o = .unregister i
    · obtain ⟨i, rfl⟩ := hu; exact hs.elim
    · rw [applyAll, Timer.applyAll, apply_ne (fun i hi => hu ⟨i, hi⟩), e1]
      simp only
      by_cases hpat : ∃ i j os', o = .stop i ∧ os = .unregister j :: os'
      · obtain ⟨i, j, os', rfl, rfl⟩ := hpat
        obtain ⟨rfl, hs⟩ := hs
        have hidle := stop_idle hR (hok (.stop i) (by simp)) e1
        obtain ⟨r2, s2, sp2, D2, g1, g2, g3, g4⟩ := Timer.apply_R e3 (hok' (.unregister i) (by simp))
        rw [applyAll, Timer.applyAll]
        have : apply s1 (.unregister i) = Timer.apply s1 (.unregister i) := by simp only [apply, Timer.apply, unregister_idle hidle]
        rw [this, g1]
        simp only [List.length_cons] at hn
        exact applyAll_eq n os' (by omega) g3 (fun o' ho' => by rw [g4.1]; exact hok' o' (by simp [ho'])) hs
      · refine applyAll_eq n os (by omega) e3 hok' ?_
        cases o <;> first
          | exact absurd ⟨_, rfl⟩ hu
          | exact hs
          | (cases os with
             | nil => trivial
             | cons o2 os => cases o2 <;> first | exact hs | exact absurd ⟨_, _, _, rfl, rfl⟩ hpat)

theorem fire_eq {late : Bool} {cb : Nat → List Nat → List Op} {s : St} {sp : Sp} {D : DL} {x d : Nat} (hR : R s sp ((x, d) :: D)) (hcb : CbOk late s.max cb) (hs : ∀ i l, StopsFirst (cb i l)) :
    fire late cb s = if late then TimerIsr.fireA cb s else Timer.fire cb s := by
  have hx := hR.lst.lt x (by simp [ids])
  have hh : s.head = x := hR.lst.head
  obtain ⟨s1, e1, e2, e3⟩ := remove_R (A := []) true hR (by simp)
  simp only [if_true, List.nil_append] at e2
  have hcfg : sp.cfg x = some ((s.timers x).period, (s.timers x).repeating) := by
    rcases hR.cfg x hx.1 with hc | hc
    · exact hc.2
    · exact absurd (hx.2.symm.trans hc.1) (lt_ne_NO hR hx.1)
  have hn1 : x ∉ ids D := by have := hR.lst.nodup; simp only [ids, List.map_cons, List.nodup_cons] at this; exact this.1
  have hact := hR.act x d (by simp)
  cases late with
  | true =>
    simp only [fire, TimerIsr.fireA, hh, hx.2, e1, if_true]
    rw [applyAll_eq _ _ (Nat.le_refl _) (TimerIsr.R.withLog e2 _) (fun o ho => by show OpOk s1.max o; rw [e3.max]; exact hcb.1 _ _ o ho) (hs _ _)]
    generalize Timer.applyAll _ _ = y
    cases y <;> rfl
  | false =>
    obtain ⟨s2, D2, f1, f2, f3⟩ := TimerIsr.rearm_R e2 (show x < s1.max by rw [e3.max]; exact hx.1) hn1 hcfg hact.2
    simp only [fire, Timer.fire, hh, hx.2, e1, Bool.false_eq_true, if_false, f1]
    rw [applyAll_eq _ _ (Nat.le_refl _) (TimerIsr.R.withLog f2 _) (fun o ho => by show OpOk s2.max o; rw [f3.max, e3.max]; exact hcb.1 _ _ o ho) (hs _ _)]
    split <;> simp_all

theorem tickLoop_eq {late : Bool} {cb : Nat → List Nat → List Op} (hs : ∀ i l, StopsFirst (cb i l)) : ∀ (fuel count : Nat) {s : St} {sp : Sp} {D : DL}, R s sp D → CbOk late s.max cb →
    tickLoop late cb fuel count s = if late then TimerIsr.loopA cb fuel count s else Timer.tickLoop cb fuel count s
  | 0, _, _, _, _, _, _ => by cases late <;> rfl
  | fuel + 1, count, s, sp, D, hR, hcb => by
    rw [tickLoop, TimerIsr.loopA, Timer.tickLoop]
    by_cases hN : s.head = NO
    · simp [hN]
    · rw [if_neg hN, if_neg hN, if_neg hN]
      cases D with
      | nil => exact absurd ((head_none hR).2 rfl) hN
      | cons y D =>
        obtain ⟨x, d⟩ := y
        have hh : s.head = x := hR.lst.head
        have hx := hR.lst.lt x (by simp [ids])
        have hlt : ¬ ¬ s.head < s.max := by rw [hh]; exact fun hc => hc hx.1
        rw [if_neg hlt, if_neg hlt, if_neg hlt]
        by_cases hc : count ≥ (s.timers s.head).delta
        · rw [if_pos hc, if_pos hc, if_pos hc, fire_eq hR hcb hs]
          cases late with
          | true =>
            obtain ⟨s1, sp1, D1, p, r, f1, f2, f3, f4, f5, f6⟩ := TimerIsr.fireA_R hR (fun i l o ho => ⟨hcb.1 i l o ho, hcb.2 rfl i l o ho⟩)
            simp only [if_true, f1]
            exact tickLoop_eq hs fuel _ f4 (by rw [f5]; exact hcb)
          | false =>
            obtain ⟨s1, sp1, D1, p, r, f1, f2, f3, f4, f5, f6⟩ := Timer.fire_R hR hcb.1
            simp only [Bool.false_eq_true, if_false, f1]
            exact tickLoop_eq hs fuel _ f4 (by rw [f5]; exact hcb)
        · rw [if_neg hc, if_neg hc, if_neg hc]; simp

/-- What the code of the callback timers does with the same history. -/
def runRef (late : Bool) (cb : Nat → List Nat → List Op) (fuel : Nat) (s : St) (cs : List Call) : Res (List Ret × St) :=
  if late then TimerIsr.runAllA cb fuel s cs else Timer.runAll cb fuel s cs

theorem runRef_op (late : Bool) (cb : Nat → List Nat → List Op) (fuel : Nat) (s : St) (o : Op) (cs : List Call) :
    runRef late cb fuel s (.op o :: cs) = (match Timer.apply s o with
      | .error u => .error u
      | .ok (r, s) => match runRef late cb fuel s cs with
        | .error u => .error u
        | .ok (rs, s) => .ok (r :: rs, s)) := by cases late <;> rfl

theorem runRef_tick (late : Bool) (cb : Nat → List Nat → List Op) (fuel : Nat) (s : St) (c : Nat) (cs : List Call) :
    runRef late cb fuel s (.tick c :: cs) = (match (if late then TimerIsr.tickA cb fuel s c else Timer.tick cb fuel s c) with
      | .error u => .error u
      | .ok (b, s) => match runRef late cb fuel s cs with
        | .error u => .error u
        | .ok (rs, s) => .ok (.bool b :: rs, s)) := by cases late <;> rfl

theorem runAll_eq {late : Bool} {cb : Nat → List Nat → List Op} (hs : ∀ i l, StopsFirst (cb i l)) (fuel : Nat) : ∀ (n : Nat) (cs : List Call), cs.length ≤ n → ∀ {s : St} {sp : Sp} {D : DL}, R s sp D → CbOk late s.max cb →
    (∀ c ∈ cs, CallOk s.max c) → StopsFirstC cs → runAll late cb fuel s cs = runRef late cb fuel s cs
  | _, [], _, _, _, _, _, _, _, _ => by cases late <;> rfl
  | 0, _ :: _, hn, _, _, _, _, _, _, _ => by simp at hn
  | n + 1, .tick c :: cs, hn, s, sp, D, hR, hcb, hok, hsc => by
    simp only [List.length_cons] at hn
    rw [runAll, runRef_tick, tick, TimerIsr.tickA, Timer.tick]
    by_cases he : s.enabled = true
    · rw [if_pos he, if_pos he, if_pos he, tickLoop_eq hs fuel c hR hcb]
      cases late with
      | true =>
        simp only [if_true]
        rcases TimerIsr.loopA_R fuel c hR (fun i l o ho => ⟨hcb.1 i l o ho, hcb.2 rfl i l o ho⟩) (h := s.log.map (fun i => (i, 0))) (by simp [Function.comp_def]) with g | ⟨s1, sp1, D1, h1, g1, g2, g3, g4, g5⟩
        · rw [g]
        · rw [g1]
          simp only
          rw [runAll_eq hs fuel n cs (by omega) g3 (by rw [g5]; exact hcb) (fun c' hc' => by rw [g5]; exact hok c' (by simp [hc'])) hsc]
      | false =>
        simp only [Bool.false_eq_true, if_false]
        rcases Timer.tickLoop_R fuel c hR hcb.1 (h := s.log.map (fun i => (i, 0))) (by simp [Function.comp_def]) with g | ⟨s1, sp1, D1, h1, g1, g2, g3, g4, g5⟩
        · rw [g]
        · rw [g1]
          simp only
          rw [runAll_eq hs fuel n cs (by omega) g3 (by rw [g5]; exact hcb) (fun c' hc' => by rw [g5]; exact hok c' (by simp [hc'])) hsc]
    · rw [if_neg he, if_neg he, if_neg he, ite_self]
      simp only
      rw [runAll_eq hs fuel n cs (by omega) hR hcb (fun c' hc' => hok c' (by simp [hc'])) hsc]
  | n + 1, .op o :: cs, hn, s, sp, D, hR, hcb, hok, hsc => by
    simp only [List.length_cons] at hn
    obtain ⟨r, s1, sp1, D1, e1, e2, e3, e4⟩ := Timer.apply_R hR (hok (.op o) (by simp))
    have hok' : ∀ c ∈ cs, CallOk s1.max c := fun o' ho' => by rw [e4.1]; exact hok o' (by simp [ho'])
    have hcb1 : CbOk late s1.max cb := by rw [e4.1]; exact hcb
    by_cases hu : ∃ i, o = .unregister i
    · obtain ⟨i, rfl⟩ := hu; exact hsc.elim
    · rw [runAll, runRef_op, apply_ne (fun i hi => hu ⟨i, hi⟩), e1]
      simp only
      by_cases hpat : ∃ i j cs', o = .stop i ∧ cs = .op (.unregister j) :: cs'
      · obtain ⟨i, j, cs', rfl, rfl⟩ := hpat
        obtain ⟨rfl, hsc⟩ := hsc
        have hidle := stop_idle hR (hok (.op (.stop i)) (by simp)) e1
        obtain ⟨r2, s2, sp2, D2, g1, g2, g3, g4⟩ := Timer.apply_R (o := .unregister i) e3 (hok' (.op (.unregister i)) (by simp))
        rw [runAll, runRef_op]
        have : apply s1 (.unregister i) = Timer.apply s1 (.unregister i) := by simp only [apply, Timer.apply, unregister_idle hidle]
        rw [this, g1]
        simp only [List.length_cons] at hn
        simp only
        rw [runAll_eq hs fuel n cs' (by omega) g3 (by rw [g4.1]; exact hcb1) (fun o' ho' => by rw [g4.1]; exact hok' o' (by simp [ho'])) hsc]
      · rw [runAll_eq hs fuel n cs (by omega) e3 hcb1 hok' ?_]
        cases o <;> first
          | exact absurd ⟨_, rfl⟩ hu
          | exact hsc
          | (cases cs with
             | nil => trivial
             | cons o2 cs => cases o2 with
               | tick c => exact hsc
               | op o2 => cases o2 <;> first | exact hsc | exact absurd ⟨_, _, _, rfl, rfl⟩ hpat)

/-- **C66.** If every `unregister_timer(i)`, from outside or by a receiver, comes right after a `stop(i)`, the message timers meet the specification of timers: no undefined behaviour, and if every `tick` returns, the answers and the firings
are those of `SpecRun`, in the order of the deadlines. -/
theorem C66_stop_before_unregister (late : Bool) (max : Nat) (hmax : max ≤ 254) (cb : Nat → List Nat → List Op) (hcb : CbOk late max cb) (hcbs : ∀ i l, StopsFirst (cb i l)) (cs : List Call) (hcs : ∀ c ∈ cs, CallOk max c)
    (hs : StopsFirstC cs) (fuel : Nat) :
    runAll late cb fuel (init max) cs = .error .diverge ∨
    ∃ rs s' sp' tr, runAll late cb fuel (init max) cs = .ok (rs, s') ∧ SpecRun max cb Sp.init [] cs rs sp' tr ∧ s'.log = tr.map Prod.fst ∧ tr.Pairwise (fun x y => x.2 ≤ y.2) := by
  rw [runAll_eq hcbs fuel _ cs (Nat.le_refl _) (init_R hmax) hcb hcs hs]
  cases late with
  | true => exact TimerIsr.C65_callbacks_may_use_other_timers max hmax cb (fun i l o ho => ⟨hcb.1 i l o ho, hcb.2 rfl i l o ho⟩) cs hcs fuel
  | false =>
    rcases C28_callback_timer_meets_specification max hmax cb hcb.1 cs hcs fuel with h | ⟨rs, s', sp', tr, h1, h2, h3⟩
    · exact .inl h
    · obtain ⟨n, f1, f2, f3, _⟩ := specRun_trace h2 (by intro i d hd; simp [Sp.init] at hd)
      exact .inr ⟨rs, s', sp', tr, h1, h2, h3, by rw [f1]; simpa using f3⟩

/-! ## The order of firings, in any case -/

theorem doesOp_fresh {max : Nat} {s s' : Sp} {o : Op} {r : Ret} (h : DoesOp max s o r s') (hf : Fresh s) : Fresh s' := by
  cases h with
  | other _ h => exact specOp_fresh h hf
  | @unregisterRunning i c e b before h1 h2 h3 h4 h5 h6 h7 =>
    intro j d hd
    simp only at hd
    split at hd
    · cases hd
    · split at hd
      · exact hf j d hd
      · obtain ⟨d', hd', he⟩ := Option.map_eq_some_iff.1 hd
        have := h4 j d' ‹_› hd' (by simpa using ‹¬ before j = true›)
        show s.now ≤ d; omega

theorem doesOps_fresh {max : Nat} {s s' : Sp} {os : List Op} (h : DoesOps max s os s') (hf : Fresh s) : Fresh s' := by
  induction h with
  | nil => exact hf
  | cons h1 _ ih => exact ih (doesOp_fresh h1 hf)

theorem doesTick_trace {late : Bool} {max : Nat} {cb : Nat → List Nat → List Op} {limit : Nat} {s s' : Sp} {h h' : Trace} (ht : DoesTick late max cb limit s h s' h') (hf : Fresh s) (hn : s.now ≤ limit) :
    ∃ n : Trace, h' = h ++ n ∧ (∀ x ∈ n, s.now ≤ x.2 ∧ x.2 ≤ limit) ∧ n.Pairwise (fun x y => x.2 ≤ y.2) ∧ Fresh s' ∧ s'.now = limit := by
  induction ht with
  | done h1 => exact ⟨[], by simp, by simp, .nil, fun i d hd => Nat.le_of_lt (h1 i d hd), rfl⟩
  | @fire s h i d p r s2 s3 h3 h1 h2 hmin hc hops _ ih =>
    have hd1 := hf i d h1
    have hfr : Fresh { s with now := d, due := Timer.set s.due i (if late = false ∧ r = true then some (d + p) else none) } := by
      intro j e hj
      simp only [Timer.set] at hj
      split at hj
      · split at hj
        · injection hj with hj; show d ≤ e; omega
        · simp at hj
      · exact hmin j e hj
    have hfr2 := doesOps_fresh hops hfr
    have hnow2 : s2.now = d := doesOps_now hops
    have hfr3 : Fresh (if late = true then { s2 with due := Timer.set s2.due i (if r then some (d + p) else none) } else s2) := by
      cases late with
      | false => exact hfr2
      | true =>
        intro j e hj
        simp only [if_true, Timer.set] at hj
        show s2.now ≤ e
        split at hj
        · split at hj
          · injection hj with hj; omega
          · simp at hj
        · exact hfr2 j e hj
    have hnow : (if late = true then ({ s2 with due := Timer.set s2.due i (if r then some (d + p) else none) } : Sp) else s2).now = d := by cases late <;> exact hnow2
    obtain ⟨n, e1, e2, e3, e4, e5⟩ := ih hfr3 (by rw [hnow]; exact h2)
    rw [hnow] at e2
    refine ⟨(i, d) :: n, by rw [e1]; simp, ?_, ?_, e4, e5⟩
    · intro x hx
      rcases List.mem_cons.1 hx with rfl | hx
      · exact ⟨hd1, h2⟩
      · have := e2 x hx; exact ⟨by omega, this.2⟩
    · exact .cons (fun x hx => (e2 x hx).1) e3

theorem doesRun_trace {late : Bool} {max : Nat} {cb : Nat → List Nat → List Op} {s s' : Sp} {h h' : Trace} {cs : List Call} {rs : List Ret} (ht : DoesRun late max cb s h cs rs s' h') (hf : Fresh s) :
    ∃ n : Trace, h' = h ++ n ∧ (∀ x ∈ n, s.now ≤ x.2 ∧ x.2 ≤ s'.now) ∧ n.Pairwise (fun x y => x.2 ≤ y.2) ∧ Fresh s' ∧ s.now ≤ s'.now := by
  induction ht with
  | nil => exact ⟨[], by simp, by simp, .nil, hf, Nat.le_refl _⟩
  | op h1 _ ih =>
    have := ih (doesOp_fresh h1 hf)
    rw [doesOp_now h1] at this
    exact this
  | tickOff _ _ ih => exact ih hf
  | tick _ h1 _ ih =>
    obtain ⟨n, e1, e2, e3, e4, e5⟩ := doesTick_trace h1 hf (by omega)
    obtain ⟨m, f1, f2, f3, f4, f5⟩ := ih e4
    rw [e5] at f2 f5
    refine ⟨n ++ m, by rw [f1, e1]; simp, ?_, ?_, f4, by omega⟩
    · intro x hx
      rcases List.mem_append.1 hx with hx | hx
      · have := e2 x hx; omega
      · have := f2 x hx; omega
    · rw [List.pairwise_append]
      exact ⟨e3, f3, fun x hx y hy => by have := e2 x hx; have := f2 y hy; omega⟩

/-- **C66.** Whatever is unregistered when, the firings are in the order of their times, none after the present, and no deadline is missed. -/
theorem C66_no_deadline_missed (late : Bool) (max : Nat) (hmax : max ≤ 254) (cb : Nat → List Nat → List Op) (hcb : CbOk late max cb) (cs : List Call) (hcs : ∀ c ∈ cs, CallOk max c) (fuel : Nat)
    (rs : List Ret) (s' : St) (h : runAll late cb fuel (init max) cs = .ok (rs, s')) :
    ∃ sp' tr, DoesRun late max cb Sp.init [] cs rs sp' tr ∧ s'.log = tr.map Prod.fst ∧ tr.Pairwise (fun x y => x.2 ≤ y.2) ∧ (∀ x ∈ tr, x.2 ≤ sp'.now) ∧ (∀ i d, sp'.due i = some d → sp'.now ≤ d) := by
  rcases C66_message_timer_does late max hmax cb hcb cs hcs fuel with h1 | ⟨rs', s'', sp', tr, h1, h2, h3⟩
  · rw [h] at h1; cases h1
  · rw [h] at h1; injection h1 with h1; injection h1 with h1 h4; subst h1; subst h4
    obtain ⟨n, e1, e2, e3, e4, e5⟩ := doesRun_trace h2 (by intro i d hd; simp [Sp.init] at hd)
    rw [List.nil_append] at e1; subst e1
    exact ⟨sp', tr, h2, h3, e3, fun x hx => (e2 x hx).2, e4⟩

/-! ## Examples and findings -/

def look (r : Res (List Ret × St)) : List Nat :=
  match r with
  | .ok (_, s) => s.log
  | .error _ => []

/-- Timers of 3, 10 and 20; the first is stopped and unregistered after one tick, and the receiver of the second stops and unregisters it: `C66_stop_before_unregister` applies, and after 18 more ticks the third has not fired, after 19 it has. -/
def demo (n : Nat) : List Call := [.op (.register 3 true), .op (.register 10 true), .op (.register 20 false), .op (.enable true), .op (.start 0 false), .op (.start 1 false), .op (.start 2 false), .tick 1,
  .op (.stop 0), .op (.unregister 0), .tick n]
def demoCb (i : Nat) (_ : List Nat) : List Op := if i = 1 then [.stop 2, .start 2 false] else []

example (n : Nat) : StopsFirstC (demo n) ∧ (∀ i l, StopsFirst (demoCb i l)) ∧ CbOk true 4 demoCb ∧ ∀ c ∈ demo n, CallOk 4 c := by
  refine ⟨⟨rfl, trivial⟩, fun i l => ?_, ⟨fun i l o ho => ?_, fun _ i l o ho => ?_⟩, ?_⟩
  · simp only [demoCb]; split <;> trivial
  · simp only [demoCb] at ho; split at ho <;> simp at ho; rcases ho with rfl | rfl <;> exact .inl (by decide)
  · simp only [demoCb] at ho; split at ho <;> simp at ho; rcases ho with rfl | rfl <;> (simp only [Leaves]; omega)
  · intro c hc
    simp only [demo, List.mem_cons, List.not_mem_nil, or_false] at hc
    rcases hc with rfl | rfl | rfl | rfl | rfl | rfl | rfl | rfl | rfl | rfl | rfl <;> simp [CallOk, OpOk, Inactive]

example : look (runAll true (fun _ _ => []) 30 (init 4) (demo 18)) = [1] ∧ look (runAll true (fun _ _ => []) 30 (init 4) (demo 19)) = [1, 1, 2] ∧ look (runAll true demoCb 30 (init 4) (demo 19)) = [1, 1] := by decide +kernel

/-- Without stopping the first timer: timers of 10 and 20 are started, the first is unregistered at once, and the second fires after 10.  `callback_timer.h`, which meets the specification, does not do this with the same calls. -/
def early : List Call := [.op (.register 10 true), .op (.register 20 false), .op (.enable true), .op (.start 0 false), .op (.start 1 false), .op (.unregister 0), .tick 10]

theorem unregister_running_fires_early : ∀ late ∈ [true, false], look (runAll late (fun _ _ => []) 10 (init 4) early) = [1] ∧ (match Timer.runAll (fun _ _ => []) 10 (init 4) early with | .ok (_, s) => s.log | _ => [1]) = [] := by decide +kernel

end Etl.MsgTimer
