import Verif.Timer.Model

/-!
# What a set of software timers is

Independent of `Model`, except for the names of the calls (`Op`, `Ret`) and the two constants: every running timer has a *deadline*; time passes up to a limit; whoever's deadline comes first fires, at that time.
-/
namespace Etl.Timer

structure Sp where
  /-- registered timers: period, and whether they repeat -/
  cfg : Nat → Option (Nat × Bool)
  /-- running timers: when they fire next -/
  due : Nat → Option Nat
  now : Nat
  enabled : Bool

def Sp.init : Sp := ⟨fun _ => none, fun _ => none, 0, false⟩

/-- Changing one value of a table. -/
def set {α : Type} (f : Nat → α) (i : Nat) (v : α) : Nat → α := fun j => if j = i then v else f j

/-- What a call answers and does, with `max` slots. -/
inductive SpecOp (max : Nat) : Sp → Op → Ret → Sp → Prop
  | register {s p r i} : i < max → s.cfg i = none → SpecOp max s (.register p r) (.id i) { s with cfg := set s.cfg i (some (p, r)) }
  | registerFull {s p r} : (∀ i < max, s.cfg i ≠ none) → SpecOp max s (.register p r) (.id NO) s
  | unregister {s i c} : s.cfg i = some c → SpecOp max s (.unregister i) (.bool true) { s with cfg := set s.cfg i none, due := set s.due i none }
  | unregisterNot {s i} : s.cfg i = none → SpecOp max s (.unregister i) (.bool false) s
  | start {s i p r b} : s.cfg i = some (p, r) → p ≠ Inactive → SpecOp max s (.start i b) (.bool true) { s with due := set s.due i (some (s.now + if b then 0 else p)) }
  | startNot {s i b} : (∀ p r, s.cfg i = some (p, r) → p = Inactive) → SpecOp max s (.start i b) (.bool false) s
  | stop {s i c} : s.cfg i = some c → SpecOp max s (.stop i) (.bool true) { s with due := set s.due i none }
  | stopNot {s i} : s.cfg i = none → SpecOp max s (.stop i) (.bool false) s
  | setPeriod {s i p r p'} : s.cfg i = some (p, r) → SpecOp max s (.setPeriod i p') (.bool true) { s with cfg := set s.cfg i (some (p', r)), due := set s.due i none }
  | setPeriodNot {s i p'} : s.cfg i = none → SpecOp max s (.setPeriod i p') (.bool false) s
  | setMode {s i p r r'} : s.cfg i = some (p, r) → SpecOp max s (.setMode i r') (.bool true) { s with cfg := set s.cfg i (some (p, r')), due := set s.due i none }
  | setModeNot {s i r'} : s.cfg i = none → SpecOp max s (.setMode i r') (.bool false) s
  | clear {s} : SpecOp max s .clear .unit { s with cfg := fun _ => none, due := fun _ => none }
  | enable {s b} : SpecOp max s (.enable b) .unit { s with enabled := b }

inductive SpecOps (max : Nat) : Sp → List Op → Sp → Prop
  | nil {s} : SpecOps max s [] s
  | cons {s o r s' os s''} : SpecOp max s o r s' → SpecOps max s' os s'' → SpecOps max s (o :: os) s''

/-- Timers that have fired, and when. -/
abbrev Trace := List (Nat × Nat)

/-- Time passes up to `limit`: while some deadline is not after it, an earliest one `d` fires, exactly at `d`; if the timer repeats, its next deadline is `d + period`; then its callback runs, at time `d`. -/
inductive SpecTick (max : Nat) (cb : Nat → List Nat → List Op) (limit : Nat) : Sp → Trace → Sp → Trace → Prop
  | done {s h} : (∀ i d, s.due i = some d → limit < d) → SpecTick max cb limit s h { s with now := limit } h
  | fire {s h i d p r s2 s3 h3} : s.due i = some d → d ≤ limit → (∀ j e, s.due j = some e → d ≤ e) → s.cfg i = some (p, r) →
      SpecOps max { s with now := d, due := set s.due i (if r then some (d + p) else none) } (cb i (h.map Prod.fst ++ [i])) s2 →
      SpecTick max cb limit s2 (h ++ [(i, d)]) s3 h3 → SpecTick max cb limit s h s3 h3

/-- Calls from outside. -/
inductive Call where
  | op (o : Op)
  | tick (count : Nat)

/-- A history of calls, with the answers. -/
inductive SpecRun (max : Nat) (cb : Nat → List Nat → List Op) : Sp → Trace → List Call → List Ret → Sp → Trace → Prop
  | nil {s h} : SpecRun max cb s h [] [] s h
  | op {s h o r s' cs rs s'' h''} : SpecOp max s o r s' → SpecRun max cb s' h cs rs s'' h'' → SpecRun max cb s h (.op o :: cs) (r :: rs) s'' h''
  | tick {s h c s' h' cs rs s'' h''} : s.enabled = true → SpecTick max cb (s.now + c) s h s' h' → SpecRun max cb s' h' cs rs s'' h'' →
      SpecRun max cb s h (.tick c :: cs) (.bool true :: rs) s'' h''
  | tickOff {s h c cs rs s'' h''} : s.enabled = false → SpecRun max cb s h cs rs s'' h'' → SpecRun max cb s h (.tick c :: cs) (.bool false :: rs) s'' h''

/-! ## Consequences of the specification -/

theorem set_self {α : Type} (f : Nat → α) (i : Nat) (v : α) : set f i v i = v := by simp [set]
theorem set_other {α : Type} (f : Nat → α) {i j : Nat} (v : α) (h : j ≠ i) : set f i v j = f j := by simp [set, h]

/-- Calls that do not concern timer `i`. -/
def Leaves (i : Nat) : Op → Prop
  | .register _ _ => True
  | .unregister j => j ≠ i
  | .start j _ => j ≠ i
  | .stop j => j ≠ i
  | .setPeriod j _ => j ≠ i
  | .setMode j _ => j ≠ i
  | .clear => False
  | .enable _ => True

/-- Calls that do not start timer `i`. -/
def NoStart (i : Nat) : Op → Prop
  | .start j _ => j ≠ i
  | _ => True

theorem specOp_now {max : Nat} {s s' : Sp} {o : Op} {r : Ret} (h : SpecOp max s o r s') : s'.now = s.now := by cases h <;> rfl

/-- A call leaves the timers it does not name alone. -/
theorem specOp_leaves {max : Nat} {s s' : Sp} {o : Op} {r : Ret} {i : Nat} (h : SpecOp max s o r s') (hl : Leaves i o) : s'.due i = s.due i ∧ (s.cfg i ≠ none → s'.cfg i = s.cfg i) := by
  cases h <;> simp_all [Leaves, set] <;> grind

/-- A timer that is not running does not start running by itself. -/
theorem specOp_noStart {max : Nat} {s s' : Sp} {o : Op} {r : Ret} {i : Nat} (h : SpecOp max s o r s') (hl : NoStart i o) (hd : s.due i = none) : s'.due i = none := by
  cases h <;> simp_all [NoStart, set] <;> grind

theorem specOps_now {max : Nat} {s s' : Sp} {os : List Op} (h : SpecOps max s os s') : s'.now = s.now := by
  induction h with
  | nil => rfl
  | cons h1 _ ih => rw [ih, specOp_now h1]

theorem specOps_leaves {max : Nat} {s s' : Sp} {os : List Op} {i : Nat} (h : SpecOps max s os s') (hl : ∀ o ∈ os, Leaves i o) (hc : s.cfg i ≠ none) : s'.due i = s.due i ∧ s'.cfg i = s.cfg i := by
  induction h with
  | nil => exact ⟨rfl, rfl⟩
  | cons h1 _ ih =>
    have h2 := specOp_leaves h1 (hl _ (by simp))
    have h3 := ih (fun o ho => hl o (by simp [ho])) (by rw [h2.2 hc]; exact hc)
    exact ⟨h3.1.trans h2.1, h3.2.trans (h2.2 hc)⟩

theorem specOps_noStart {max : Nat} {s s' : Sp} {os : List Op} {i : Nat} (h : SpecOps max s os s') (hl : ∀ o ∈ os, NoStart i o) (hd : s.due i = none) : s'.due i = none := by
  induction h with
  | nil => exact hd
  | cons h1 _ ih => exact ih (fun o ho => hl o (by simp [ho])) (specOp_noStart h1 (hl _ (by simp)) hd)

/-- No deadline has been missed. -/
def Fresh (s : Sp) : Prop := ∀ i d, s.due i = some d → s.now ≤ d

theorem specOp_fresh {max : Nat} {s s' : Sp} {o : Op} {r : Ret} (h : SpecOp max s o r s') (hf : Fresh s) : Fresh s' := by
  intro i d hd
  have hnow := specOp_now h
  rw [hnow]
  cases h
  case start => simp only [set] at hd; split at hd; (injection hd with hd; omega); exact hf i d hd
  case clear => simp at hd
  all_goals first
    | exact hf i d hd
    | (simp only [set] at hd; split at hd; (simp at hd); exact hf i d hd)

theorem specOps_fresh {max : Nat} {s s' : Sp} {os : List Op} (h : SpecOps max s os s') (hf : Fresh s) : Fresh s' := by
  induction h with
  | nil => exact hf
  | cons h1 _ ih => exact ih (specOp_fresh h1 hf)

/-- What a tick adds to the trace: in order of time, after the old `now` and not after the new one. -/
theorem specTick_trace {max : Nat} {cb : Nat → List Nat → List Op} {limit : Nat} {s s' : Sp} {h h' : Trace} (ht : SpecTick max cb limit s h s' h') (hf : Fresh s) (hn : s.now ≤ limit) :
    ∃ n : Trace, h' = h ++ n ∧ (∀ x ∈ n, s.now ≤ x.2 ∧ x.2 ≤ limit) ∧ n.Pairwise (fun x y => x.2 ≤ y.2) ∧ Fresh s' ∧ s'.now = limit := by
  induction ht with
  | done h1 => exact ⟨[], by simp, by simp, .nil, fun i d hd => Nat.le_of_lt (h1 i d hd), rfl⟩
  | @fire s h i d p r s2 s3 h3 h1 h2 hmin hc hops _ ih =>
    have hd1 := hf i d h1
    have hfr : Fresh { s with now := d, due := set s.due i (if r then some (d + p) else none) } := by
      intro j e hj
      simp only [set] at hj
      split at hj
      · split at hj
        · injection hj with hj; show d ≤ e; omega
        · simp at hj
      · exact hmin j e hj
    have hnow : s2.now = d := specOps_now hops
    obtain ⟨n, e1, e2, e3, e4, e5⟩ := ih (specOps_fresh hops hfr) (by rw [hnow]; exact h2)
    refine ⟨(i, d) :: n, by rw [e1]; simp, ?_, ?_, e4, e5⟩
    · intro x hx
      rcases List.mem_cons.1 hx with rfl | hx
      · exact ⟨hd1, h2⟩
      · have := e2 x hx; rw [hnow] at this; exact ⟨by omega, this.2⟩
    · refine .cons (fun x hx => ?_) e3
      have := e2 x hx; rw [hnow] at this; exact this.1

/-- The times not after `limit` at which a timer with deadline `d` fires. -/
def times (limit d p : Nat) (r : Bool) : List Nat :=
  if d ≤ limit then (if r then (List.range ((limit - d) / p + 1)).map (fun k => d + k * p) else [d]) else []

/-- Its deadline afterwards. -/
def nextDue (limit d p : Nat) (r : Bool) : Option Nat :=
  if d ≤ limit then (if r then some (d + ((limit - d) / p + 1) * p) else none) else some d

theorem times_step {limit d p : Nat} (h : d ≤ limit) (hp : 0 < p) : times limit d p true = d :: times limit (d + p) p true ∧ nextDue limit d p true = nextDue limit (d + p) p true := by
  have hdm := Nat.div_add_mod (limit - d) p
  by_cases h2 : d + p ≤ limit
  · have e : (limit - d) / p = (limit - (d + p)) / p + 1 := by
      rw [show limit - d = (limit - (d + p)) + p by omega, Nat.add_div_right _ hp]
    refine ⟨?_, ?_⟩
    · simp only [times, h, h2, if_true, e]
      rw [List.range_succ_eq_map, List.map_cons, List.map_map]
      congr 1
      · simp
      · apply List.map_congr_left; intro k _; simp [Nat.succ_mul]; omega
    · simp only [nextDue, h, h2, if_true, e]
      congr 1
      rw [Nat.add_mul ((limit - (d + p)) / p + 1) 1 p]; omega
  · have e : (limit - d) / p = 0 := Nat.div_eq_of_lt (by omega)
    simp [times, nextDue, h, h2, e]

/-- Timer `i`, if no callback interferes with it, fires exactly at its deadline and then every `p`, whatever else goes on. -/
theorem specTick_timer {max : Nat} {cb : Nat → List Nat → List Op} {limit : Nat} {s s' : Sp} {h h' : Trace} (ht : SpecTick max cb limit s h s' h') (i : Nat) (hcb : ∀ j l, ∀ o ∈ cb j l, Leaves i o)
    {p : Nat} {r : Bool} (hp : 0 < p) (hc : s.cfg i = some (p, r)) :
    ∃ n : Trace, h' = h ++ n ∧ s'.cfg i = some (p, r) ∧
      (∀ d, s.due i = some d → (n.filter (fun x => x.1 = i)).map Prod.snd = times limit d p r ∧ s'.due i = nextDue limit d p r) ∧
      (s.due i = none → n.filter (fun x => x.1 = i) = [] ∧ s'.due i = none) := by
  induction ht with
  | @done s h h1 =>
    refine ⟨[], by simp, hc, fun d hd => ?_, fun hd => ⟨rfl, hd⟩⟩
    have := h1 i d hd
    have hn : ¬ d ≤ limit := by omega
    simp [times, nextDue, hn, hd]
  | @fire s h j d p' r' s2 s3 h3 h1 h2 hmin hc' hops _ ih =>
    have hleave := specOps_leaves hops (hcb j _) (by show s.cfg i ≠ none; rw [hc]; simp)
    simp only at hleave
    obtain ⟨n, e1, e2, e3, e4⟩ := ih (by rw [hleave.2]; exact hc)
    refine ⟨(j, d) :: n, by rw [e1]; simp, e2, ?_, ?_⟩
    · intro d0 hd0
      by_cases hij : i = j
      · subst hij
        rw [h1] at hd0; injection hd0 with hd0; subst hd0
        rw [hc] at hc'; injection hc' with hc'; injection hc' with hp' hr'; subst hp'; subst hr'
        rw [set_self] at hleave
        cases r with
        | true =>
          have h5 := e3 (d + p) hleave.1
          have h6 := times_step h2 hp
          rw [List.filter_cons_of_pos (by simp), List.map_cons, h5.1, h6.1, h6.2]
          exact ⟨rfl, h5.2⟩
        | false =>
          have h5 := e4 hleave.1
          rw [List.filter_cons_of_pos (by simp), h5.1]
          simp [times, nextDue, h2, h5.2]
      · rw [set_other _ _ hij] at hleave
        have h5 := e3 d0 (by rw [hleave.1]; exact hd0)
        rw [List.filter_cons_of_neg (by simp; exact fun e => hij e.symm)]
        exact h5
    · intro hd0
      have hij : i ≠ j := by rintro rfl; rw [h1] at hd0; cases hd0
      rw [set_other _ _ hij] at hleave
      rw [List.filter_cons_of_neg (by simp; exact fun e => hij e.symm)]
      exact e4 (by rw [hleave.1]; exact hd0)

/-- A timer that is not running and is not started does not fire. -/
theorem specTick_noStart {max : Nat} {cb : Nat → List Nat → List Op} {limit : Nat} {s s' : Sp} {h h' : Trace} (ht : SpecTick max cb limit s h s' h') (i : Nat) (hcb : ∀ j l, ∀ o ∈ cb j l, NoStart i o)
    (hd : s.due i = none) : ∃ n : Trace, h' = h ++ n ∧ s'.due i = none ∧ ∀ x ∈ n, x.1 ≠ i := by
  induction ht with
  | done _ => exact ⟨[], by simp, hd, by simp⟩
  | @fire s h j d p r s2 s3 h3 h1 h2 hmin hc' hops _ ih =>
    have hij : i ≠ j := by rintro rfl; rw [h1] at hd; cases hd
    obtain ⟨n, e1, e2, e3⟩ := ih (specOps_noStart hops (hcb j _) (by show set _ _ _ i = none; rw [set_other _ _ hij]; exact hd))
    refine ⟨(j, d) :: n, by rw [e1]; simp, e2, ?_⟩
    intro x hx
    rcases List.mem_cons.1 hx with rfl | hx
    · exact Ne.symm hij
    · exact e3 x hx

theorem specRun_noStart {max : Nat} {cb : Nat → List Nat → List Op} {s s' : Sp} {h h' : Trace} {cs : List Call} {rs : List Ret} (ht : SpecRun max cb s h cs rs s' h') (i : Nat)
    (hcb : ∀ j l, ∀ o ∈ cb j l, NoStart i o) (hcs : ∀ o, Call.op o ∈ cs → NoStart i o) (hd : s.due i = none) : ∃ n : Trace, h' = h ++ n ∧ s'.due i = none ∧ ∀ x ∈ n, x.1 ≠ i := by
  induction ht with
  | nil => exact ⟨[], by simp, hd, by simp⟩
  | op h1 _ ih => exact ih (fun o ho => hcs o (by simp [ho])) (specOp_noStart h1 (hcs _ (by simp)) hd)
  | tick _ h1 _ ih =>
    obtain ⟨n, e1, e2, e3⟩ := specTick_noStart h1 i hcb hd
    obtain ⟨m, f1, f2, f3⟩ := ih (fun o ho => hcs o (by simp [ho])) e2
    refine ⟨n ++ m, by rw [f1, e1]; simp, f2, ?_⟩
    intro x hx
    rcases List.mem_append.1 hx with hx | hx
    · exact e3 x hx
    · exact f3 x hx
  | tickOff _ _ ih => exact ih (fun o ho => hcs o (by simp [ho])) hd

theorem specRun_trace {max : Nat} {cb : Nat → List Nat → List Op} {s s' : Sp} {h h' : Trace} {cs : List Call} {rs : List Ret} (ht : SpecRun max cb s h cs rs s' h') (hf : Fresh s) :
    ∃ n : Trace, h' = h ++ n ∧ (∀ x ∈ n, s.now ≤ x.2 ∧ x.2 ≤ s'.now) ∧ n.Pairwise (fun x y => x.2 ≤ y.2) ∧ Fresh s' ∧ s.now ≤ s'.now := by
  induction ht with
  | nil => exact ⟨[], by simp, by simp, .nil, hf, Nat.le_refl _⟩
  | op h1 _ ih =>
    have := ih (specOp_fresh h1 hf)
    rw [specOp_now h1] at this
    exact this
  | tickOff _ _ ih => exact ih hf
  | tick _ h1 _ ih =>
    obtain ⟨n, e1, e2, e3, e4, e5⟩ := specTick_trace h1 hf (by omega)
    obtain ⟨m, f1, f2, f3, f4, f5⟩ := ih e4
    rw [e5] at f2 f5
    refine ⟨n ++ m, by rw [f1, e1]; simp, ?_, ?_, f4, by omega⟩
    · intro x hx
      rcases List.mem_append.1 hx with hx | hx
      · have := e2 x hx; omega
      · have := f2 x hx; omega
    · rw [List.pairwise_append]
      exact ⟨e3, f3, fun x hx y hy => by have := e2 x hx; have := f2 y hy; omega⟩

theorem nextDue_gt {limit d p : Nat} {r : Bool} {d' : Nat} (hp : 0 < p) (h : nextDue limit d p r = some d') : limit < d' := by
  simp only [nextDue] at h
  split at h
  · split at h
    · injection h with h
      have := Nat.lt_div_mul_add (a := limit - d) hp
      rw [Nat.add_mul] at h; omega
    · simp at h
  · injection h with h; omega

/-- Two stretches of time make one. -/
theorem times_comp {T1 T2 p : Nat} {r : Bool} (hT : T1 ≤ T2) (hp : 0 < p) : ∀ (k d : Nat), T1 + 1 - d ≤ k →
    times T2 d p r = times T1 d p r ++ (match nextDue T1 d p r with | some d' => times T2 d' p r | none => []) ∧
    nextDue T2 d p r = (nextDue T1 d p r).bind (fun d' => nextDue T2 d' p r) := by
  intro k
  induction k with
  | zero =>
    intro d hk
    have hn : ¬ d ≤ T1 := by omega
    have e1 : times T1 d p r = [] := by simp [times, hn]
    have e2 : nextDue T1 d p r = some d := by simp [nextDue, hn]
    rw [e1, e2]; exact ⟨rfl, rfl⟩
  | succ k ih =>
    intro d hk
    by_cases hn : d ≤ T1
    · have hn2 : d ≤ T2 := by omega
      cases r with
      | true =>
        have s1 := times_step hn hp
        have s2 := times_step hn2 hp
        have := ih (d + p) (by omega)
        rw [s1.1, s1.2, s2.1, s2.2, this.1, this.2]
        exact ⟨rfl, rfl⟩
      | false =>
        have e1 : times T1 d p false = [d] := by simp [times, hn]
        have e2 : nextDue T1 d p false = none := by simp [nextDue, hn]
        have e3 : times T2 d p false = [d] := by simp [times, hn2]
        have e4 : nextDue T2 d p false = none := by simp [nextDue, hn2]
        rw [e1, e2, e3, e4]; exact ⟨rfl, rfl⟩
    · have e1 : times T1 d p r = [] := by simp [times, hn]
      have e2 : nextDue T1 d p r = some d := by simp [nextDue, hn]
      rw [e1, e2]; exact ⟨rfl, rfl⟩

/-- The time the ticks among the calls add up to. -/
def total : List Call → Nat
  | [] => 0
  | .op _ :: cs => total cs
  | .tick c :: cs => c + total cs

/-- While nobody interferes with it and the timers are enabled at every tick, a repeating timer fires at `d`, `d + p`, `d + 2p`, …, however time is cut into ticks, and whatever else is called in between. -/
theorem specRun_timer {max : Nat} {cb : Nat → List Nat → List Op} {s s' : Sp} {h h' : Trace} {cs : List Call} {rs : List Ret} (ht : SpecRun max cb s h cs rs s' h') (i : Nat)
    (hcb : ∀ j l, ∀ o ∈ cb j l, Leaves i o) (hcs : ∀ o, Call.op o ∈ cs → Leaves i o) (hrs : ∀ c r, (Call.tick c, r) ∈ cs.zip rs → r = Ret.bool true)
    {p : Nat} {r : Bool} (hp : 0 < p) (hc : s.cfg i = some (p, r)) :
    ∃ n : Trace, h' = h ++ n ∧ s'.cfg i = some (p, r) ∧ s'.now = s.now + total cs ∧
      (∀ d, s.due i = some d → (s.now < d ∨ ∃ c, Call.tick c ∈ cs) →
        (n.filter (fun x => x.1 = i)).map Prod.snd = times (s.now + total cs) d p r ∧ s'.due i = nextDue (s.now + total cs) d p r) ∧
      (s.due i = none → n.filter (fun x => x.1 = i) = [] ∧ s'.due i = none) := by
  induction ht with
  | @nil s h =>
    refine ⟨[], by simp, hc, rfl, fun d hd ho => ?_, fun hd => ⟨rfl, hd⟩⟩
    have ho : s.now < d := by rcases ho with ho | ⟨c, ho⟩; exact ho; simp at ho
    have hn : ¬ d ≤ s.now := by omega
    simp [times, nextDue, total, hn, hd]
  | @op s h o ro s' cs rs s'' h'' h1 _ ih =>
    have hl := specOp_leaves h1 (hcs _ (by simp))
    obtain ⟨n, e1, e2, e3, e4, e5⟩ := ih (fun o ho => hcs o (by simp [ho])) (fun c r hr => hrs c r (by simp [hr])) (by rw [hl.2 (by rw [hc]; simp)]; exact hc)
    rw [specOp_now h1, hl.1] at *
    refine ⟨n, e1, e2, e3, fun d hd ho => e4 d hd ?_, e5⟩
    rcases ho with ho | ⟨c, ho⟩
    · exact .inl ho
    · exact .inr ⟨c, by simpa using ho⟩
  | @tickOff s h c cs rs s'' h'' _ _ ih =>
    have := hrs c (Ret.bool false) (by simp)
    simp at this
  | @tick s h c s1 h1 cs rs s'' h'' _ ht _ ih =>
    obtain ⟨n1, a1, a2, a3, a4⟩ := specTick_timer ht i hcb hp hc
    have hnow : s1.now = s.now + c := by
      clear ih
      have : ∀ {s0 h0 s1 h1}, SpecTick max cb (s.now + c) s0 h0 s1 h1 → s1.now = s.now + c := by
        intro s0 h0 s1 h1 ht
        induction ht with
        | done _ => rfl
        | fire _ _ _ _ _ _ ih => exact ih
      exact this ht
    obtain ⟨n2, e1, e2, e3, e4, e5⟩ := ih (fun o ho => hcs o (by simp [ho])) (fun c r hr => hrs c r (by simp [hr])) a2
    rw [hnow] at e3 e4
    have htot : s.now + total (Call.tick c :: cs) = s.now + c + total cs := by simp only [total]; omega
    rw [htot]
    refine ⟨n1 ++ n2, by rw [e1, a1]; simp, e2, e3, ?_, ?_⟩
    · intro d hd _
      have b1 := a3 d hd
      have b2 := times_comp (T1 := s.now + c) (T2 := s.now + c + total cs) (r := r) (by omega) hp _ d (Nat.le_refl _)
      rw [List.filter_append, List.map_append, b1.1, b2.1, b2.2]
      cases hnd : nextDue (s.now + c) d p r with
      | none =>
        have b3 := e5 (by rw [b1.2]; exact hnd)
        rw [b3.1]; exact ⟨rfl, b3.2⟩
      | some d' =>
        have b3 := e4 d' (by rw [b1.2]; exact hnd) (.inl (nextDue_gt hp hnd))
        rw [b3.1]; exact ⟨rfl, b3.2⟩
    · intro hd
      have b1 := a4 hd
      have b2 := e5 b1.2
      rw [List.filter_append, b1.1, b2.1]; exact ⟨rfl, b2.2⟩

end Etl.Timer
