import Verif.TimerIsr.Props

/-!
# Every call on an interrupt-ticked timer returns (C64)

`C64_tick_returns` is about `tick`; this is about the calls of the thread.  Ticks may come in between all steps, as often as they like: they cannot hold a call up.
-/
namespace Etl.TimerIsr
open Etl.Timer

/-- Steps a call needs after a section. -/
def secCost (max : Nat) : Sec → Nat
  | .isActive1 _ => max + 6
  | _ => max + 3

/-- Steps a call needs at most. -/
def cost (max : Nat) : P → Nat
  | .begin => max + 9
  | .enter x => secCost max x + 2
  | .body x => secCost max x + 1
  | .leave x _ => secCost max x
  | .create _ _ _ => 2
  | .finish _ _ => 2
  | .wipe k => max - k + 2
  | .ret _ => 1

theorem cost_beginKind {s : St} {k : Kind} {i : Nat} {x : P × Option Resp} (max : Nat) (h : beginKind s k i = .ok x) : cost max x.1 ≤ max + 8 := by
  unfold beginKind at h
  split at h
  · injection h with h; subst h; simp only [cost]; omega
  · split at h
    · cases h
    · split at h
      · injection h with h; subst h; simp only [cost]; omega
      · split at h <;> · injection h with h; subst h; simp only [cost, secCost]; omega

theorem cost_begin {s : St} {o : COp} {x : P × Option Resp × St} (max : Nat) (h : begin s o = .ok x) : cost max x.1 ≤ max + 8 := by
  have kind : ∀ k i, (match beginKind s k i with | .error u => .error u | .ok (p, r) => .ok (p, r, s) : Res (P × Option Resp × St)) = .ok x → cost max x.1 ≤ max + 8 := by
    intro k i h
    cases hb : beginKind s k i with
    | error u => rw [hb] at h; cases h
    | ok y =>
      rw [hb] at h
      injection h with h; subst h
      exact cost_beginKind max hb
  cases o with
  | op o =>
    cases o with
    | register p r =>
      simp only [begin] at h
      split at h
      · split at h <;> · injection h with h; subst h; simp only [cost]; omega
      · injection h with h; subst h; simp only [cost]; omega
    | unregister i => exact kind _ _ h
    | stop i => exact kind _ _ h
    | setPeriod i q => exact kind _ _ h
    | setMode i m => exact kind _ _ h
    | start i b =>
      simp only [begin] at h
      split at h
      · injection h with h; subst h; simp only [cost]; omega
      · split at h
        · cases h
        · split at h
          · injection h with h; subst h; simp only [cost]; omega
          · split at h <;> · injection h with h; subst h; simp only [cost, secCost]; omega
    | clear => simp only [begin] at h; injection h with h; subst h; simp only [cost, secCost]; omega
    | enable b => simp only [begin] at h; injection h with h; subst h; simp only [cost]; omega
  | hasActive => simp only [begin] at h; injection h with h; subst h; simp only [cost, secCost]; omega
  | timeToNext => simp only [begin] at h; injection h with h; subst h; simp only [cost, secCost]; omega
  | isActive i =>
    simp only [begin] at h
    split at h <;> · injection h with h; subst h; simp only [cost, secCost]; omega

theorem cost_after (v : Variant) (max : Nat) (x : Sec) (r : Resp) : cost max (after v x r) + 1 ≤ secCost max x := by
  cases x with
  | isActive1 i =>
    simp only [after]
    split <;> simp only [cost, secCost] <;> omega
  | _ => simp only [after, cost, secCost]; omega

/-- A step of a call brings it nearer to its return, or is its return. -/
theorem step_cost {v : Variant} {max : Nat} {s s' : S} {o : COp} {p : P} (hm : s.t.max = max) (hp : s.pc = .run o p) (h : step v s = .ok s') :
    (∃ p', s'.pc = .run o p' ∧ cost max p' + 1 ≤ cost max p) ∨ (∃ r, s'.pc = .idle ∧ s'.trace = s.trace ++ [.ret o r]) := by
  unfold step at h
  rw [hp] at h
  cases p with
  | begin =>
    simp only at h
    cases hb : begin s.t o with
    | error u => rw [hb] at h; cases h
    | ok y =>
      obtain ⟨p, r, t⟩ := y
      rw [hb] at h
      have := cost_begin max hb
      cases r with
      | none => injection h with h; subst h; exact .inl ⟨_, rfl, by simp only [cost] at *; omega⟩
      | some r => injection h with h; subst h; exact .inl ⟨_, rfl, by simp only [cost] at *; omega⟩
  | enter x => injection h with h; subst h; exact .inl ⟨_, rfl, by simp only [cost]; omega⟩
  | body x =>
    simp only at h
    cases hw : work v s.t x with
    | error u => rw [hw] at h; cases h
    | ok y => rw [hw] at h; injection h with h; subst h; exact .inl ⟨_, rfl, by simp only [cost]; omega⟩
  | leave x r => injection h with h; subst h; exact .inl ⟨_, rfl, cost_after v max x r⟩
  | create i p r => injection h with h; subst h; exact .inl ⟨_, rfl, by simp only [cost]; omega⟩
  | finish k i => injection h with h; subst h; exact .inl ⟨_, rfl, by simp only [cost]; omega⟩
  | wipe k =>
    simp only at h
    split at h
    · injection h with h; subst h; exact .inl ⟨_, rfl, by simp only [cost]; omega⟩
    · injection h with h; subst h; exact .inl ⟨_, rfl, by simp only [cost]; omega⟩
  | ret r => injection h with h; subst h; exact .inr ⟨r, rfl, rfl⟩

/-- How many steps the thread does in `es`. -/
def steps : List Act → Nat
  | [] => 0
  | .step :: es => steps es + 1
  | _ :: es => steps es

theorem tick_pc {v : Variant} {fuel c : Nat} {s s' : S} (h : tick v fuel s c = .ok s') : s'.pc = s.pc := by
  unfold tick at h
  split at h
  · split at h <;> · injection h with h; subst h; rfl
  · cases ht : tickA (fun _ _ => []) fuel s.t c with
    | error u => rw [ht] at h; cases h
    | ok y => rw [ht] at h; injection h with h; subst h; rfl

theorem returns (v : Variant) (max fuel : Nat) (hmax : max ≤ 254) : ∀ (fs es : List Act) (s s2 : S) (o : COp) (p : P), (∀ a ∈ es ++ fs, ActOk max a) → Clean v fuel max (es ++ fs) → run v fuel (init max) es = .ok s →
    s.pc = .run o p → run v fuel s fs = .ok s2 → cost max p ≤ steps fs →
    ∃ pre post s' r, fs = pre ++ post ∧ run v fuel s pre = .ok s' ∧ s'.pc = .idle ∧ (∃ t, s'.trace = t ++ [.ret o r])
  | [], es, s, s2, o, p, hok, hcl, hr, hp, hf, hc => by
    exfalso
    have : 1 ≤ cost max p := by cases p <;> simp only [cost] <;> first | omega | (rename_i x; cases x <;> simp only [secCost] <;> omega) | (rename_i x r; cases x <;> simp only [secCost] <;> omega)
    simp only [steps] at hc; omega
  | a :: fs, es, s, s2, o, p, hok, hcl, hr, hp, hf, hc => by
    have hmx : s.t.max = max := by
      rcases inv_run hmax es (fun a ha => hok a (by simp [ha])) (fun pre c post s s' o k i e => hcl pre c (post ++ a :: fs) s s' o k i (by rw [e]; simp)) with e | ⟨s1, sp, h, e1, e2⟩
      · rw [hr] at e; cases e
      · rw [hr] at e1; injection e1 with e1; subst e1; exact e2.max
    rw [run] at hf
    cases ha : act v fuel s a with
    | error u => rw [ha] at hf; cases hf
    | ok s1 =>
      rw [ha] at hf
      have hr1 : run v fuel (init max) (es ++ [a]) = .ok s1 := by
        rw [run_append, hr]; simp only [run, ha]
      have go : ∀ p', s1.pc = .run o p' → cost max p' ≤ steps fs →
          ∃ pre post s' r, a :: fs = pre ++ post ∧ run v fuel s pre = .ok s' ∧ s'.pc = .idle ∧ (∃ t, s'.trace = t ++ [.ret o r]) := by
        intro p' h1 h2
        obtain ⟨pre, post, s', r, e1, e2, e3⟩ := returns v max fuel hmax fs (es ++ [a]) s1 s2 o p' (by simpa using hok) (by simpa using hcl) hr1 h1 hf h2
        exact ⟨a :: pre, post, s', r, by rw [e1]; rfl, by simp only [run, ha]; exact e2, e3⟩
      cases a with
      | call q =>
        unfold act at ha
        rw [hp] at ha
        injection ha with ha; subst ha
        exact go p hp hc
      | tick c => exact go p ((tick_pc ha).trans hp) hc
      | step =>
        rcases step_cost hmx hp ha with ⟨p', h1, h2⟩ | ⟨r, h1, h2⟩
        · exact go p' h1 (by simp only [steps] at hc; omega)
        · exact ⟨[.step], fs, s1, r, rfl, by simp only [run, ha], h1, s.trace, h2⟩

/-- **C64.** A call that is going on returns within `max + 9` steps of its own, whatever the ticks do. -/
theorem C64_call_returns (v : Variant) (max fuel : Nat) (hmax : max ≤ 254) (es fs : List Act) (hok : ∀ a ∈ es ++ fs, ActOk max a) (hcl : Clean v fuel max (es ++ fs)) (s s2 : S)
    (hr : run v fuel (init max) es = .ok s) (hf : run v fuel s fs = .ok s2) (o : COp) (p : P) (hp : s.pc = .run o p) (hn : max + 9 ≤ steps fs) :
    ∃ pre post s' r, fs = pre ++ post ∧ run v fuel s pre = .ok s' ∧ s'.pc = .idle ∧ (∃ t, s'.trace = t ++ [.ret o r]) := by
  rcases Nat.lt_or_ge (max + 9) (cost max p) with h | h
  · exfalso
    have : cost max p ≤ max + 9 := by cases p <;> simp only [cost] <;> first | omega | (rename_i x; cases x <;> simp only [secCost] <;> omega) | (rename_i x r; cases x <;> simp only [secCost] <;> omega)
    omega
  · exact returns v max fuel hmax fs es s s2 o p hok hcl hr hp hf (Nat.le_trans h hn)

/-- `clear()` of a timer with three slots and one running timer, with a tick before each of its steps: after seven steps of its own it is back. -/
def clearing : List Act := [.tick 1, .step, .tick 1, .step, .tick 1, .step, .tick 1, .step, .tick 1, .step, .tick 1, .step, .tick 1, .step, .tick 1, .step, .tick 1, .step, .step, .step, .step]

example : steps clearing = 3 + 9 ∧ look (run .atomic 20 (init 3) (calls (.register 3 true) 3 ++ calls (.enable true) 2 ++ calls (.start 0 false) 6 ++ .call (.op .clear) :: clearing)) = some ([], NO, true) := by decide +kernel

example : Clean .atomic 20 3 (calls (.register 3 true) 3 ++ calls (.enable true) 2 ++ calls (.start 0 false) 6 ++ .call (.op .clear) :: clearing) := clean_of_cleanFrom (by decide +kernel)

end Etl.TimerIsr
