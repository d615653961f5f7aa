import Verif.Fsm.Model
import Mathlib.Tactic.SplitIfs

/-!
# C31: the finite state machine
-/
namespace Etl.Fsm

variable {σ : Type}

/-- A flat machine: no state has a parent. -/
def Flat (c : Chart σ) : Prop := ∀ x, c.parent x = none

/-! ## Specification -/

/-- What the state answers to an event: its `on_event`; `on_event_unknown` if it has none or passes the event on. -/
inductive Answers (c : Chart σ) (x m : Nat) (u : σ) : Nat → σ → List Ev → Prop
  | handled {r u'} : c.handler x m u = some (r, u') → r ≠ Pass_To_Parent → Answers c x m u r u' [.event x m]
  | unknown {r u'} : c.handler x m u = none → c.unknown x m u = (r, u') → Answers c x m u r u' [.unknown x m]
  | passed {u' r u''} : c.handler x m u = some (Pass_To_Parent, u') → c.unknown x m u' = (r, u'') → Answers c x m u r u'' [.event x m, .unknown x m]

/-- The id names another state. -/
def Other (x r : Nat) : Prop := r ≠ x ∧ r ≠ No_State_Change ∧ r ≠ Self_Transition

/-- A change from `x` to `y`: leave `x`, enter `y`; if the entered state answers with another state, change again from there. -/
inductive Chain (c : Chart σ) : Nat → Nat → σ → Nat → σ → List Ev → Prop
  | stop {x y u r u'} : c.enter y (c.exit x u) = (r, u') → ¬ Other y r → Chain c x y u y u' [.exit x, .enter y]
  | bad {x y u r u'} : c.enter y (c.exit x u) = (r, u') → Other y r → ¬ r < c.num → Chain c x y u y u' [.exit x, .enter y, .fail]
  | again {x y u r u' z u'' l} : c.enter y (c.exit x u) = (r, u') → Other y r → r < c.num → Chain c y r u' z u'' l → Chain c x y u z u'' ([.exit x, .enter y] ++ l)

/-- What receiving an event in state `x` does: the new state, data and calls. -/
inductive Receives (c : Chart σ) (x m : Nat) (u : σ) : Nat → σ → List Ev → Prop
  | stay {r u' l} : Answers c x m u r u' l → ¬ Other x r → r ≠ Self_Transition → Receives c x m u x u' l
  | self {r u' l u'' k} : Answers c x m u r u' l → r = Self_Transition → c.enter x (c.exit x u') = (k, u'') → Receives c x m u x u'' (l ++ [.exit x, .enter x])
  | bad {r u' l} : Answers c x m u r u' l → Other x r → ¬ r < c.num → Receives c x m u x u' (l ++ [.fail])
  | change {r u' l z u'' l'} : Answers c x m u r u' l → Other x r → r < c.num → Chain c x r u' z u'' l' → Receives c x m u z u'' (l ++ l')

theorem changed_iff (x r : Nat) : changed x r = true ↔ Other x r := by simp [changed, Other, and_assoc]

theorem processEvent_flat {c : Chart σ} (hf : Flat c) (fuel x m : Nat) (s : St σ) :
    ∃ r u l, processEvent c m (fuel + 1) x s = .ok (r, { s with user := u, log := s.log ++ l }) ∧ Answers c x m s.user r u l := by
  rw [processEvent]
  cases hh : c.handler x m s.user with
  | none =>
    rw [hf x]
    exact ⟨_, _, _, rfl, .unknown hh rfl⟩
  | some p =>
    obtain ⟨r, u⟩ := p
    simp only
    by_cases hr : r = Pass_To_Parent
    · rw [if_pos hr, hf x]
      subst hr
      refine ⟨_, (c.unknown x m u).2, [.event x m, .unknown x m], ?_, .passed hh rfl⟩
      simp
    · rw [if_neg hr]
      exact ⟨_, _, _, rfl, .handled hh hr⟩

theorem answers_unique {c : Chart σ} {x m : Nat} {u : σ} {r r' u1 u2 l l'} (h : Answers c x m u r u1 l) (h' : Answers c x m u r' u2 l') : r = r' ∧ u1 = u2 ∧ l = l' := by
  cases h <;> cases h' <;> grind

theorem changeLoop_succ {c : Chart σ} (fuel : Nat) {x y r : Nat} {u' : σ} (s : St σ) (he : c.enter y (c.exit x s.user) = (r, u')) :
    changeLoop c (fuel + 1) x y s =
      if changed y r then
        if r < c.num then changeLoop c fuel y r { s with cur := some y, user := u', log := s.log ++ [.exit x, .enter y] }
        else .ok (fail { s with cur := some y, user := u', log := s.log ++ [.exit x, .enter y] })
      else .ok { s with cur := some y, user := u', log := s.log ++ [.exit x, .enter y] } := by
  have e : call c { callExit c s x with cur := some y } y = (r, { s with cur := some y, user := u', log := s.log ++ [.exit x, .enter y] }) := by
    simp [call, callExit, he]
  rw [changeLoop, e]

theorem startLoop_succ {c : Chart σ} (fuel : Nat) {x r : Nat} {u' : σ} (s : St σ) (he : c.enter x s.user = (r, u')) :
    startLoop c (fuel + 1) x s =
      if r = No_State_Change then .ok { s with user := u', log := s.log ++ [.enter x] }
      else if r < c.num then
        if r = x then .ok { s with cur := some r, user := u', log := s.log ++ [.enter x] } else startLoop c fuel r { s with cur := some r, user := u', log := s.log ++ [.enter x] }
      else .ok (fail { s with user := u', log := s.log ++ [.enter x] }) := by
  have e : call c s x = (r, { s with user := u', log := s.log ++ [.enter x] }) := by simp [call, he]
  rw [startLoop, e]

theorem changeLoop_sound {c : Chart σ} : ∀ (fuel x y : Nat) (s s' : St σ), changeLoop c fuel x y s = .ok s' →
    ∃ z u l, s' = { s with cur := some z, user := u, log := s.log ++ l } ∧ Chain c x y s.user z u l := by
  intro fuel
  induction fuel with
  | zero => intro x y s s' h; simp [changeLoop] at h
  | succ fuel ih =>
    intro x y s s' h
    cases he : c.enter y (c.exit x s.user) with
    | mk r u' =>
      rw [changeLoop_succ fuel s he] at h
      by_cases hc : changed y r = true
      · rw [if_pos hc] at h
        by_cases hr : r < c.num
        · rw [if_pos hr] at h
          obtain ⟨z, u, l, e, hch⟩ := ih _ _ _ _ h
          exact ⟨z, u, [.exit x, .enter y] ++ l, by rw [e]; simp, .again he ((changed_iff y r).1 hc) hr hch⟩
        · rw [if_neg hr] at h
          injection h with h
          exact ⟨y, u', _, by rw [← h]; simp [fail], .bad he ((changed_iff y r).1 hc) hr⟩
      · rw [if_neg hc] at h
        injection h with h
        exact ⟨y, u', _, by rw [← h], .stop he (by rw [← changed_iff]; exact hc)⟩

theorem changeLoop_complete {c : Chart σ} {x y : Nat} {u : σ} {z : Nat} {u' : σ} {l : List Ev} (h : Chain c x y u z u' l) :
    ∃ n, ∀ (fuel : Nat) (s : St σ), n ≤ fuel → s.user = u → changeLoop c fuel x y s = .ok { s with cur := some z, user := u', log := s.log ++ l } := by
  induction h with
  | stop he ho =>
    refine ⟨1, fun fuel s hf hu => ?_⟩
    obtain ⟨fuel, rfl⟩ : ∃ f, fuel = f + 1 := ⟨fuel - 1, by omega⟩
    subst hu
    rw [← changed_iff] at ho
    simp [changeLoop, callExit, call, he, ho]
  | bad he ho hr =>
    refine ⟨1, fun fuel s hf hu => ?_⟩
    obtain ⟨fuel, rfl⟩ : ∃ f, fuel = f + 1 := ⟨fuel - 1, by omega⟩
    subst hu
    rw [← changed_iff] at ho
    simp [changeLoop, callExit, call, he, ho, hr, fail]
  | again he ho hr _ ih =>
    obtain ⟨n, hn⟩ := ih
    refine ⟨n + 1, fun fuel s hf hu => ?_⟩
    obtain ⟨fuel, rfl⟩ : ∃ f, fuel = f + 1 := ⟨fuel - 1, by omega⟩
    subst hu
    rw [← changed_iff] at ho
    simp only [changeLoop, callExit, call, he, ho, hr, if_true]
    rw [hn fuel _ (by omega) rfl]
    simp

/-- **C31.** `receive` in state `x` does exactly what the specification says: it returns if and only if the specified changes come to an end, and then the current state, the
data and the calls made are the specified ones. -/
theorem C31_receive {c : Chart σ} (hf : Flat c) (s s' : St σ) (x m : Nat) (hx : s.cur = some x) :
    (∃ fuel, receive c fuel s m = .ok s') ↔ ∃ z u l, s' = { s with cur := some z, user := u, log := s.log ++ l } ∧ Receives c x m s.user z u l := by
  constructor
  · rintro ⟨fuel, h⟩
    cases fuel with
    | zero => simp [receive, hx, processEvent, bind, Except.bind] at h
    | succ fuel =>
      obtain ⟨r, u, l, e, ha⟩ := processEvent_flat hf fuel x m s
      simp only [receive, hx, e, bind, Except.bind] at h
      by_cases hc : changed x r = true
      · rw [if_pos hc] at h
        have ho := (changed_iff x r).1 hc
        by_cases hr : r < c.num
        · rw [if_pos hr] at h
          obtain ⟨z, u', l', e', hch⟩ := changeLoop_sound _ _ _ _ _ h
          exact ⟨z, u', l ++ l', by rw [e']; simp, .change ha ho hr hch⟩
        · rw [if_neg hr] at h; injection h with h
          exact ⟨x, u, l ++ [.fail], by rw [← h, ← hx]; simp [fail], .bad ha ho hr⟩
      · rw [if_neg hc] at h
        have ho : ¬ Other x r := by rw [← changed_iff]; exact hc
        by_cases hs : r = Self_Transition
        · rw [if_pos hs] at h; injection h with h
          refine ⟨x, (c.enter x (c.exit x u)).2, l ++ [.exit x, .enter x], ?_, .self (k := (c.enter x (c.exit x u)).1) ha hs rfl⟩
          rw [← h, ← hx]; simp [call, callExit]
        · rw [if_neg hs] at h; injection h with h
          exact ⟨x, u, l, by rw [← h, ← hx], .stay ha ho hs⟩
  · rintro ⟨z, u, l, rfl, h⟩
    cases h with
    | stay ha ho hs =>
      refine ⟨1, ?_⟩
      obtain ⟨r', u', l', e, ha'⟩ := processEvent_flat hf 0 x m s
      obtain ⟨rfl, rfl, rfl⟩ := answers_unique ha ha'
      rw [← changed_iff] at ho
      simp only [receive, hx, e, bind, Except.bind]
      rw [if_neg ho, if_neg hs]
    | self ha hs hk =>
      refine ⟨1, ?_⟩
      obtain ⟨r', u', l', e, ha'⟩ := processEvent_flat hf 0 x m s
      obtain ⟨rfl, rfl, rfl⟩ := answers_unique ha ha'
      have hc : ¬ changed x Self_Transition = true := by rw [changed_iff]; exact fun h => h.2.2 rfl
      rw [← hs] at hc
      simp only [receive, hx, e, bind, Except.bind]
      rw [if_neg hc, if_pos hs]
      simp [call, callExit, hk]
    | bad ha ho hr =>
      refine ⟨1, ?_⟩
      obtain ⟨r', u', l', e, ha'⟩ := processEvent_flat hf 0 x m s
      obtain ⟨rfl, rfl, rfl⟩ := answers_unique ha ha'
      rw [← changed_iff] at ho
      simp only [receive, hx, e, bind, Except.bind]
      rw [if_pos ho, if_neg hr]
      simp [fail]
    | change ha ho hr hch =>
      obtain ⟨n, hn⟩ := changeLoop_complete hch
      refine ⟨n + 1, ?_⟩
      obtain ⟨r', u', l', e, ha'⟩ := processEvent_flat hf n x m s
      obtain ⟨rfl, rfl, rfl⟩ := answers_unique ha ha'
      rw [← changed_iff] at ho
      simp only [receive, hx, e, bind, Except.bind]
      rw [if_pos ho, if_pos hr, hn _ _ (by omega) rfl]
      simp

/-- **C31**: a machine that is not started reports an error and does nothing else; so does an id that names no state. -/
theorem C31_not_started (c : Chart σ) (fuel : Nat) (s : St σ) (m : Nat) (h : s.cur = none) : receive c fuel s m = .ok { s with log := s.log ++ [.fail] } := by
  simp [receive, h, fail]

/-! ## Histories: entries and exits match

The log is replayed on the state that has been entered and not left: entering is only right when there is none, leaving and getting events only for that one. -/

def replay : Option Nat → List Ev → Option (Option Nat)
  | a, [] => some a
  | a, .enter s :: l => if a = none then replay (some s) l else none
  | a, .exit s :: l => if a = some s then replay none l else none
  | a, .event s _ :: l => if a = some s then replay a l else none
  | a, .unknown s _ :: l => if a = some s then replay a l else none
  | a, .fail :: l => replay a l

theorem replay_append (l l' : List Ev) : ∀ a, replay a (l ++ l') = (replay a l).bind (fun b => replay b l') := by
  induction l with
  | nil => intro a; rfl
  | cons e l ih =>
    intro a
    cases e <;> simp only [List.cons_append, replay] <;> first | exact ih _ | (split_ifs <;> first | exact ih _ | rfl)

theorem answers_replay {c : Chart σ} {x m : Nat} {u r u' l} (h : Answers c x m u r u' l) : replay (some x) l = some (some x) := by
  cases h <;> simp [replay]

theorem chain_replay {c : Chart σ} {x y : Nat} {u z u' l} (h : Chain c x y u z u' l) : replay (some x) l = some (some z) := by
  induction h with
  | stop => simp [replay]
  | bad => simp [replay]
  | again _ _ _ _ ih => simp [replay, ih]

inductive FOp where
  | start
  | receive (m : Nat)
  | reset
  deriving Repr

/-- `start(true)`, `receive(m)`, `reset(true)` -/
def fstep (c : Chart σ) (fuel : Nat) (s : St σ) : FOp → Res (St σ)
  | .start => start c fuel true s
  | .receive m => receive c fuel s m
  | .reset => .ok (reset c true s)

def frun (c : Chart σ) (fuel : Nat) (s : St σ) : List FOp → Res (St σ)
  | [] => .ok s
  | o :: os => do frun c fuel (← fstep c fuel s o) os

/-- The first state does not answer with another one when the machine starts. -/
def StartsQuietly (c : Chart σ) : Prop := ∀ u, (c.enter 0 u).1 = No_State_Change ∨ (c.enter 0 u).1 = 0

/-- **C31**, all histories: every state is left before another is entered, events only ever go to the state that was entered last, and that is the state the machine says it
is in. -/
theorem C31_history {c : Chart σ} (hf : Flat c) (hq : StartsQuietly c) (fuel : Nat) (ops : List FOp) (s s' : St σ) (h0 : replay none s.log = some s.cur)
    (h : frun c fuel s ops = .ok s') : replay none s'.log = some s'.cur := by
  induction ops generalizing s with
  | nil => injection h with h; rw [← h]; exact h0
  | cons o os ih =>
    simp only [frun, bind, Except.bind] at h
    cases e : fstep c fuel s o with
    | error u => rw [e] at h; cases h
    | ok s1 =>
      rw [e] at h
      refine ih s1 ?_ h
      cases o with
      | start =>
        simp only [fstep, start] at e
        cases hx : s.cur with
        | some x => rw [hx] at e; injection e with e; rw [← e]; exact h0
        | none =>
          rw [hx] at e h0
          simp only [if_true] at e
          cases fuel with
          | zero => simp [startLoop] at e
          | succ fuel =>
            have hq := hq s.user
            cases he : c.enter 0 s.user with
            | mk r u' =>
            rw [he] at hq
            have hq : r = No_State_Change ∨ r = 0 := hq
            rw [startLoop_succ fuel { s with cur := some 0 } he] at e
            rcases hq with hr | hr
            · rw [if_pos hr] at e; injection e with e
              rw [← e]; simp [replay_append, h0, replay]
            · rw [if_neg (by rw [hr]; simp [No_State_Change])] at e
              by_cases hn : r < c.num
              · rw [if_pos hn, if_pos hr] at e; injection e with e
                rw [← e]; simp [replay_append, h0, replay]; exact hr.symm
              · rw [if_neg hn] at e; injection e with e
                rw [← e]; simp [replay_append, h0, replay, fail]
      | receive m =>
        simp only [fstep] at e
        cases hx : s.cur with
        | none =>
          rw [C31_not_started c fuel s m hx] at e; injection e with e
          rw [← e]; simp [replay_append, h0, replay]
        | some x =>
          obtain ⟨z, u, l, rfl, hr⟩ := (C31_receive hf s s1 x m hx).1 ⟨fuel, e⟩
          simp only [replay_append, h0, hx, Option.bind_some]
          cases hr with
          | stay ha => exact answers_replay ha
          | self ha => simp [replay_append, answers_replay ha, replay]
          | bad ha => simp [replay_append, answers_replay ha, replay]
          | change ha _ _ hch => simp [replay_append, answers_replay ha, chain_replay hch]
      | reset =>
        simp only [fstep, reset] at e
        cases hx : s.cur with
        | none => rw [hx] at e h0; injection e with e; rw [← e]; exact h0
        | some x =>
          rw [hx] at e h0; injection e with e
          rw [← e]; simp [replay_append, h0, replay, callExit]

/-- **C31**: `start` on a started machine does nothing, and a machine starts in state 0 (unless that answers with another state). -/
theorem C31_start {c : Chart σ} (hq : StartsQuietly c) (hn : 0 < c.num) (fuel : Nat) (s : St σ) :
    (∀ x b, s.cur = some x → start c fuel b s = .ok s) ∧
    (s.cur = none → start c (fuel + 1) true s = .ok { s with cur := some 0, user := (c.enter 0 s.user).2, log := s.log ++ [.enter 0] } ∧
      start c fuel false s = .ok { s with cur := some 0 }) := by
  refine ⟨fun x b hx => by simp [start, hx], fun hx => ⟨?_, by simp [start, hx]⟩⟩
  have hq := hq s.user
  simp only [start, hx, if_true]
  rw [startLoop_succ fuel { s with cur := some 0 } (r := (c.enter 0 s.user).1) (u' := (c.enter 0 s.user).2) rfl]
  rcases hq with hr | hr
  · simp [hr]
  · rw [if_neg (by rw [hr]; simp [No_State_Change]), if_pos (by rw [hr]; exact hn), if_pos hr, hr]

/-! A concrete machine: 0 →(1) 1, whose entry goes on to 2; 2 transitions to itself on 7. -/
def demo : Chart Nat :=
  { num := 3, parent := fun _ => none, dflt := fun _ => none, handler := fun s m u => if s = 0 ∧ m = 1 then some (1, u + 1) else if s = 2 ∧ m = 7 then some (Self_Transition, u) else none,
    unknown := fun _ _ u => (No_State_Change, u), enter := fun s u => if s = 1 then (2, u) else (No_State_Change, u), exit := fun _ u => u }

example : Flat demo ∧ StartsQuietly demo := ⟨fun _ => rfl, fun _ => .inl rfl⟩

example : (frun demo 10 { cur := none, active := fun _ => none, user := 0, log := [] } [.start, .receive 9, .receive 1, .receive 7, .reset]).map (fun s => (s.log, s.cur)) =
    .ok ([.enter 0, .unknown 0 9, .event 0 1, .exit 0, .enter 1, .exit 1, .enter 2, .event 2 7, .exit 2, .enter 2, .exit 2], none) := rfl

/-! ## Findings -/

/-- Why `StartsQuietly` is needed: when the first state's `on_enter_state` answers with another state, `start` enters that one without leaving the first. -/
theorem start_redirect_skips_exit :
    (frun { demo with enter := fun s u => if s = 0 then (1, u) else (No_State_Change, u) } 10 { cur := none, active := fun _ => none, user := 0, log := [] } [.start]).map (fun s => (s.log, s.cur)) =
      .ok ([.enter 0, .enter 1], some 1) := rfl

/-- `set_states` allows 254 states (it only requires fewer than `No_State_Change`), but the id of the last one is `Self_Transition`: a change to it does not happen. -/
theorem last_state_unreachable : (receive { demo with num := 254, handler := fun _ _ u => some (253, u) } 10 { cur := some 0, active := fun _ => none, user := 0, log := [] } 5).map (fun s => s.cur) =
    .ok (some 0) := rfl

end Etl.Fsm
