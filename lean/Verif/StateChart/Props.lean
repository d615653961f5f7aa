import Verif.StateChart.Model
import Mathlib.Tactic.SplitIfs
import Mathlib.Data.List.Basic

/-!
# C33: state_chart takes the first enabled transition
-/
namespace Etl.StateChart

variable {σ π : Type}

/-! ## Specification -/

/-- A transition applies to an event in a state. -/
def Applies (e st : Nat) (t : Transition σ π) : Prop := t.event = e ∧ (t.fromAny = true ∨ t.source = st)

/-- Which transition of a table (numbered from `i`) is taken for an event in a state: the first that applies and whose guard says yes (or which has no guard).
The guards of the applicable ones before it are asked in order, and only those. -/
inductive Takes (e st : Nat) : Nat → List (Transition σ π) → σ → Option (Nat × Transition σ π) → σ → List Ev → Prop
  | none {i u} : Takes e st i [] u none u []
  | skip {i t l u r u' ev} : ¬ Applies e st t → Takes e st (i + 1) l u r u' ev → Takes e st i (t :: l) u r u' ev
  | free {i t l u} : Applies e st t → t.guard = .none → Takes e st i (t :: l) u (some (i, t)) u []
  | yes {i t l u g u'} : Applies e st t → t.guard = some g → g u = (true, u') → Takes e st i (t :: l) u (some (i, t)) u' [.guard i]
  | no {i t l u g u1 r u' ev} : Applies e st t → t.guard = some g → g u = (false, u1) → Takes e st (i + 1) l u1 r u' ev → Takes e st i (t :: l) u r u' (.guard i :: ev)

/-- `f` of the first entry for a state, called as `ev`: what happens to the object, and the call if there is one. -/
def hook (c : Chart σ π) (f : State σ → Option (σ → σ)) (ev : Ev) (st : Nat) (u : σ) : σ × List Ev :=
  match c.states.find? (fun x => decide (x.id = st)) with
  | some x => match f x with
    | some g => (g u, [ev])
    | none => (u, [])
  | none => (u, [])

def act (i : Nat) (t : Transition σ π) (p : π) (u : σ) : σ × List Ev :=
  match t.action with
  | some f => (f p u, [.action i])
  | none => (u, [])

/-- Executing a transition: the action; then, if the state changes, `on_exit` of the old one and `on_entry` of the new one. -/
def executed (c : Chart σ π) (st i : Nat) (t : Transition σ π) (p : π) (u : σ) : σ × List Ev :=
  if st = t.target then act i t p u
  else
    let a := act i t p u
    let x := hook c State.exit (.exit st) st a.1
    let y := hook c State.entry (.entry t.target) t.target x.1
    (y.1, a.2 ++ x.2 ++ y.2)

/-- What an event does. -/
inductive Processes (c : Chart σ π) (e : Nat) (p : π) (s : St σ) : St σ → Prop
  | none {u ev} : Takes e s.cur 0 c.trans s.obj none u ev → Processes c e p s { s with obj := u, log := s.log ++ ev }
  | taken {i t u ev} : Takes e s.cur 0 c.trans s.obj (some (i, t)) u ev →
      Processes c e p s { s with cur := t.target, obj := (executed c s.cur i t p u).1, log := s.log ++ ev ++ (executed c s.cur i t p u).2 }

/-- Tables whose sizes fit the fields they are stored in. -/
structure Fits (c : Chart σ π) : Prop where
  trans : c.trans.length < 256
  states : c.states.length < 256

/-! ## Proofs -/

theorem isTransition_iff (e st : Nat) (t : Transition σ π) : isTransition e st t = true ↔ Applies e st t := by
  simp [isTransition, Applies]

theorem findFrom_spec {α : Type} (a : List α) (p : α → Bool) : ∀ (fuel i : Nat), i + fuel = a.length →
    ∃ j, findFrom a a.length p fuel i = .ok j ∧ i ≤ j ∧ j ≤ a.length ∧ (∀ k x, i ≤ k → k < j → a[k]? = some x → p x = false) ∧ (∀ x, a[j]? = some x → p x = true) := by
  intro fuel
  induction fuel with
  | zero => intro i h; exact ⟨i, by simp [findFrom, show i = a.length by omega], by omega, by omega, by intro k x; omega, by intro x hx; rw [List.getElem?_eq_none (by omega)] at hx; cases hx⟩
  | succ fuel ih =>
    intro i h
    have hi : i < a.length := by omega
    rw [findFrom, if_neg (by omega), List.getElem?_eq_getElem hi]
    by_cases hp : p a[i] = true
    · simp only [hp, if_true]
      exact ⟨i, rfl, by omega, by omega, by intro k x; omega, by intro x hx; rw [List.getElem?_eq_getElem hi] at hx; cases hx; exact hp⟩
    · simp only [hp]
      obtain ⟨j, e, h1, h2, h3, h4⟩ := ih (i + 1) (by omega)
      refine ⟨j, e, by omega, h2, ?_, h4⟩
      intro k x hk1 hk2 hx
      by_cases hki : k = i
      · subst hki; rw [List.getElem?_eq_getElem hi] at hx; cases hx; simpa using hp
      · exact h3 k x (by omega) hk2 hx

theorem find_of_first {α : Type} (p : α → Bool) : ∀ (a : List α) (j : Nat) (x : α), a[j]? = some x → p x = true → (∀ k y, k < j → a[k]? = some y → p y = false) → a.find? p = some x
  | [], j, x, h, _, _ => by simp at h
  | y :: a, 0, x, h, hp, _ => by simp at h; subst h; simp [hp]
  | y :: a, j + 1, x, h, hp, hf => by
    have hy : p y = false := hf 0 y (by omega) (by simp)
    rw [List.find?_cons, hy]
    exact find_of_first p a j x (by simpa using h) hp (fun k z hk hz => hf (k + 1) z (by omega) (by simpa using hz))

theorem findState_spec {c : Chart σ π} (hf : Fits c) (id : Nat) :
    ∃ j, findState c id = .ok j ∧ (j = c.ssize → c.states.find? (fun x => decide (x.id = id)) = none) ∧
      (j ≠ c.ssize → ∃ x, c.states[j]? = some x ∧ x.id = id ∧ c.states.find? (fun x => decide (x.id = id)) = some x) := by
  have hs : c.ssize = c.states.length := Nat.mod_eq_of_lt hf.states
  obtain ⟨j, e, _, h2, h3, h4⟩ := findFrom_spec c.states (fun s => decide (s.id = id)) c.states.length 0 (by omega)
  refine ⟨j, by rw [findState, hs]; exact e, ?_, ?_⟩
  · intro hj
    rw [List.find?_eq_none]
    intro x hx
    obtain ⟨k, hk, rfl⟩ := List.getElem_of_mem hx
    have := h3 k _ (by omega) (by omega) (List.getElem?_eq_getElem hk)
    simpa using this
  · intro hj
    have hlt : j < c.states.length := by omega
    refine ⟨c.states[j], List.getElem?_eq_getElem hlt, by simpa using h4 _ (List.getElem?_eq_getElem hlt), ?_⟩
    exact find_of_first _ _ j _ (List.getElem?_eq_getElem hlt) (h4 _ (List.getElem?_eq_getElem hlt)) (fun k y hk hy => h3 k y (by omega) hk hy)

theorem callEntry_spec {c : Chart σ π} (hf : Fits c) (st : Nat) (s : St σ) :
    ∃ j, findState c st = .ok j ∧ callEntry c j s = .ok { s with obj := (hook c State.entry (.entry st) st s.obj).1, log := s.log ++ (hook c State.entry (.entry st) st s.obj).2 } := by
  obtain ⟨j, e, h1, h2⟩ := findState_spec hf st
  refine ⟨j, e, ?_⟩
  rw [callEntry]
  by_cases hj : j = c.ssize
  · rw [if_pos hj]; simp [hook, h1 hj]
  · rw [if_neg hj]
    obtain ⟨x, hx, hid, hfd⟩ := h2 hj
    simp only [hx, hook, hfd]
    cases x.entry with
    | none => simp
    | some f => simp [hid]

theorem callExit_spec {c : Chart σ π} (hf : Fits c) (st : Nat) (s : St σ) :
    ∃ j, findState c st = .ok j ∧ callExit c j s = .ok { s with obj := (hook c State.exit (.exit st) st s.obj).1, log := s.log ++ (hook c State.exit (.exit st) st s.obj).2 } := by
  obtain ⟨j, e, h1, h2⟩ := findState_spec hf st
  refine ⟨j, e, ?_⟩
  rw [callExit]
  by_cases hj : j = c.ssize
  · rw [if_pos hj]; simp [hook, h1 hj]
  · rw [if_neg hj]
    obtain ⟨x, hx, hid, hfd⟩ := h2 hj
    simp only [hx, hook, hfd]
    cases x.exit with
    | none => simp
    | some f => simp [hid]

theorem runAction_spec (i : Nat) (t : Transition σ π) (p : π) (s : St σ) : runAction i t p s = { s with obj := (act i t p s.obj).1, log := s.log ++ (act i t p s.obj).2 } := by
  unfold runAction act; cases t.action <;> simp

theorem execute_spec {c : Chart σ π} (hf : Fits c) (i : Nat) (t : Transition σ π) (p : π) (s : St σ) :
    execute c i t p s = .ok { s with cur := t.target, obj := (executed c s.cur i t p s.obj).1, log := s.log ++ (executed c s.cur i t p s.obj).2 } := by
  rw [execute, executed, runAction_spec]
  by_cases h : s.cur = t.target
  · rw [if_neg (by simpa using h), if_pos h]; simp [← h]
  · rw [if_pos (by simpa using h), if_neg h]
    obtain ⟨j, e1, x1⟩ := callExit_spec hf s.cur { s with obj := (act i t p s.obj).1, log := s.log ++ (act i t p s.obj).2 }
    simp only [bind, Except.bind, e1, x1]
    obtain ⟨k, e2, x2⟩ := callEntry_spec hf t.target { s with cur := t.target, obj := (hook c State.exit (.exit s.cur) s.cur (act i t p s.obj).1).1, log := s.log ++ (act i t p s.obj).2 ++ (hook c State.exit (.exit s.cur) s.cur (act i t p s.obj).1).2 }
    simp only [e2, x2]
    simp

theorem takes_skip {e st : Nat} {l : List (Transition σ π)} {u : σ} {r : Option (Nat × Transition σ π)} {u' : σ} {ev : List Ev} : ∀ (pre : List (Transition σ π)) (i : Nat),
    (∀ t ∈ pre, ¬ Applies e st t) → Takes e st (i + pre.length) l u r u' ev → Takes e st i (pre ++ l) u r u' ev
  | [], i, _, h => by simpa using h
  | t :: pre, i, hn, h => .skip (hn t (by simp)) (takes_skip pre (i + 1) (fun t ht => hn t (by simp [ht])) (by simpa [Nat.add_assoc, Nat.add_comm] using h))

/-- the part of a table from a position on, split at a later one -/
theorem drop_split {α : Type} (a : List α) (i j : Nat) (h : i ≤ j) : ∃ pre, a.drop i = pre ++ a.drop j ∧ (j ≤ a.length → pre.length = j - i) ∧ ∀ x ∈ pre, ∃ k, i ≤ k ∧ k < j ∧ a[k]? = some x := by
  refine ⟨(a.drop i).take (j - i), ?_, ?_, ?_⟩
  · conv_lhs => rw [← List.take_append_drop (j - i) (a.drop i)]
    rw [List.drop_drop, show i + (j - i) = j by omega]
  · intro hj; simp; omega
  · intro x hx
    obtain ⟨k, hk, e⟩ := List.getElem_of_mem hx
    simp at hk
    refine ⟨i + k, by omega, by omega, ?_⟩
    rw [← e]; simp

theorem eventLoop_spec {c : Chart σ π} (hf : Fits c) (e : Nat) (p : π) : ∀ (fuel i : Nat) (s : St σ), i ≤ c.trans.length → c.trans.length - i ≤ fuel →
    ∃ r u ev, Takes e s.cur i (c.trans.drop i) s.obj r u ev ∧ eventLoop c e p fuel i s = match r with
      | none => .ok { s with obj := u, log := s.log ++ ev }
      | some (k, t) => execute c k t p { s with obj := u, log := s.log ++ ev } := by
  have hs : c.tsize = c.trans.length := Nat.mod_eq_of_lt hf.trans
  intro fuel
  induction fuel with
  | zero =>
    intro i s hi hfu
    refine ⟨none, s.obj, [], by rw [List.drop_eq_nil_of_le (by omega)]; exact .none, ?_⟩
    rw [eventLoop, if_pos (by omega)]; simp
  | succ fuel ih =>
    intro i s hi hfu
    rw [eventLoop, hs]
    by_cases h0 : i = c.trans.length
    · rw [if_pos h0]
      exact ⟨none, s.obj, [], by rw [List.drop_eq_nil_of_le (by omega)]; exact .none, by simp⟩
    · rw [if_neg h0]
      obtain ⟨j, e1, h1, h2, h3, h4⟩ := findFrom_spec c.trans (isTransition e s.cur) (c.trans.length - i) i (by omega)
      rw [e1]
      obtain ⟨pre, hpre, hlen, hmem⟩ := drop_split c.trans i j h1
      have hna : ∀ t ∈ pre, ¬ Applies e s.cur t := by
        intro t ht ha
        obtain ⟨k, k1, k2, hk⟩ := hmem t ht
        have := h3 k t k1 k2 hk
        rw [(isTransition_iff e s.cur t).2 ha] at this; cases this
      have hij : i + pre.length = j := by rw [hlen h2]; omega
      simp only
      by_cases hj : j = c.trans.length
      · rw [if_pos hj]
        refine ⟨none, s.obj, [], ?_, by simp⟩
        rw [hpre]
        exact takes_skip pre i hna (by rw [List.drop_eq_nil_of_le (by omega)]; exact .none)
      · rw [if_neg hj]
        have hlt : j < c.trans.length := by omega
        have hd : c.trans.drop j = c.trans[j] :: c.trans.drop (j + 1) := List.drop_eq_getElem_cons hlt
        rw [List.getElem?_eq_getElem hlt]
        have hap := (isTransition_iff e s.cur _).1 (h4 _ (List.getElem?_eq_getElem hlt))
        generalize c.trans[j] = t at hd hap
        simp only
        cases hg : t.guard with
        | none =>
          have hrg : runGuard j t s = (true, s) := by simp [runGuard, hg]
          simp only [hrg, if_true]
          refine ⟨some (j, t), s.obj, [], ?_, by simp⟩
          rw [hpre, hd]
          exact takes_skip pre i hna (by rw [hij]; exact .free hap hg)
        | some g =>
          cases hgu : g s.obj with
          | mk b u1 =>
            have hrg : runGuard j t s = (b, { s with obj := u1, log := s.log ++ [.guard j] }) := by simp [runGuard, hg, hgu]
            rw [hrg]
            cases b with
            | true =>
              simp only [if_true]
              refine ⟨some (j, t), u1, [.guard j], ?_, by simp⟩
              rw [hpre, hd]
              exact takes_skip pre i hna (by rw [hij]; exact .yes hap hg hgu)
            | false =>
              simp only [Bool.false_eq_true, if_false]
              obtain ⟨r, u, ev, ht, hr⟩ := ih (j + 1) { s with obj := u1, log := s.log ++ [.guard j] } (by omega) (by omega)
              refine ⟨r, u, .guard j :: ev, ?_, ?_⟩
              · rw [hpre, hd]
                exact takes_skip pre i hna (by rw [hij]; exact .no hap hg hgu ht)
              · rw [hr]; cases r <;> simp

theorem takes_unique {e st i : Nat} {l : List (Transition σ π)} {u : σ} {r r' : Option (Nat × Transition σ π)} {u1 u2 : σ} {ev ev' : List Ev} (h : Takes e st i l u r u1 ev) (h' : Takes e st i l u r' u2 ev') :
    r = r' ∧ u1 = u2 ∧ ev = ev' := by
  induction h generalizing r' u2 ev' with
  | none => cases h'; exact ⟨rfl, rfl, rfl⟩
  | skip hn _ ih => cases h' with
    | skip _ h' => exact ih h'
    | free ha => exact absurd ha hn
    | yes ha => exact absurd ha hn
    | no ha => exact absurd ha hn
  | free ha hg => cases h' with
    | skip hn => exact absurd ha hn
    | free => exact ⟨rfl, rfl, rfl⟩
    | yes _ hg' => rw [hg] at hg'; cases hg'
    | no _ hg' => rw [hg] at hg'; cases hg'
  | yes ha hg hgu => cases h' with
    | skip hn => exact absurd ha hn
    | free _ hg' => rw [hg] at hg'; cases hg'
    | yes _ hg' hgu' => rw [hg] at hg'; cases hg'; rw [hgu] at hgu'; cases hgu'; exact ⟨rfl, rfl, rfl⟩
    | no _ hg' hgu' => rw [hg] at hg'; cases hg'; rw [hgu] at hgu'; cases hgu'
  | no ha hg hgu _ ih => cases h' with
    | skip hn => exact absurd ha hn
    | free _ hg' => rw [hg] at hg'; cases hg'
    | yes _ hg' hgu' => rw [hg] at hg'; cases hg'; rw [hgu] at hgu'; cases hgu'
    | no _ hg' hgu' h' => rw [hg] at hg'; cases hg'; rw [hgu] at hgu'; cases hgu'; obtain ⟨rfl, rfl, rfl⟩ := ih h'; exact ⟨rfl, rfl, rfl⟩

/-! ## C33 -/

/-- **C33.** In a started chart, an event does exactly what the specification says: the result of `process_event` is the one state `Processes` relates. -/
theorem C33_process {c : Chart σ π} (hf : Fits c) (e : Nat) (p : π) (s s' : St σ) (hs : s.started = true) : processEvent c e p s = .ok s' ↔ Processes c e p s s' := by
  obtain ⟨r, u, ev, ht, hr⟩ := eventLoop_spec hf e p c.trans.length 0 s (by omega) (by omega)
  have hsz : c.tsize = c.trans.length := Nat.mod_eq_of_lt hf.trans
  rw [processEvent, if_pos hs, hsz, hr]
  rw [List.drop_zero] at ht
  cases r with
  | none =>
    simp only
    constructor
    · intro h; injection h with h; subst h; exact .none ht
    · intro h
      cases h with
      | none h' => obtain ⟨_, rfl, rfl⟩ := takes_unique ht h'; rfl
      | taken h' => obtain ⟨h, _⟩ := takes_unique ht h'; cases h
  | some q =>
    obtain ⟨i, t⟩ := q
    simp only
    rw [execute_spec hf]
    constructor
    · intro h; injection h with h; subst h; exact .taken ht
    · intro h
      cases h with
      | none h' => obtain ⟨h, _⟩ := takes_unique ht h'; cases h
      | taken h' => obtain ⟨h, rfl, rfl⟩ := takes_unique ht h'; cases h; rfl

/-- **C33**: it always ends, and never touches anything outside the tables. -/
theorem C33_total {c : Chart σ π} (hf : Fits c) (e : Nat) (p : π) (s : St σ) : ∃ s', processEvent c e p s = .ok s' := by
  rw [processEvent]
  by_cases hs : s.started = true
  · rw [if_pos hs]
    obtain ⟨r, u, ev, ht, hr⟩ := eventLoop_spec hf e p c.trans.length 0 s (by omega) (by omega)
    rw [show c.tsize = c.trans.length from Nat.mod_eq_of_lt hf.trans, hr]
    cases r with
    | none => exact ⟨_, rfl⟩
    | some q => exact ⟨_, execute_spec hf _ _ _ _⟩
  · rw [if_neg hs]; exact ⟨s, rfl⟩

/-- Guards that only look at the object. -/
def PureGuards (c : Chart σ π) (ok : Transition σ π → σ → Bool) : Prop := ∀ t ∈ c.trans, ∀ u, (t.guard = none → ok t u = true) ∧ ∀ g, t.guard = some g → g u = (ok t u, u)

/-- **C33**: when guards only look, the transition taken is the first in the table which applies and whose guard holds; the object and the state change accordingly, and if there is no
such transition nothing changes. -/
theorem C33_first {c : Chart σ π} (hf : Fits c) (ok : Transition σ π → σ → Bool) (hp : PureGuards c ok) (e : Nat) (p : π) (s : St σ) (hs : s.started = true) :
    ∃ s', processEvent c e p s = .ok s' ∧ s'.started = true ∧
      match c.trans.find? (fun t => decide (t.event = e ∧ (t.fromAny = true ∨ t.source = s.cur)) && ok t s.obj) with
      | none => s'.cur = s.cur ∧ s'.obj = s.obj
      | some t => s'.cur = t.target ∧ ∃ i, s'.obj = (executed c s.cur i t p s.obj).1 := by
  have key : ∀ (l : List (Transition σ π)) (i : Nat) (r : Option (Nat × Transition σ π)) (u : σ) (ev : List Ev), (∀ t ∈ l, t ∈ c.trans) → Takes e s.cur i l s.obj r u ev →
      u = s.obj ∧ r.map Prod.snd = l.find? (fun t => decide (t.event = e ∧ (t.fromAny = true ∨ t.source = s.cur)) && ok t s.obj) := by
    intro l
    induction l with
    | nil => intro i r u ev _ h; cases h; exact ⟨rfl, rfl⟩
    | cons t l ih =>
      intro i r u ev hm h
      have ht := hp t (hm t (by simp)) s.obj
      cases h with
      | skip hn h =>
        obtain ⟨a, b⟩ := ih _ _ _ _ (fun t ht => hm t (by simp [ht])) h
        refine ⟨a, ?_⟩
        rw [List.find?_cons, decide_eq_false (by simpa [Applies] using hn), Bool.false_and]; exact b
      | free ha hg =>
        refine ⟨rfl, ?_⟩
        rw [List.find?_cons, decide_eq_true (by simpa [Applies] using ha), ht.1 hg]; rfl
      | yes ha hg hgu =>
        have := ht.2 _ hg
        rw [hgu] at this
        injection this with h1 h2
        refine ⟨h2, ?_⟩
        rw [List.find?_cons, decide_eq_true (by simpa [Applies] using ha), ← h1]; rfl
      | no ha hg hgu h =>
        have := ht.2 _ hg
        rw [hgu] at this
        injection this with h1 h2
        subst h2
        obtain ⟨a, b⟩ := ih _ _ _ _ (fun t ht => hm t (by simp [ht])) h
        refine ⟨a, ?_⟩
        rw [List.find?_cons, ← h1, Bool.and_false]; exact b
  obtain ⟨s', hs'⟩ := C33_total hf e p s
  refine ⟨s', hs', ?_⟩
  cases (C33_process hf e p s s' hs).1 hs' with
  | none h =>
    obtain ⟨a, b⟩ := key _ _ _ _ _ (fun _ h => h) h
    rw [← b]; exact ⟨hs, rfl, a⟩
  | @taken i t u ev h =>
    obtain ⟨a, b⟩ := key _ _ _ _ _ (fun _ h => h) h
    rw [← b]; subst a; exact ⟨hs, rfl, i, rfl⟩

/-- **C33**: the first `start` calls `on_entry` of the initial state, later ones do nothing; before it events are ignored. -/
theorem C33_start {c : Chart σ π} (hf : Fits c) (s : St σ) (b : Bool) :
    start c b s = .ok (if s.started then s else if b then
      { s with started := true, obj := (hook c State.entry (.entry s.cur) s.cur s.obj).1, log := s.log ++ (hook c State.entry (.entry s.cur) s.cur s.obj).2 }
      else { s with started := true }) := by
  rw [start]
  by_cases h : s.started = true
  · simp only [h, if_true]
  · simp only [h]
    cases b with
    | false => rfl
    | true =>
      obtain ⟨j, e, x⟩ := callEntry_spec hf s.cur s
      simp only [if_true, bind, Except.bind, e, x]; rfl

theorem C33_not_started (c : Chart σ π) (e : Nat) (p : π) (s : St σ) (h : s.started = false) : processEvent c e p s = .ok s := by simp [processEvent, h]

/-! ### Entries and exits over whole histories -/

inductive Op (π : Type) where
  | start
  | event (e : Nat) (p : π)

def opStep (c : Chart σ π) (s : St σ) : Op π → Res (St σ)
  | .start => start c true s
  | .event e p => processEvent c e p s

def run (c : Chart σ π) : St σ → List (Op π) → Res (St σ)
  | s, [] => .ok s
  | s, o :: os => (opStep c s o).bind (fun s => run c s os)

/-- The entries and exits alternate and agree: one may enter only when in no state, leave only the state one is in. -/
def replay : Option Nat → List Ev → Option (Option Nat)
  | a, [] => some a
  | none, .entry s :: l => replay (some s) l
  | some x, .exit s :: l => if s = x then replay none l else none
  | a, .guard _ :: l => replay a l
  | a, .action _ :: l => replay a l
  | _, _ :: _ => none

/-- every state named in the tables has hooks -/
def Hooked (c : Chart σ π) (ids : List Nat) : Prop :=
  (∀ t ∈ c.trans, t.target ∈ ids) ∧ ∀ i ∈ ids, ∃ x f g, c.states.find? (fun x => decide (x.id = i)) = some x ∧ x.entry = some f ∧ x.exit = some g

theorem replay_append : ∀ (l l' : List Ev) (a : Option Nat), replay a (l ++ l') = (replay a l).bind (fun b => replay b l')
  | [], _, _ => rfl
  | e :: l, l', a => by cases a <;> cases e <;> simp [replay, replay_append l l'] <;> split_ifs <;> simp [replay_append l l']

theorem takes_replay {e st i : Nat} {l : List (Transition σ π)} {u : σ} {r : Option (Nat × Transition σ π)} {u1 : σ} {ev : List Ev} (h : Takes e st i l u r u1 ev) (a : Option Nat) : replay a ev = some a := by
  induction h with
  | none => simp [replay]
  | skip _ _ ih => exact ih
  | free => simp [replay]
  | yes => simp [replay]
  | no _ _ _ _ ih => simpa [replay] using ih

theorem takes_mem {e st i : Nat} {l : List (Transition σ π)} {u : σ} {k : Nat} {t : Transition σ π} {u1 : σ} {ev : List Ev} (h : Takes e st i l u (some (k, t)) u1 ev) : t ∈ l := by
  generalize hr : some (k, t) = r at h
  induction h with
  | none => cases hr
  | skip _ _ ih => exact List.mem_cons_of_mem _ (ih hr)
  | free => cases hr; simp
  | yes => cases hr; simp
  | no _ _ _ _ ih => exact List.mem_cons_of_mem _ (ih hr)

/-- **C33.** When every state has its hooks: in every history the calls of `on_entry` and `on_exit` alternate, each exit is of the state entered last, and the current state is the one
entered and not left. -/
theorem C33_history {c : Chart σ π} (hf : Fits c) (ids : List Nat) (hk : Hooked c ids) (u : σ) (i0 : Nat) (h0 : i0 ∈ ids) :
    ∀ ops : List (Op π), ∃ s, run c ⟨i0, false, u, []⟩ ops = .ok s ∧ s.cur ∈ ids ∧ replay none s.log = some (if s.started then some s.cur else none) := by
  have hentry : ∀ st ∈ ids, ∀ v, (hook c State.entry (.entry st) st v).2 = [.entry st] := by
    intro st hst v
    obtain ⟨x, f, g, h1, h2, h3⟩ := hk.2 st hst
    simp [hook, h1, h2]
  have hexit : ∀ st ∈ ids, ∀ v, (hook c State.exit (.exit st) st v).2 = [.exit st] := by
    intro st hst v
    obtain ⟨x, f, g, h1, h2, h3⟩ := hk.2 st hst
    simp [hook, h1, h3]
  have hact : ∀ i (t : Transition σ π) p v a, replay a (act i t p v).2 = some a := by
    intro i t p v a; unfold act; cases t.action <;> simp [replay]
  have step : ∀ (o : Op π) (s : St σ), s.cur ∈ ids → replay none s.log = some (if s.started then some s.cur else none) →
      ∃ s', opStep c s o = .ok s' ∧ s'.cur ∈ ids ∧ replay none s'.log = some (if s'.started then some s'.cur else none) := by
    intro o s hc hl
    cases o with
    | start =>
      refine ⟨_, C33_start hf s true, ?_⟩
      by_cases h : s.started = true
      · simp only [h, if_true]; exact ⟨hc, by simpa [h] using hl⟩
      · simp only [h, if_true]
        refine ⟨hc, ?_⟩
        simp only [h] at hl
        simp only [Bool.false_eq_true, if_false, if_true, replay_append, hl, hentry _ hc]
        simp [replay]
    | event e p =>
      by_cases h : s.started = true
      · obtain ⟨s', hs'⟩ := C33_total hf e p s
        refine ⟨s', hs', ?_⟩
        simp only [h, if_true] at hl
        cases (C33_process hf e p s s' h).1 hs' with
        | none ht => exact ⟨hc, by simp [replay_append, hl, takes_replay ht, h]⟩
        | @taken i t v ev ht =>
          have htg : t.target ∈ ids := hk.1 t (takes_mem ht)
          refine ⟨htg, ?_⟩
          simp only [h, if_true, replay_append, hl, Option.bind_some, takes_replay ht]
          rw [executed]
          by_cases hcur : s.cur = t.target
          · rw [if_pos hcur, hact, hcur]
          · rw [if_neg hcur]
            simp only [replay_append, hact, hexit _ hc, hentry _ htg, Option.bind_some]
            simp [replay]
      · have h' : s.started = false := by simpa using h
        exact ⟨s, C33_not_started c e p s h', hc, hl⟩
  intro ops
  have run' : ∀ (ops : List (Op π)) (s : St σ), s.cur ∈ ids → replay none s.log = some (if s.started then some s.cur else none) →
      ∃ s', run c s ops = .ok s' ∧ s'.cur ∈ ids ∧ replay none s'.log = some (if s'.started then some s'.cur else none) := by
    intro ops
    induction ops with
    | nil => intro s hc hl; exact ⟨s, rfl, hc, hl⟩
    | cons o os ih =>
      intro s hc hl
      obtain ⟨s1, e1, hc1, hl1⟩ := step o s hc hl
      obtain ⟨s2, e2, h⟩ := ih s1 hc1 hl1
      exact ⟨s2, by simp only [run, e1, Except.bind]; exact e2, h⟩
  exact run' ops ⟨i0, false, u, []⟩ h0 (by simp [replay])

/-! ### A chart -/

def demo : Chart Nat Nat where
  trans := [⟨0, 10, 1, some (fun p u => u + p), some (fun u => (decide (u > 5), u)), false⟩,
            ⟨0, 10, 2, none, none, false⟩,
            ⟨0, 11, 0, some (fun p _ => p), none, true⟩]
  states := [⟨0, some (· + 100), some (· + 200)⟩, ⟨1, some id, some id⟩, ⟨2, some id, some id⟩]

example : Fits demo ∧ Hooked demo [0, 1, 2] ∧ PureGuards demo (fun t u => match t.guard with | none => true | some _ => decide (u > 5)) := by
  refine ⟨⟨by decide, by decide⟩, ⟨by simp [demo], by intro i hi; simp at hi; rcases hi with rfl | rfl | rfl <;> simp [demo]⟩, ?_⟩
  intro t ht u
  simp [demo] at ht
  rcases ht with rfl | rfl | rfl <;> simp

/-- the guard of the first transition decides between the first two -/
example : (run demo ⟨0, false, 1, []⟩ [.event 10 1, .start, .event 10 7, .event 11 2, .event 12 0]).toOption.map (fun s => (s.cur, s.obj, s.log)) =
    some (0, 102, [.entry 0, .guard 0, .action 0, .exit 0, .entry 1, .action 2, .exit 1, .entry 0]) := by decide +kernel

example : (run demo ⟨0, true, 1, []⟩ [.event 10 1]).toOption.map (fun s => (s.cur, s.obj, s.log)) = some (2, 201, [.guard 0, .exit 0, .entry 2]) := by decide +kernel

/-- **Finding.** The sizes of the tables are kept in a `uint_least8_t`: a table of 256 transitions counts as empty, and every event is ignored. -/
theorem table_of_256_ignored (c : Chart σ π) (h : c.trans.length = 256) (e : Nat) (p : π) (s : St σ) : processEvent c e p s = .ok s := by
  have : c.tsize = 0 := by simp [Chart.tsize, h]
  rw [processEvent, this]; simp [eventLoop, this]

end Etl.StateChart
