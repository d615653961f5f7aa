import Verif.Delegate.Model
import Mathlib.Tactic.Linarith

/-!
# C93: delegates; C94: delegate and callback services
-/
namespace Etl.Delegate

/-! ## Specification of delegates -/

/-- what a delegate made this way is to call -/
def Source.callee : Source → Callee
  | .func f => .func f
  | .lambda c o => .op c o
  | .constLambda c o => .constOp c o
  | .method m o => .method m o
  | .constMethod m o => .constMethod m o
  | .methodInstance m o => .method m o
  | .constMethodInstance m o => .constMethod m o
  | .opInstance c o => .op c o
/-- a delegate refers to an object, which has an address -/
def Source.proper : Source → Prop
  | .func _ => True
  | .lambda _ o | .constLambda _ o | .method _ o | .constMethod _ o | .methodInstance _ o | .constMethodInstance _ o | .opInstance _ o => o ≠ 0

/-- abstractly, a variable holds nothing or what it was made from -/
structure Abs (W : Type) where
  var : Nat → Option Source
  world : W
/-- the calls, abstractly: a call runs exactly what the variable was made from, with the arguments; an empty one fails, is skipped or replaced by the alternative -/
def astep {A R W : Type} (exec : Callee → A → W → Res (R × W)) (s : Abs W) : Op A W → Res (Abs W × Out R)
  | .set v src => .ok ({ s with var := upd s.var v (some src) }, .unit)
  | .clear v => .ok ({ s with var := upd s.var v none }, .unit)
  | .copy v u => .ok ({ s with var := upd s.var v (s.var u) }, .unit)
  | .valid v => .ok (s, .bool (decide (s.var v ≠ none)))
  | .eq v u => .ok (s, .bool (decide (s.var v = s.var u)))
  | .ne v u => .ok (s, .bool (decide (s.var v ≠ s.var u)))
  | .call v a => match s.var v with
    | none => .ok (s, .failed)
    | some src => match exec src.callee a s.world with
      | .error u => .error u
      | .ok (r, w) => .ok ({ s with world := w }, .ret r)
  | .callIf v a => match s.var v with
    | none => .ok (s, .opt none)
    | some src => match exec src.callee a s.world with
      | .error u => .error u
      | .ok (r, w) => .ok ({ s with world := w }, .opt (some r))
  | .callOr v alt a => match exec ((s.var v).elim alt Source.callee) a s.world with
    | .error u => .error u
    | .ok (r, w) => .ok ({ s with world := w }, .ret r)
  | .env f => .ok ({ s with world := f s.world }, .unit)
def arun {A R W : Type} (exec : Callee → A → W → Res (R × W)) (s : Abs W) : List (Op A W) → Res (Abs W × List (Out R))
  | [] => .ok (s, [])
  | op :: ops => match astep exec s op with
    | .error u => .error u
    | .ok (s, o) => match arun exec s ops with
      | .error u => .error u
      | .ok (s, os) => .ok (s, o :: os)
/-- the histories: objects have addresses -/
def proper {A W : Type} (ops : List (Op A W)) : Prop := ∀ v src, Op.set v src ∈ ops → src.proper

/-! ## Proofs -/

def conc (s : Option Source) : Delegate := s.elim empty Source.make

theorem make_inj {s t : Source} (h : s.make = t.make) : s = t := by
  cases s <;> cases t <;> simp_all [Source.make]
theorem conc_inj {s t : Option Source} : conc s = conc t ↔ s = t := by
  constructor
  · intro h
    cases s with
    | none => cases t with
      | none => rfl
      | some t => cases t <;> simp [conc, empty, Source.make] at h
    | some s => cases t with
      | none => cases s <;> simp [conc, empty, Source.make] at h
      | some t => rw [make_inj h]
  · rintro rfl; rfl
theorem equal_iff (d e : Delegate) : equal d e = decide (d = e) := by
  cases d; cases e; rw [equal, ← Bool.decide_and]; congr 1; simp only [Delegate.mk.injEq, eq_iff_iff]; constructor <;> (rintro ⟨h1, h2⟩; exact ⟨h2.symm, h1.symm⟩)
theorem notEqual_iff (d e : Delegate) : notEqual d e = decide (d ≠ e) := by
  have : notEqual d e = !equal d e := by simp [notEqual, equal]
  rw [this, equal_iff]; simp
theorem make_stub (s : Source) (hp : s.proper) : ∃ st, s.make.stub = some st ∧ st.target s.make.object = .ok s.callee := by
  cases s <;> simp_all [Source.make, Source.proper, Stub.target, deref, Source.callee]

theorem step_ok {A R W : Type} (exec : Callee → A → W → Res (R × W)) (t : Abs W) (hp : ∀ v s, t.var v = some s → s.proper) (op : Op A W) (ho : ∀ v src, op = .set v src → src.proper) :
    step exec ⟨fun v => conc (t.var v), t.world⟩ op = (match astep exec t op with
      | .error u => .error u
      | .ok (t, o) => .ok (⟨fun v => conc (t.var v), t.world⟩, o)) ∧
    ∀ t' o, astep exec t op = .ok (t', o) → ∀ v s, t'.var v = some s → s.proper := by
  have hu : ∀ v (x : Option Source), (upd (fun v => conc (t.var v)) v (conc x)) = fun w => conc (upd t.var v x w) := by
    intro v x; funext w; by_cases e : w = v <;> simp [upd, e]
  cases op with
  | set v src =>
    refine ⟨?_, fun t' o h => ?_⟩
    · simp only [step, astep]; rw [show src.make = conc (some src) from rfl, hu]
    · simp only [astep, Except.ok.injEq, Prod.mk.injEq] at h
      obtain ⟨rfl, _⟩ := h
      intro w s hs; simp only [upd] at hs; split at hs
      · cases hs; exact ho v _ rfl
      · exact hp w s hs
  | clear v =>
    refine ⟨?_, fun t' o h => ?_⟩
    · simp only [step, astep]; rw [show empty = conc none from rfl, hu]
    · simp only [astep, Except.ok.injEq, Prod.mk.injEq] at h
      obtain ⟨rfl, _⟩ := h
      intro w s hs; simp only [upd] at hs; split at hs
      · cases hs
      · exact hp w s hs
  | copy v u =>
    refine ⟨?_, fun t' o h => ?_⟩
    · simp only [step, astep]; rw [hu]
    · simp only [astep, Except.ok.injEq, Prod.mk.injEq] at h
      obtain ⟨rfl, _⟩ := h
      intro w s hs; simp only [upd] at hs; split at hs
      · exact hp u s hs
      · exact hp w s hs
  | valid v =>
    refine ⟨?_, fun t' o h => ?_⟩
    · simp only [step, astep]
      cases hv : t.var v with
      | none => rfl
      | some s => cases s <;> rfl
    · simp only [astep, Except.ok.injEq, Prod.mk.injEq] at h; obtain ⟨rfl, _⟩ := h; exact hp
  | eq v u =>
    refine ⟨?_, fun t' o h => ?_⟩
    · simp only [step, astep, equal_iff, conc_inj]
    · simp only [astep, Except.ok.injEq, Prod.mk.injEq] at h; obtain ⟨rfl, _⟩ := h; exact hp
  | ne v u =>
    refine ⟨?_, fun t' o h => ?_⟩
    · simp only [step, astep, notEqual_iff, ne_eq, conc_inj]
    · simp only [astep, Except.ok.injEq, Prod.mk.injEq] at h; obtain ⟨rfl, _⟩ := h; exact hp
  | call v a =>
    cases hv : t.var v with
    | none => exact ⟨by simp [step, astep, hv, conc, empty, Delegate.call], by simp only [astep, hv]; rintro _ _ ⟨⟩; exact hp⟩
    | some s =>
      obtain ⟨st, h1, h2⟩ := make_stub s (hp v s hv)
      refine ⟨?_, ?_⟩
      · simp only [step, astep, hv, conc, Option.elim, Delegate.call, h1, invoke, h2]
        cases exec s.callee a t.world <;> rfl
      · simp only [astep, hv]
        cases exec s.callee a t.world with
        | error u => rintro _ _ ⟨⟩
        | ok rw => rintro _ _ ⟨⟩; exact hp
  | callIf v a =>
    cases hv : t.var v with
    | none => exact ⟨by simp [step, astep, hv, conc, empty, Delegate.callIf], by simp only [astep, hv]; rintro _ _ ⟨⟩; exact hp⟩
    | some s =>
      obtain ⟨st, h1, h2⟩ := make_stub s (hp v s hv)
      refine ⟨?_, ?_⟩
      · simp only [step, astep, hv, conc, Option.elim, Delegate.callIf, h1, invoke, h2]
        cases exec s.callee a t.world <;> rfl
      · simp only [astep, hv]
        cases exec s.callee a t.world with
        | error u => rintro _ _ ⟨⟩
        | ok rw => rintro _ _ ⟨⟩; exact hp
  | callOr v alt a =>
    cases hv : t.var v with
    | none =>
      refine ⟨?_, ?_⟩
      · simp only [step, astep, hv, conc, Option.elim, Delegate.callOr, empty]
        cases exec alt a t.world <;> rfl
      · simp only [astep, hv, Option.elim]
        cases exec alt a t.world with
        | error u => rintro _ _ ⟨⟩
        | ok rw => rintro _ _ ⟨⟩; exact hp
    | some s =>
      obtain ⟨st, h1, h2⟩ := make_stub s (hp v s hv)
      refine ⟨?_, ?_⟩
      · simp only [step, astep, hv, conc, Option.elim, Delegate.callOr, h1, invoke, h2]
        cases exec s.callee a t.world <;> rfl
      · simp only [astep, hv, Option.elim]
        cases exec s.callee a t.world with
        | error u => rintro _ _ ⟨⟩
        | ok rw => rintro _ _ ⟨⟩; exact hp
  | env f =>
    refine ⟨rfl, fun t' o h => ?_⟩
    simp only [astep, Except.ok.injEq, Prod.mk.injEq] at h; obtain ⟨rfl, _⟩ := h; exact hp

theorem run_ok {A R W : Type} (exec : Callee → A → W → Res (R × W)) : ∀ (ops : List (Op A W)) (t : Abs W), (∀ v s, t.var v = some s → s.proper) → proper ops →
    run exec ⟨fun v => conc (t.var v), t.world⟩ ops = (match arun exec t ops with
      | .error u => .error u
      | .ok (t, o) => .ok (⟨fun v => conc (t.var v), t.world⟩, o))
  | [], t, _, _ => rfl
  | op :: ops, t, hp, ho => by
    obtain ⟨h1, h2⟩ := step_ok exec t hp op (fun v src e => ho v src (by simp [e]))
    rw [run, arun, h1]
    cases hs : astep exec t op with
    | error u => rfl
    | ok x =>
      obtain ⟨t', o⟩ := x
      simp only
      rw [run_ok exec ops t' (h2 t' o hs) (fun v src e => ho v src (by simp [e]))]
      cases arun exec t' ops <;> rfl

/-- **C93**: for every history of making, copying, clearing, comparing and calling delegates, whatever the user's functions do, delegates behave as variables that hold nothing or a function with its object:
a call runs exactly that function on that object, once, with these arguments, and answers its result; an empty delegate fails the assertion, is skipped by `call_if`, and replaced by the alternative in `call_or`. -/
theorem C93_refines {A R W : Type} (exec : Callee → A → W → Res (R × W)) (ops : List (Op A W)) (w : W) (hp : proper ops) :
    (run exec (init w) ops).map (fun x => (x.1.world, x.2)) = (arun exec ⟨fun _ => none, w⟩ ops).map (fun x => (x.1.world, x.2)) := by
  rw [show (init w : St W) = ⟨fun v => conc ((⟨fun _ => none, w⟩ : Abs W).var v), w⟩ from rfl, run_ok exec ops ⟨fun _ => none, w⟩ (by simp) hp]
  cases arun exec ⟨fun _ => none, w⟩ ops <;> rfl

/-- **C93**: equal delegates call the same; `!=` is the negation of `==`; `==` is an equivalence. -/
theorem C93_equal (s t : Source) : (equal s.make t.make = true → s.callee = t.callee) ∧ (equal s.make t.make = true ↔ s = t) ∧ (∀ d e, notEqual d e = !equal d e) ∧
    (∀ d, equal d d = true) ∧ (∀ d e, equal d e = equal e d) ∧ (∀ d e f, equal d e = true → equal e f = true → equal d f = true) := by
  have h : equal s.make t.make = true ↔ s = t := by
    rw [equal_iff, decide_eq_true_iff]; exact ⟨make_inj, fun e => e ▸ rfl⟩
  refine ⟨fun e => by rw [h.1 e], h, fun d e => by rw [notEqual_iff, equal_iff]; simp, fun d => by simp [equal_iff], fun d e => by simp [equal_iff, eq_comm], fun d e f => ?_⟩
  simp only [equal_iff, decide_eq_true_iff]; exact Eq.trans

/-- **Finding** (C93): two delegates that call the same method of the same object are not equal if one names the object at compile time and the other at run time. -/
theorem C93_same_call_unequal : ∃ s t : Source, s.proper ∧ t.proper ∧ s.callee = t.callee ∧ equal s.make t.make = false :=
  ⟨.method 1 2, .methodInstance 1 2, by simp [Source.proper], by simp [Source.proper], rfl, rfl⟩

/-- an example history: two variables, a function and a method, calls that count -/
example : ∃ s, run (fun c (a : Nat) (w : List (Callee × Nat)) => .ok (a + 1, (c, a) :: w)) (init [])
    [.callOr 1 (.func 9) 5, .set 1 (.method 3 7), .copy 2 1, .eq 1 2, .call 2 6, .clear 2, .callIf 2 8, .call 2 8] =
    .ok (s, [.ret 6, .unit, .unit, .bool true, .ret 7, .unit, .opt none, .failed]) ∧ s.world = [(.method 3 7, 6), (.func 9, 5)] := ⟨_, rfl, rfl⟩
example : proper ([.set 1 (.method 3 7), .call 2 6] : List (Op Nat Nat)) := by
  intro v src h; simp at h; obtain ⟨_, rfl⟩ := h; simp [Source.proper]

/-! ## Specification of the services -/

/-- what the user knows about a service: what is registered for each id, and for the others -/
structure View where
  reg : Nat → Option Source
  other : Option Source
/-- the user's calls, with delegates that are made from something -/
inductive UOp where
  | create (svc : Nat) | destroy (svc : Nat) | register (svc id : Nat) (s : Source) | registerUnhandled (svc : Nat) (s : Source) | call (svc id : Nat)
def UOp.op : UOp → SOp
  | .create v => .create v
  | .destroy v => .destroy v
  | .register v id s => .register v id s.make
  | .registerUnhandled v s => .registerUnhandled v s.make
  | .call v id => .call v id
/-- the ids the service is for -/
def Cfg.mine (c : Cfg) (id : Nat) : Prop := c.offset ≤ id ∧ id < c.offset + c.range
instance (c : Cfg) (id : Nat) : Decidable (c.mine id) := inferInstanceAs (Decidable (_ ∧ _))
/-- the specification: a call reaches what is registered for the id, otherwise what is registered for unhandled ids, otherwise nothing; it passes the id -/
def vstep (c : Cfg) (vs : Nat → Option View) : UOp → Res ((Nat → Option View) × Option Called)
  | .create v => .ok (upd vs v (some ⟨fun _ => none, none⟩), some [])
  | .destroy v => .ok (upd vs v none, some [])
  | .register v id s => match vs v with
    | none => .error .deadAccess
    | some w => .ok (if c.mine id then upd vs v (some { w with reg := upd w.reg id (some s) }) else vs, some [])
  | .registerUnhandled v s => match vs v with
    | none => .error .deadAccess
    | some w => .ok (upd vs v (some { w with other := some s }), some [])
  | .call v id => match vs v with
    | none => .error .deadAccess
    | some w => .ok (vs, some (match w.reg id with
      | some s => [(s.callee, id)]
      | none => match w.other with
        | some s => [(s.callee, id)]
        | none => []))
def vrun (c : Cfg) (vs : Nat → Option View) : List UOp → Res ((Nat → Option View) × List (Option Called))
  | [] => .ok (vs, [])
  | op :: ops => match vstep c vs op with
    | .error u => .error u
    | .ok (vs, o) => match vrun c vs ops with
      | .error u => .error u
      | .ok (vs, os) => .ok (vs, o :: os)
def uproper (ops : List UOp) : Prop := ∀ op ∈ ops, ∀ s, (∃ v id, op = .register v id s) ∨ (∃ v, op = .registerUnhandled v s) → s.proper

/-- the service in memory and what the user knows agree -/
structure Agrees (c : Cfg) (svc : Nat) (s : Service) (w : View) : Prop where
  other : s.unhandled = conc w.other
  reg : ∀ id, c.mine id → s.lookup (id - c.offset) = (match w.reg id with
    | some src => .user src.make
    | none => .internal svc)
  out : ∀ id, ¬ c.mine id → w.reg id = none
  p1 : ∀ id s, w.reg id = some s → s.proper
  p2 : ∀ s, w.other = some s → s.proper
def AgreeAll (c : Cfg) (ss : Services) (vs : Nat → Option View) : Prop :=
  ∀ v, (ss v = none ∧ vs v = none) ∨ ∃ s w, ss v = some s ∧ vs v = some w ∧ Agrees c v s w

theorem inRange_iff (c : Cfg) (hc : c.offset + c.range < 2 ^ c.bits) (id : Nat) : c.inRange id = decide (c.mine id) := by
  rw [Cfg.inRange, Nat.mod_eq_of_lt hc, ← Bool.decide_and]; rfl
theorem fire_make (s : Source) (hp : s.proper) (id : Nat) : fire s.make id = .ok (some [(s.callee, id)]) := by
  obtain ⟨st, h1, h2⟩ := make_stub s hp
  rw [fire, h1]; simp [h2]

theorem agree_upd {c : Cfg} {ss : Services} {vs : Nat → Option View} (h : AgreeAll c ss vs) (v : Nat) (s : Service) (w : View) (ha : Agrees c v s w) : AgreeAll c (upd ss v (some s)) (upd vs v (some w)) := by
  intro u
  by_cases e : u = v
  · subst e; exact .inr ⟨s, w, by simp, by simp, ha⟩
  · simp only [upd_other _ _ e]; exact h u

theorem unhandled_ok {c : Cfg} {ss : Services} {v : Nat} {s : Service} {w : View} (hs : ss v = some s) (ha : Agrees c v s w) (id : Nat) :
    unhandled ss v id = .ok (some (match w.other with | some s => [(s.callee, id)] | none => [])) := by
  rw [unhandled, hs]; simp only [ha.other]
  cases ho : w.other with
  | none => rfl
  | some src =>
    have : isValid (conc (some src)) = true := by cases src <;> rfl
    rw [this]; simp only [if_true]; exact fire_make src (ha.p2 src ho) id

theorem sstep_ok (c : Cfg) (hc : c.offset + c.range < 2 ^ c.bits) {ss : Services} {vs : Nat → Option View} (h : AgreeAll c ss vs) (op : UOp)
    (hp : ∀ s, (∃ v id, op = .register v id s) ∨ (∃ v, op = .registerUnhandled v s) → s.proper) :
    (∃ u, sstep c ss op.op = .error u ∧ vstep c vs op = .error u) ∨
    ∃ ss' vs' o, sstep c ss op.op = .ok (ss', o) ∧ vstep c vs op = .ok (vs', o) ∧ AgreeAll c ss' vs' := by
  cases op with
  | create v =>
    refine .inr ⟨_, _, _, rfl, rfl, agree_upd h v _ _ ⟨rfl, fun id _ => rfl, fun _ _ => rfl, fun _ _ e => by simp at e, fun _ e => by simp at e⟩⟩
  | destroy v =>
    refine .inr ⟨_, _, _, rfl, rfl, fun u => ?_⟩
    by_cases e : u = v
    · exact .inl ⟨by simp [e], by simp [e]⟩
    · simp only [upd_other _ _ e]; exact h u
  | register v id s =>
    rcases h v with ⟨h1, h2⟩ | ⟨sv, w, h1, h2, ha⟩
    · exact .inl ⟨.deadAccess, by simp [UOp.op, sstep, h1], by simp [vstep, h2]⟩
    · simp only [UOp.op, sstep, vstep, h1, h2, inRange_iff c hc, decide_eq_true_iff]
      by_cases hm : c.mine id
      · simp only [hm, if_true]
        refine .inr ⟨_, _, _, rfl, rfl, agree_upd h v _ _ ⟨ha.other, fun j hj => ?_, fun j hj => ?_, fun j t e => ?_, ha.p2⟩⟩
        · by_cases e : j = id
          · subst e; simp [upd]
          · have : j - c.offset ≠ id - c.offset := by unfold Cfg.mine at hm hj; omega
            simp only [upd_other _ _ this, upd_other _ _ e]; exact ha.reg j hj
        · have e : j ≠ id := fun e => hj (e ▸ hm)
          simp only [upd_other _ _ e]; exact ha.out j hj
        · by_cases ej : j = id
          · subst ej; simp only [upd_same] at e; cases e; exact hp _ (.inl ⟨_, _, rfl⟩)
          · simp only [upd_other _ _ ej] at e; exact ha.p1 j t e
      · simp only [hm, if_false]; exact .inr ⟨_, _, _, rfl, rfl, h⟩
  | registerUnhandled v s =>
    rcases h v with ⟨h1, h2⟩ | ⟨sv, w, h1, h2, ha⟩
    · exact .inl ⟨.deadAccess, by simp [UOp.op, sstep, h1], by simp [vstep, h2]⟩
    · simp only [UOp.op, sstep, vstep, h1, h2]
      refine .inr ⟨_, _, _, rfl, rfl, agree_upd h v _ _ ⟨rfl, ha.reg, ha.out, ha.p1, fun t e => ?_⟩⟩
      simp only [Option.some.injEq] at e; subst e; exact hp _ (.inr ⟨_, rfl⟩)
  | call v id =>
    rcases h v with ⟨h1, h2⟩ | ⟨sv, w, h1, h2, ha⟩
    · exact .inl ⟨.deadAccess, by simp [UOp.op, sstep, h1], by simp [vstep, h2]⟩
    · simp only [UOp.op, sstep, vstep, h1, h2, inRange_iff c hc, decide_eq_true_iff]
      by_cases hm : c.mine id
      · simp only [hm, if_true, ha.reg id hm]
        cases hr : w.reg id with
        | none => simp only [unhandled_ok h1 ha]; exact .inr ⟨_, _, _, rfl, rfl, h⟩
        | some src => simp only [fire_make src (ha.p1 id src hr)]; exact .inr ⟨_, _, _, rfl, rfl, h⟩
      · simp only [hm, if_false, unhandled_ok h1 ha, ha.out id hm]
        exact .inr ⟨_, _, _, rfl, rfl, h⟩

theorem srun_ok (c : Cfg) (hc : c.offset + c.range < 2 ^ c.bits) : ∀ (ops : List UOp) {ss : Services} {vs : Nat → Option View}, AgreeAll c ss vs → uproper ops →
    (srun c ss (ops.map UOp.op)).map Prod.snd = (vrun c vs ops).map Prod.snd
  | [], _, _, _, _ => rfl
  | op :: ops, ss, vs, h, hp => by
    rw [List.map_cons, srun, vrun]
    rcases sstep_ok c hc h op (hp op (by simp)) with ⟨u, h1, h2⟩ | ⟨ss', vs', o, h1, h2, h3⟩
    · rw [h1, h2]; rfl
    · rw [h1, h2]; simp only
      have ih := srun_ok c hc ops h3 (fun o ho => hp o (by simp [ho]))
      cases hs : srun c ss' (ops.map UOp.op) with
      | error u => cases hv : vrun c vs' ops with
        | error u' => rw [hs, hv] at ih; simpa [Except.map] using ih
        | ok y => rw [hs, hv] at ih; simp [Except.map] at ih
      | ok x => cases hv : vrun c vs' ops with
        | error u' => rw [hs, hv] at ih; simp [Except.map] at ih
        | ok y => rw [hs, hv] at ih; simp [Except.map] at ih ⊢; exact ih

/-- **C94**: for every history of services created, used and destroyed: a call with an id reaches exactly what was last registered for that id at that service, once, with the id; if nothing was, or the id is not
one of the service, it reaches what was registered for unhandled ids, and otherwise nothing.  Registrations for other ids or at other services do not matter.  (No copies of services, see `C94_copy`; `Offset + Range`
fits in `size_t`, see `C94_wrap`.) -/
theorem C94_service (c : Cfg) (hc : c.offset + c.range < 2 ^ c.bits) (ops : List UOp) (hp : uproper ops) :
    (srun c (fun _ => none) (ops.map UOp.op)).map Prod.snd = (vrun c (fun _ => none) ops).map Prod.snd :=
  srun_ok c hc ops (fun _ => .inl ⟨rfl, rfl⟩) hp

/-- **C94**: the service over a constant table calls the entry of the id, and the last entry for every other id. -/
theorem C94_table (c : Cfg) (hc : c.offset + c.range < 2 ^ c.bits) (table : List Source) (hl : table.length = c.range + 1) (hp : ∀ s ∈ table, s.proper) (id : Nat) :
    ∃ i s, table[i]? = some s ∧ tableCall c (table.map Source.make) id = .ok (some [(s.callee, id)]) ∧ (c.mine id → c.offset + i = id) ∧ (¬ c.mine id → i = c.range) := by
  simp only [tableCall, inRange_iff c hc, decide_eq_true_iff, List.getElem?_map]
  by_cases hm : c.mine id
  · have hi : id - c.offset < table.length := by unfold Cfg.mine at hm; omega
    refine ⟨id - c.offset, table[id - c.offset], List.getElem?_eq_getElem hi, ?_, fun _ => by unfold Cfg.mine at hm; omega, fun h => absurd hm h⟩
    simp only [hm, if_true, List.getElem?_eq_getElem hi, Option.map_some]; exact fire_make _ (hp _ (List.getElem_mem hi)) id
  · have hi : c.range < table.length := by omega
    refine ⟨c.range, table[c.range], List.getElem?_eq_getElem hi, ?_, fun h => absurd h hm, fun _ => rfl⟩
    simp only [hm, if_false, List.getElem?_eq_getElem hi, Option.map_some]; exact fire_make _ (hp _ (List.getElem_mem hi)) id

/-- **Finding** (C94): the places without a registration in a copy of a service point to the original: what was registered for unhandled ids at the copy is not called, and after the end of the original a call uses a dead object. -/
theorem C94_copy : ∃ (c : Cfg), c.offset + c.range < 2 ^ c.bits ∧
    (∃ ss, srun c (fun _ => none) [.create 1, .copyFrom 2 1, .registerUnhandled 2 (Source.func 7).make, .call 2 0] = .ok (ss, [some [], some [], some [], some []])) ∧
    srun c (fun _ => none) [.create 1, .copyFrom 2 1, .destroy 1, .call 2 0] = .error .deadAccess :=
  ⟨⟨4, 0, 32⟩, by decide, ⟨_, rfl⟩, rfl⟩
/-- **Finding** (C94): if the last id is the greatest number of `size_t`, `Offset + Range` wraps to 0 and no id is handled. -/
theorem C94_wrap : ∃ (c : Cfg), (∀ id, c.mine id → id < 2 ^ c.bits) ∧ 0 < c.range ∧ ∀ id, c.inRange id = false :=
  ⟨⟨1, 2 ^ 32 - 1, 32⟩, by intro id h; simp only [Cfg.mine] at h ⊢; omega, by decide, by intro id; simp [Cfg.inRange]⟩

example : ∃ ss, srun ⟨4, 10, 32⟩ (fun _ => none) [.create 1, .register 1 11 (Source.func 7).make, .call 1 11, .call 1 12, .registerUnhandled 1 (Source.method 2 3).make, .call 1 12, .call 1 14] =
    .ok (ss, [some [], some [], some [(.func 7, 11)], some [], some [], some [(.method 2 3, 12)], some [(.method 2 3, 14)]]) := ⟨_, rfl⟩
example : uproper [.create 1, .register 1 11 (.func 7), .call 1 11] := by
  intro op ho s hs
  simp at ho
  rcases ho with rfl | rfl | rfl <;> rcases hs with ⟨v, id, h⟩ | ⟨v, h⟩ <;> cases h
  trivial

end Etl.Delegate
