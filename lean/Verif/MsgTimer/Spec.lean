import Verif.Timer.Spec

/-!
# What the message timers do

As the timers of `Verif/Timer/Spec.lean`, with one exception: when a *running* timer is unregistered, all the timers that come after it fire too early, by the time between it and the one before it (or the present).
`SpecRun` of `Verif/Timer/Spec.lean` is what they should do.
-/
namespace Etl.MsgTimer
open Etl.Timer

/-- A running timer `i` with deadline `e` is unregistered; `before` are the timers that come before it, the last of them due at `b` (if there is none, `b` is the present). -/
inductive DoesOp (max : Nat) : Sp → Op → Ret → Sp → Prop
  | other {s o r s'} : (∀ i, o = .unregister i → s.due i = none) → SpecOp max s o r s' → DoesOp max s o r s'
  | unregisterRunning {s i c e b} (before : Nat → Bool) : s.cfg i = some c → s.due i = some e →
      (∀ j d, j ≠ i → s.due j = some d → before j = true → d ≤ b) → (∀ j d, j ≠ i → s.due j = some d → before j = false → e ≤ d) →
      b ≤ e → (b = s.now ∨ ∃ j, j ≠ i ∧ before j = true ∧ s.due j = some b) → s.now ≤ b →
      DoesOp max s (.unregister i) (.bool true)
        { s with cfg := set s.cfg i none, due := fun j => if j = i then none else if before j then s.due j else (s.due j).map (fun d => d - (e - b)) }

inductive DoesOps (max : Nat) : Sp → List Op → Sp → Prop
  | nil {s} : DoesOps max s [] s
  | cons {s o r s' os s''} : DoesOp max s o r s' → DoesOps max s' os s'' → DoesOps max s (o :: os) s''

/-- Time passes up to `limit`, as in `SpecTick`.  `late`: the next deadline is set after the message has been delivered. -/
inductive DoesTick (late : Bool) (max : Nat) (cb : Nat → List Nat → List Op) (limit : Nat) : Sp → Trace → Sp → Trace → Prop
  | done {s h} : (∀ i d, s.due i = some d → limit < d) → DoesTick late max cb limit s h { s with now := limit } h
  | fire {s h i d p r s2 s3 h3} : s.due i = some d → d ≤ limit → (∀ j e, s.due j = some e → d ≤ e) → s.cfg i = some (p, r) →
      DoesOps max { s with now := d, due := set s.due i (if late = false ∧ r = true then some (d + p) else none) } (cb i (h.map Prod.fst ++ [i])) s2 →
      DoesTick late max cb limit (if late then { s2 with due := set s2.due i (if r then some (d + p) else none) } else s2) (h ++ [(i, d)]) s3 h3 → DoesTick late max cb limit s h s3 h3

inductive DoesRun (late : Bool) (max : Nat) (cb : Nat → List Nat → List Op) : Sp → Trace → List Call → List Ret → Sp → Trace → Prop
  | nil {s h} : DoesRun late max cb s h [] [] s h
  | op {s h o r s' cs rs s'' h''} : DoesOp max s o r s' → DoesRun late max cb s' h cs rs s'' h'' → DoesRun late max cb s h (.op o :: cs) (r :: rs) s'' h''
  | tick {s h c s' h' cs rs s'' h''} : s.enabled = true → DoesTick late max cb (s.now + c) s h s' h' → DoesRun late max cb s' h' cs rs s'' h'' →
      DoesRun late max cb s h (.tick c :: cs) (.bool true :: rs) s'' h''
  | tickOff {s h c cs rs s'' h''} : s.enabled = false → DoesRun late max cb s h cs rs s'' h'' → DoesRun late max cb s h (.tick c :: cs) (.bool false :: rs) s'' h''

end Etl.MsgTimer
