import Verif.TimerIsr.Model
import Verif.Timer.Props
import Mathlib.Tactic.SplitIfs

/-!
# The list of the interrupt-driven timers simulates the specification
-/
namespace Etl.TimerIsr
open Etl.Timer

theorem specOp_due_comm {max : Nat} {s s' : Sp} {o : Op} {r : Ret} {x : Nat} (v : Option Nat) (h : SpecOp max s o r s') (hl : Leaves x o) :
    SpecOp max { s with due := Timer.set s.due x v } o r { s' with due := Timer.set s'.due x v } := by
  have hset : ∀ (f : Nat → Option Nat) (i : Nat) (w : Option Nat), i ≠ x → Timer.set (Timer.set f i w) x v = Timer.set (Timer.set f x v) i w := by
    intro f i w hi; funext j; simp only [Timer.set]; grind
  cases h with
  | register h1 h2 => exact .register h1 h2
  | registerFull h1 => exact .registerFull h1
  | unregister h1 => rw [hset _ _ _ hl]; exact SpecOp.unregister (s := { s with due := Timer.set s.due x v }) h1
  | unregisterNot h1 => exact .unregisterNot h1
  | start h1 h2 => rw [hset _ _ _ hl]; exact SpecOp.start (s := { s with due := Timer.set s.due x v }) h1 h2
  | startNot h1 => exact .startNot h1
  | stop h1 => rw [hset _ _ _ hl]; exact SpecOp.stop (s := { s with due := Timer.set s.due x v }) h1
  | stopNot h1 => exact .stopNot h1
  | setPeriod h1 => rw [hset _ _ _ hl]; exact SpecOp.setPeriod (s := { s with due := Timer.set s.due x v }) h1
  | setPeriodNot h1 => exact .setPeriodNot h1
  | setMode h1 => rw [hset _ _ _ hl]; exact SpecOp.setMode (s := { s with due := Timer.set s.due x v }) h1
  | setModeNot h1 => exact .setModeNot h1
  | clear => exact hl.elim
  | enable => exact SpecOp.enable (s := { s with due := Timer.set s.due x v })

theorem specOps_due_comm {max : Nat} {s s' : Sp} {os : List Op} {x : Nat} (v : Option Nat) (h : SpecOps max s os s') (hl : ∀ o ∈ os, Leaves x o) :
    SpecOps max { s with due := Timer.set s.due x v } os { s' with due := Timer.set s'.due x v } := by
  induction h with
  | nil => exact .nil
  | cons h1 _ ih => exact .cons (specOp_due_comm v h1 (hl _ (by simp))) (ih (fun o ho => hl o (by simp [ho])))

/-- Putting back a repeating timer. -/
theorem rearm_R {s : St} {sp : Sp} {D : DL} {x p : Nat} {r : Bool} (h : R s sp D) (hx : x < s.max) (hn : x ∉ ids D) (hc : sp.cfg x = some (p, r)) (hp : p ≠ Inactive) :
    ∃ s' D', rearm s x = .ok s' ∧ R s' { sp with due := Timer.set sp.due x (if r then some (sp.now + p) else none) } D' ∧ Same s s' := by
  have hid : (s.timers x).id = x ∧ (s.timers x).period = p ∧ (s.timers x).repeating = r := by
    rcases h.cfg x hx with hh | hh
    · rw [hc] at hh; have := hh.2; injection this with this; injection this with h1 h2; exact ⟨hh.1, h1.symm, h2.symm⟩
    · rw [hc] at hh; cases hh.2
  rw [rearm]
  cases r with
  | true =>
    rw [if_pos hid.2.2, put_ok _ hx]
    simp only
    rw [show (upd s.timers x { s.timers x with delta := (s.timers x).period } x).id = x by rw [upd_same]; exact hid.1]
    obtain ⟨s2, f1, f2, f3⟩ := insert_R (v := (s.timers x).period) h hx hid.1 hn (Nat.le_refl _) (by rw [hid.2.1]; exact hp)
    rw [hid.2.1] at f2
    exact ⟨s2, _, f1, f2, f3⟩
  | false =>
    rw [if_neg (by rw [hid.2.2]; simp)]
    refine ⟨s, D, rfl, ?_, Same.refl _⟩
    have : (Timer.set sp.due x (if false = true then some (sp.now + p) else none) : Nat → Option Nat) = sp.due := by
      funext j; by_cases hj : j = x
      · subst hj; rw [set_self, (due_none h).2 hn]; rfl
      · rw [set_other _ _ hj]
    rw [this]; exact h

theorem R.withLog {s : St} {sp : Sp} {D : DL} (h : R s sp D) (l : List Nat) : R { s with log := l } sp D :=
  ⟨⟨h.lst.head, h.lst.tail, h.lst.rep, h.lst.nodup, h.lst.lt, h.lst.max⟩, h.due, h.cfg, h.out, h.act, h.idle, h.per, h.reg, h.en⟩

/-- One firing. -/
theorem fireA_R {cb : Nat → List Nat → List Op} {s : St} {sp : Sp} {D : DL} {x d : Nat} (h : R s sp ((x, d) :: D)) (hcb : ∀ i l, ∀ o ∈ cb i l, OpOk s.max o ∧ Leaves i o) :
    ∃ s' sp' D' p r, fireA cb s = .ok s' ∧ sp.cfg x = some (p, r) ∧
      SpecOps s.max { sp with now := d, due := Timer.set sp.due x (if r then some (d + p) else none) } (cb x (s.log ++ [x])) sp' ∧ R s' sp' D' ∧ s'.max = s.max ∧ s'.log = s.log ++ [x] := by
  have hx := h.lst.lt x (by simp [ids])
  have hh : s.head = x := h.lst.head
  have hxN : x ≠ NO := lt_ne_NO h hx.1
  have hcfg : sp.cfg x = some ((s.timers x).period, (s.timers x).repeating) := by
    rcases h.cfg x hx.1 with hc | hc
    · exact hc.2
    · exact absurd (hx.2.symm.trans hc.1) hxN
  have hact := h.act x d (by simp)
  obtain ⟨s1, e1, e2, e3⟩ := remove_R (A := []) true h (by simp)
  simp only [if_true, List.nil_append] at e2
  have hid1 : (s1.timers x).id = x := by rw [e3.id]; exact hx.2
  obtain ⟨s2, sp2, D2, g1, g2, g3, g4⟩ := applyAll_R (os := cb x (s.log ++ [x])) (R.withLog e2 (s1.log ++ [x])) (fun o ho => by show OpOk s1.max o; rw [e3.max]; exact (hcb _ _ o ho).1)
  have hlv := specOps_leaves (i := x) g2 (fun o ho => (hcb _ _ o ho).2) (by show sp.cfg x ≠ none; rw [hcfg]; simp)
  have hd2 : sp2.due x = none := by rw [hlv.1]; exact set_self _ _ _
  have hc2 : sp2.cfg x = some ((s.timers x).period, (s.timers x).repeating) := by rw [hlv.2]; exact hcfg
  have hnow2 : sp2.now = d := specOps_now g2
  have hm2 : s2.max = s.max := g4.1.trans e3.max
  obtain ⟨s3, D3, k1, k2, k3⟩ := rearm_R g3 (x := x) (by rw [hm2]; exact hx.1) ((due_none g3).1 hd2) hc2 hact.2
  refine ⟨s3, _, D3, _, _, ?_, hcfg, ?_, k2, k3.max.trans hm2, ?_⟩
  · rw [fireA, hh, hx.2, e1]
    simp only
    rw [hid1, e3.log]
    rw [e3.log] at g1
    rw [g1]
    exact k1
  · have := specOps_due_comm (x := x) (if (s.timers x).repeating = true then some (d + (s.timers x).period) else none) g2 (fun o ho => (hcb _ _ o ho).2)
    simp only [hnow2] at this ⊢
    rw [show (Timer.set (Timer.set sp.due x none) x (if (s.timers x).repeating = true then some (d + (s.timers x).period) else none) : Nat → Option Nat) = Timer.set sp.due x (if (s.timers x).repeating = true then some (d + (s.timers x).period) else none) by
      funext j; by_cases hj : j = x <;> simp [Timer.set, hj]] at this
    rw [← e3.max]
    exact this
  · rw [k3.log, g4.2]; show s1.log ++ [x] = _; rw [e3.log]

theorem loopA_R {cb : Nat → List Nat → List Op} : ∀ (fuel count : Nat) {s : St} {sp : Sp} {D : DL} {h : Trace}, R s sp D → (∀ i l, ∀ o ∈ cb i l, OpOk s.max o ∧ Leaves i o) → s.log = h.map Prod.fst →
    loopA cb fuel count s = .error .diverge ∨
    ∃ s' sp' D' h', loopA cb fuel count s = .ok s' ∧ SpecTick s.max cb (sp.now + count) sp h sp' h' ∧ R s' sp' D' ∧ s'.log = h'.map Prod.fst ∧ s'.max = s.max
  | 0, _, _, _, _, _, _, _, _ => .inl rfl
  | fuel + 1, count, s, sp, D, h, hR, hcb, hlog => by
    rw [loopA]
    by_cases hN : s.head = NO
    · rw [if_pos hN]
      have hD := (head_none hR).1 hN
      subst hD
      refine .inr ⟨s, { sp with now := sp.now + count }, [], h, rfl, .done (fun i d hd => absurd ((hR.due i d).1 hd) (by simp)), ?_, hlog, rfl⟩
      exact ⟨⟨hR.lst.head, hR.lst.tail, trivial, hR.lst.nodup, hR.lst.lt, hR.lst.max⟩, hR.due, hR.cfg, hR.out, by simp, hR.idle, hR.per, hR.reg, hR.en⟩
    · rw [if_neg hN]
      cases D with
      | nil => exact absurd ((head_none hR).2 rfl) hN
      | cons y D =>
        obtain ⟨x, d⟩ := y
        have hh : s.head = x := hR.lst.head
        have hx := hR.lst.lt x (by simp [ids])
        have hrep := hR.lst.rep
        have hxd : (s.timers x).delta = d - sp.now ∧ sp.now ≤ d := by simp only [Rep] at hrep; exact ⟨hrep.2.2.2.1, hrep.2.2.1⟩
        have hmin : ∀ j e, sp.due j = some e → d ≤ e := by
          intro j e hj
          have hm := (hR.due j e).1 hj
          have hs := rep_sorted hrep
          rcases List.mem_cons.1 hm with hm | hm
          · injection hm with _ hm; omega
          · exact (List.pairwise_cons.1 hs).1 _ hm
        rw [hh, if_neg (fun hc => hc hx.1)]
        by_cases hc : count ≥ (s.timers x).delta
        · rw [if_pos hc]
          obtain ⟨s1, sp1, D1, p, r, f1, f2, f3, f4, f5, f6⟩ := fireA_R hR hcb
          rw [f1]
          simp only
          have hlog1 : s1.log = (h ++ [(x, d)]).map Prod.fst := by rw [f6, hlog]; simp
          have hnow : sp1.now = d := specOps_now f3
          rcases loopA_R fuel (count - (s.timers x).delta) f4 (by rw [f5]; exact hcb) hlog1 with g | ⟨s', sp', D', h', g1, g2, g3, g4, g5⟩
          · exact .inl g
          · refine .inr ⟨s', sp', D', h', g1, ?_, g3, g4, g5.trans f5⟩
            rw [f5, hnow, show d + (count - (s.timers x).delta) = sp.now + count by omega] at g2
            refine .fire ((hR.due x d).2 (by simp)) (by omega) hmin f2 ?_ g2
            rw [← hlog]; exact f3
        · rw [if_neg hc]
          have hlt : ∀ i e, sp.due i = some e → sp.now + count < e := fun i e he => by have := hmin i e he; omega
          obtain ⟨s', e1, e2, e3⟩ := advance_R hR hlt (by simp)
          rw [hh] at e1
          exact .inr ⟨s', _, _, h, e1, .done hlt, e2, by rw [e3.2]; exact hlog, e3.1⟩

/-! ## Ticks without calls from the callbacks -/

/-- The callbacks make no calls on the timer. -/
def noCb : Nat → List Nat → List Op := fun _ _ => []

theorem specTick_cfg {max limit : Nat} {s s' : Sp} {h h' : Trace} (ht : SpecTick max noCb limit s h s' h') : s'.cfg = s.cfg ∧ s'.enabled = s.enabled ∧ s'.now = limit := by
  induction ht with
  | done _ => exact ⟨rfl, rfl, rfl⟩
  | fire _ _ _ _ h5 _ ih => cases h5; exact ih

/-- The settings of a timer that is not running do not matter. -/
theorem specTick_setCfg {max limit : Nat} {s s' : Sp} {h h' : Trace} (i : Nat) (c : Option (Nat × Bool)) (ht : SpecTick max noCb limit s h s' h') (hd : s.due i = none) :
    SpecTick max noCb limit { s with cfg := Timer.set s.cfg i c } h { s' with cfg := Timer.set s'.cfg i c } h' ∧ s'.due i = none := by
  induction ht with
  | done h1 => exact ⟨.done h1, hd⟩
  | @fire s h j d p r s2 s3 h3 h1 h2 h3' h4 h5 h6 ih =>
    cases h5
    have hij : i ≠ j := by rintro rfl; rw [h1] at hd; cases hd
    have := ih (by show Timer.set s.due j _ i = none; rw [set_other _ _ hij]; exact hd)
    refine ⟨.fire (p := p) (r := r) h1 h2 h3' (by show Timer.set s.cfg i c j = _; rw [set_other _ _ (Ne.symm hij)]; exact h4) .nil this.1, this.2⟩

/-- A timer that repeats stays running. -/
theorem specTick_repeating {max limit : Nat} {s s' : Sp} {h h' : Trace} (i p : Nat) (ht : SpecTick max noCb limit s h s' h') (hc : s.cfg i = some (p, true)) (hd : s.due i ≠ none) : s'.due i ≠ none := by
  induction ht with
  | done h1 => exact hd
  | @fire s h j d p' r s2 s3 h3 h1 h2 h3' h4 h5 h6 ih =>
    cases h5
    refine ih hc ?_
    show Timer.set s.due j _ i ≠ none
    by_cases hij : i = j
    · subst hij; rw [set_self]; rw [hc] at h4; injection h4 with h4; injection h4 with _ h4; subst h4; simp
    · rw [set_other _ _ hij]; exact hd

end Etl.TimerIsr
