import Verif.TimerIsr.Sim
import Verif.TimerIsr.Spec

/-!
# The invariant
-/
namespace Etl.TimerIsr
open Etl.Timer

/-- The list is empty, the records are being reset. -/
structure W (s : St) (sp : Sp) (k : Nat) : Prop where
  head : s.head = NO
  tail : s.tail = NO
  max : s.max ≤ 254
  done : ∀ i, i < k → i < s.max → s.timers i = {}
  per : ∀ i, (s.timers i).period ≤ Inactive
  en : s.enabled = sp.enabled
  cfg : ∀ i, sp.cfg i = none
  due : ∀ i, sp.due i = none

/-- The new settings. -/
def Kind.eff (k : Kind) (c : Nat × Bool) : Option (Nat × Bool) :=
  match k with
  | .stop => some c
  | .unreg => none
  | .period p => some (p, c.2)
  | .mode r => some (c.1, r)

def Kind.op (k : Kind) (i : Nat) : Op :=
  match k with
  | .stop => .stop i
  | .unreg => .unregister i
  | .period p => .setPeriod i p
  | .mode r => .setMode i r

/-- The call has taken timer `i` out of the list; its last part is still to be done. -/
def Pending (s : St) (sp : Sp) (k : Kind) (i : Nat) : Prop :=
  ∃ spc D c, R s spc D ∧ i < s.max ∧ spc.cfg i = some c ∧ spc.due i = none ∧ sp = { spc with cfg := Timer.set spc.cfg i (k.eff c) } ∧ (∀ p, k = .period p → p ≤ Inactive)

/-- A call that has stopped a timer: it is not running. -/
def Post (o : COp) (r : Resp) (sp : Sp) : Prop := ∀ i, o = .op (.stop i) → r = yes → sp.due i = none

/-- Where a call is, the state of the code represents that of the specification like this. -/
def Coup (v : Variant) (s : St) (sp : Sp) : Pc → Prop
  | .idle => ∃ D, R s sp D
  | .run o .begin => (∃ D, R s sp D) ∧ (∀ p, o = .op p → OpOk s.max p)
  | .run o (.enter (.remove k i)) => (∃ D, R s sp D) ∧ o = .op (k.op i) ∧ i < s.max ∧ sp.cfg i ≠ none ∧ sp.due i ≠ none ∧ (∀ p, k = .period p → p ≤ Inactive)
  | .run o (.body (.remove k i)) => (∃ D, R s sp D) ∧ o = .op (k.op i) ∧ i < s.max ∧ sp.cfg i ≠ none ∧ sp.due i ≠ none ∧ (∀ p, k = .period p → p ≤ Inactive)
  | .run o (.leave (.remove k i) _) => Pending s sp k i ∧ o = .op (k.op i)
  | .run o (.finish k i) => Pending s sp k i ∧ o = .op (k.op i)
  | .run o (.enter (.start i b)) => (∃ D, R s sp D) ∧ o = .op (.start i b) ∧ i < s.max ∧ ∃ p r, sp.cfg i = some (p, r) ∧ p ≠ Inactive
  | .run o (.body (.start i b)) => (∃ D, R s sp D) ∧ o = .op (.start i b) ∧ i < s.max ∧ ∃ p r, sp.cfg i = some (p, r) ∧ p ≠ Inactive
  | .run o (.leave (.start i b) _) => (∃ D, R s sp D) ∧ o = .op (.start i b)
  | .run o (.enter .clearList) => (∃ D, R s sp D) ∧ o = .op .clear
  | .run o (.body .clearList) => (∃ D, R s sp D) ∧ o = .op .clear
  | .run o (.leave .clearList _) => W s sp 0 ∧ (v = .interrupt → s.registered = 0) ∧ o = .op .clear
  | .run o (.wipe k) => W s sp k ∧ (v = .interrupt → s.registered = 0) ∧ o = .op .clear
  | .run o (.create i p r) => (∃ D, R s sp D) ∧ o = .op (.register p r) ∧ i < s.max ∧ sp.cfg i = none ∧ p ≤ Inactive
  | .run o (.ret r) => (∃ D, R s sp D) ∧ Post o r sp
  | .run o (.enter .hasActive) => (∃ D, R s sp D) ∧ o = .hasActive
  | .run o (.body .hasActive) => (∃ D, R s sp D) ∧ o = .hasActive
  | .run o (.leave .hasActive _) => (∃ D, R s sp D) ∧ o = .hasActive
  | .run o (.enter .next) => (∃ D, R s sp D) ∧ o = .timeToNext
  | .run o (.body .next) => (∃ D, R s sp D) ∧ o = .timeToNext
  | .run o (.leave .next _) => (∃ D, R s sp D) ∧ o = .timeToNext
  | .run o (.enter (.isActive1 i)) => (∃ D, R s sp D) ∧ o = .isActive i ∧ i < s.max
  | .run o (.body (.isActive1 i)) => (∃ D, R s sp D) ∧ o = .isActive i ∧ i < s.max
  | .run o (.leave (.isActive1 i) _) => (∃ D, R s sp D) ∧ o = .isActive i ∧ i < s.max
  | .run o (.enter (.isActive2 i)) => (∃ D, R s sp D) ∧ o = .isActive i ∧ i < s.max
  | .run o (.body (.isActive2 i)) => (∃ D, R s sp D) ∧ o = .isActive i ∧ i < s.max
  | .run o (.leave (.isActive2 i) _) => (∃ D, R s sp D) ∧ o = .isActive i ∧ i < s.max

/-- Has the call taken effect? -/
def phase (v : Variant) : Pc → Phase
  | .idle => .out
  | .run o .begin => .before o
  | .run o (.enter _) => .before o
  | .run o (.body _) => .before o
  | .run o (.leave x r) => if takesEffect v x r then .after o r else .before o
  | .run o (.create _ _ _) => .before o
  | .run o (.finish _ _) => .after o yes
  | .run o (.wipe _) => .after o (.ret .unit)
  | .run o (.ret r) => .after o r

/-- `leave` knows what was answered. -/
def LeaveOk : Pc → Prop
  | .run _ (.leave (.remove _ _) r) => r = yes
  | .run _ (.leave .clearList r) => r = .ret .unit
  | _ => True

structure Inv (v : Variant) (max : Nat) (s : S) (sp : Sp) (h : Trace) : Prop where
  legal : Legal max (items s.trace) sp h
  log : s.t.log = h.map Prod.fst
  max : s.t.max = max
  coup : Coup v s.t sp s.pc
  thr : Follows s.trace (phase v s.pc)
  lv : LeaveOk s.pc

theorem items_append (t u : List Ev) : items (t ++ u) = items t ++ items u := by
  induction t with
  | nil => rfl
  | cons e t ih => cases e <;> simp [items, ih]

theorem inv_init (v : Variant) {max : Nat} (h : max ≤ 254) : Inv v max (init max) Sp.init [] :=
  ⟨.nil, rfl, rfl, ⟨[], init_R h⟩, .nil, trivial⟩

/-! ## Ticks -/

theorem W.tick {s : St} {sp : Sp} {k n : Nat} (h : W s sp k) : W s { sp with now := n } k := ⟨h.head, h.tail, h.max, h.done, h.per, h.en, h.cfg, h.due⟩

/-- What an accepted tick does, in terms of the specification: to the state, and to that of a call that is going on. -/
theorem tick_coup {v : Variant} {fuel c : Nat} {s : S} {sp : Sp} {h : Trace} (hb : busy s.pc = false) (hc : Coup v s.t sp s.pc) (hlog : s.t.log = h.map Prod.fst) (he : s.t.enabled = true) :
    loopA noCb fuel c s.t = .error .diverge ∨ ∃ t' sp' h', loopA noCb fuel c s.t = .ok t' ∧ SpecTick s.t.max noCb (sp.now + c) sp h sp' h' ∧ t'.log = h'.map Prod.fst ∧ t'.max = s.t.max ∧ sp.enabled = true ∧
      ((∀ o k i, s.pc = .run o (.enter (.remove k i)) → (t'.timers i).delta ≠ Inactive) → Coup v t' sp' s.pc) := by
  have hno : ∀ (m : Nat) (i : Nat) (l : List Nat), ∀ o ∈ noCb i l, OpOk m o ∧ Leaves i o := by intro m i l o ho; simp [noCb] at ho
  obtain ⟨t, pc, tr⟩ := s
  simp only at hb hc hlog he ⊢
  -- states in which the code represents `sp` itself
  have key : (∃ D, R t sp D) → (∀ t' sp' h', (∃ D, R t' sp' D) → SpecTick t.max noCb (sp.now + c) sp h sp' h' → t'.max = t.max →
      (∀ o k i, pc = .run o (.enter (.remove k i)) → (t'.timers i).delta ≠ Inactive) → Coup v t' sp' pc) →
      loopA noCb fuel c t = .error .diverge ∨ ∃ t' sp' h', loopA noCb fuel c t = .ok t' ∧ SpecTick t.max noCb (sp.now + c) sp h sp' h' ∧ t'.log = h'.map Prod.fst ∧ t'.max = t.max ∧ sp.enabled = true ∧
      ((∀ o k i, pc = .run o (.enter (.remove k i)) → (t'.timers i).delta ≠ Inactive) → Coup v t' sp' pc) := by
    rintro ⟨D, hR⟩ hk
    rcases loopA_R fuel c hR (hno t.max) hlog with g | ⟨s', sp', D', h', g1, g2, g3, g4, g5⟩
    · exact .inl g
    · exact .inr ⟨s', sp', h', g1, g2, g4, g5, by rw [← hR.en]; exact he, fun hcl => hk s' sp' h' ⟨D', g3⟩ g2 g5 hcl⟩
  -- the list is empty
  have wipe : ∀ k, W t sp k → (∀ sp', W t sp' k → Coup v t sp' pc) →
      loopA noCb fuel c t = .error .diverge ∨ ∃ t' sp' h', loopA noCb fuel c t = .ok t' ∧ SpecTick t.max noCb (sp.now + c) sp h sp' h' ∧ t'.log = h'.map Prod.fst ∧ t'.max = t.max ∧ sp.enabled = true ∧
      ((∀ o k i, pc = .run o (.enter (.remove k i)) → (t'.timers i).delta ≠ Inactive) → Coup v t' sp' pc) := by
    intro k hW hk
    cases fuel with
    | zero => exact .inl rfl
    | succ fuel =>
      refine .inr ⟨t, { sp with now := sp.now + c }, h, by rw [loopA, if_pos hW.head], .done (fun i d hd => by rw [hW.due] at hd; cases hd), hlog, rfl, by rw [← hW.en]; exact he, fun _ => hk _ hW.tick⟩
  -- a call that is about to finish
  have pend : ∀ k i, Pending t sp k i → (∀ t' sp', Pending t' sp' k i → Coup v t' sp' pc) →
      loopA noCb fuel c t = .error .diverge ∨ ∃ t' sp' h', loopA noCb fuel c t = .ok t' ∧ SpecTick t.max noCb (sp.now + c) sp h sp' h' ∧ t'.log = h'.map Prod.fst ∧ t'.max = t.max ∧ sp.enabled = true ∧
      ((∀ o k i, pc = .run o (.enter (.remove k i)) → (t'.timers i).delta ≠ Inactive) → Coup v t' sp' pc) := by
    rintro k i ⟨spc, D, cf, hR, hi, hcf, hdue, rfl, hper⟩ hk
    rcases loopA_R fuel c hR (hno t.max) hlog with g | ⟨s', sp', D', h', g1, g2, g3, g4, g5⟩
    · exact .inl g
    · have g6 := specTick_setCfg i (k.eff cf) g2 hdue
      refine .inr ⟨s', _, h', g1, g6.1, g4, g5, by show spc.enabled = true; rw [← hR.en]; exact he, fun _ => hk _ _ ⟨sp', D', cf, g3, by rw [g5]; exact hi, by rw [(specTick_cfg g2).1]; exact hcf, g6.2, rfl, hper⟩⟩
  cases pc with
  | idle => exact key hc (fun t' sp' h' hR _ _ _ => hR)
  | run o p =>
    cases p with
    | begin => exact key hc.1 (fun t' sp' h' hR _ hm _ => ⟨hR, by rw [hm]; exact hc.2⟩)
    | enter x =>
      cases x with
      | remove k i =>
        obtain ⟨hR, h1, h2, h3, h4, h5⟩ := hc
        refine key hR (fun t' sp' h' hR' ht hm hcl => ?_)
        obtain ⟨D', hR'⟩ := hR'
        refine ⟨⟨D', hR'⟩, h1, by rw [hm]; exact h2, by rw [(specTick_cfg ht).1]; exact h3, ?_, h5⟩
        have := (hR'.active_iff (i := i) (by rw [hm]; exact h2)).1 (hcl _ _ _ rfl)
        intro hn
        exact (due_none hR').1 hn this
      | start i b =>
        obtain ⟨hR, h1, h2, h3⟩ := hc
        exact key hR (fun t' sp' h' hR' ht hm hcl => ⟨hR', h1, by rw [hm]; exact h2, by rw [(specTick_cfg ht).1]; exact h3⟩)
      | clearList => exact key hc.1 (fun t' sp' h' hR _ hm _ => ⟨hR, hc.2⟩)
      | hasActive => exact key hc.1 (fun t' sp' h' hR _ hm _ => ⟨hR, hc.2⟩)
      | next => exact key hc.1 (fun t' sp' h' hR _ hm _ => ⟨hR, hc.2⟩)
      | isActive1 i => exact key hc.1 (fun t' sp' h' hR _ hm _ => ⟨hR, hc.2.1, by rw [hm]; exact hc.2.2⟩)
      | isActive2 i => exact key hc.1 (fun t' sp' h' hR _ hm _ => ⟨hR, hc.2.1, by rw [hm]; exact hc.2.2⟩)
    | body x => simp [busy] at hb
    | leave x r => simp [busy] at hb
    | create i p r =>
      obtain ⟨hR, h1, h2, h3, h4⟩ := hc
      exact key hR (fun t' sp' h' hR' ht hm hcl => ⟨hR', h1, by rw [hm]; exact h2, by rw [(specTick_cfg ht).1]; exact h3, h4⟩)
    | finish k i => exact pend k i hc.1 (fun t' sp' hp => ⟨hp, hc.2⟩)
    | wipe k => exact wipe k hc.1 (fun sp' hW => ⟨hW, hc.2⟩)
    | ret r =>
      refine key hc.1 (fun t' sp' h' hR' ht hm hcl => ⟨hR', fun i ho hr => ?_⟩)
      have := specTick_noStart ht i (by intro j l o ho; simp [noCb] at ho) (hc.2 i ho hr)
      obtain ⟨n, _, h2, _⟩ := this
      exact h2

theorem inv_tick {v : Variant} {max fuel c : Nat} {s : S} {sp : Sp} {h : Trace} (hI : Inv v max s sp h)
    (hcl : ∀ s' o k i, tick v fuel s c = .ok s' → s.pc = .run o (.enter (.remove k i)) → (s'.t.timers i).delta ≠ Inactive) :
    tick v fuel s c = .error .diverge ∨ ∃ s' sp' h', tick v fuel s c = .ok s' ∧ Inv v max s' sp' h' ∧ ((sp' = sp ∧ h' = h) ∨ Does max sp h (.tick c true) sp' h') := by
  have hfalse : ∀ s' : S, s'.t = s.t → s'.pc = s.pc → s'.trace = s.trace ++ [.tick c false] → Inv v max s' sp h := by
    intro s' h1 h2 h3
    refine ⟨?_, by rw [h1]; exact hI.log, by rw [h1]; exact hI.max, by rw [h1, h2]; exact hI.coup, ?_, by rw [h2]; exact hI.lv⟩
    · rw [h3, items_append]; exact .snoc hI.legal .missed
    · rw [h3, h2]; exact .tick hI.thr
  by_cases hb : busy s.pc = true
  · unfold tick
    rw [if_pos hb]
    by_cases hv : v = .interrupt
    · rw [if_pos hv]; exact .inr ⟨s, sp, h, rfl, hI, .inl ⟨rfl, rfl⟩⟩
    · rw [if_neg hv]; exact .inr ⟨_, sp, h, rfl, hfalse _ rfl rfl rfl, .inl ⟨rfl, rfl⟩⟩
  · have hb' : busy s.pc = false := by simpa using hb
    by_cases he : s.t.enabled = true
    · rcases tick_coup (fuel := fuel) (c := c) hb' hI.coup hI.log he with g | ⟨t', sp', h', g1, g2, g3, g4, g5, g6⟩
      · refine .inl ?_
        unfold tick tickA
        rw [if_neg hb, if_pos he]
        unfold noCb at g
        rw [g]
      · have ht : tick v fuel s c = .ok { s with t := t', trace := s.trace ++ [.tick c true] } := by
          unfold tick tickA
          rw [if_neg hb, if_pos he]
          unfold noCb at g1
          rw [g1]
        have hD : Does max sp h (.tick c true) sp' h' := .tick g5 (by rw [hI.max] at g2; exact g2)
        refine .inr ⟨_, sp', h', ht, ⟨?_, g3, g4.trans hI.max, g6 (fun o k i hp => hcl _ o k i ht hp), .tick hI.thr, hI.lv⟩, .inr hD⟩
        show Legal max (items (s.trace ++ [.tick c true])) sp' h'
        rw [items_append]
        exact .snoc hI.legal hD
    · have ht : tick v fuel s c = .ok { s with t := s.t, trace := s.trace ++ [.tick c false] } := by
        unfold tick tickA
        rw [if_neg hb, if_neg he]
      exact .inr ⟨_, sp, h, ht, hfalse _ rfl rfl rfl, .inl ⟨rfl, rfl⟩⟩

end Etl.TimerIsr
