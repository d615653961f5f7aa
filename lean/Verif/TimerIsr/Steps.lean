import Verif.TimerIsr.Inv

/-!
# The steps of the thread keep the invariant
-/
namespace Etl.TimerIsr
open Etl.Timer

theorem kind_spec {max : Nat} {sp : Sp} {i : Nat} {c : Nat × Bool} (k : Kind) (h : sp.cfg i = some c) :
    SpecOp max sp (k.op i) (.bool true) { sp with cfg := Timer.set sp.cfg i (k.eff c), due := Timer.set sp.due i none } := by
  obtain ⟨p, r⟩ := c
  cases k with
  | stop =>
    have : (Timer.set sp.cfg i (Kind.eff .stop (p, r)) : Nat → Option (Nat × Bool)) = sp.cfg := by
      funext j; by_cases hj : j = i
      · subst hj; rw [set_self]; exact h.symm
      · rw [set_other _ _ hj]
    rw [this]; exact .stop h
  | unreg => exact .unregister h
  | period q => exact .setPeriod h
  | mode m => exact .setMode h

theorem kind_specNot {max : Nat} {sp : Sp} {i : Nat} (k : Kind) (h : sp.cfg i = none) : SpecOp max sp (k.op i) (.bool false) sp := by
  cases k with
  | stop => exact .stopNot h
  | unreg => exact .unregisterNot h
  | period q => exact .setPeriodNot h
  | mode m => exact .setModeNot h

theorem set_none_self {f : Nat → Option Nat} {i : Nat} (h : f i = none) : Timer.set f i none = f := by
  funext j; by_cases hj : j = i
  · subst hj; rw [set_self]; exact h.symm
  · rw [set_other _ _ hj]

/-- What `stop` and the like see first. -/
theorem beginKind_R {s : St} {sp : Sp} {D : DL} (h : R s sp D) (k : Kind) {i : Nat} (hi : i < s.max ∨ i = NO) :
    (sp.cfg i = none ∧ beginKind s k i = .ok (.ret no, some no)) ∨
    (i < s.max ∧ sp.cfg i ≠ none ∧ sp.due i ≠ none ∧ beginKind s k i = .ok (.enter (.remove k i), none)) ∨
    (∃ c, i < s.max ∧ sp.cfg i = some c ∧ sp.due i = none ∧ beginKind s k i = .ok (.finish k i, some yes)) := by
  unfold beginKind
  by_cases hN : i = NO
  · rw [if_pos hN, hN]; exact .inl ⟨cfg_NO h, rfl⟩
  · have hi : i < s.max := hi.resolve_right hN
    rw [if_neg hN, if_neg (fun hc => hc hi)]
    rcases h.cfg i hi with hh | hh
    · rw [if_neg (by rw [hh.1]; exact hN)]
      by_cases ha : (s.timers i).delta ≠ Inactive
      · rw [if_pos ha]
        refine .inr (.inl ⟨hi, by rw [hh.2]; simp, ?_, rfl⟩)
        intro hn
        exact (due_none h).1 hn ((h.active_iff hi).1 ha)
      · rw [if_neg ha]
        exact .inr (.inr ⟨_, hi, hh.2, (due_none h).2 (fun hm => ha ((h.active_iff hi).2 hm)), rfl⟩)
    · rw [if_pos hh.1]; exact .inl ⟨hh.2, rfl⟩

/-- The last part. -/
theorem finish_R {s : St} {sp : Sp} {k : Kind} {i : Nat} (h : Pending s sp k i) : ∃ D, R (finish s k i) sp D := by
  obtain ⟨spc, D, c, hR, hi, hc, hd, rfl, hper⟩ := h
  have hn := (due_none hR).1 hd
  have hcf : (s.timers i).id = i ∧ c = ((s.timers i).period, (s.timers i).repeating) := by
    rcases hR.cfg i hi with hh | hh
    · rw [hc] at hh; exact ⟨hh.1, by have := hh.2; injection this⟩
    · rw [hc] at hh; cases hh.2
  refine ⟨D, ?_⟩
  cases k with
  | stop =>
    have : (Timer.set spc.cfg i (Kind.eff .stop c) : Nat → Option (Nat × Bool)) = spc.cfg := by
      funext j; by_cases hj : j = i
      · subst hj; rw [set_self]; exact hc.symm
      · rw [set_other _ _ hj]
    show R s { spc with cfg := Timer.set spc.cfg i (Kind.eff .stop c) } D
    rw [this]; exact hR
  | unreg =>
    exact hR.configure hi hn {} none _ (.inr ⟨rfl, rfl⟩) rfl (by decide) (by rw [cnt_upd_sub (by rw [hcf.1]; exact lt_ne_NO hR hi) rfl _ hi, hR.reg])
  | period p =>
    exact hR.configure hi hn { s.timers i with period := p } _ s.registered (.inl ⟨hcf.1, by rw [hcf.2]; rfl⟩) (hR.idle i hi hn) (hper p rfl)
      (by rw [cnt_congr (t := s.timers) _ (fun j _ => by by_cases hj : j = i <;> simp [upd, hj])]; exact hR.reg)
  | mode r =>
    exact hR.configure hi hn { s.timers i with repeating := r } _ s.registered (.inl ⟨hcf.1, by rw [hcf.2]; rfl⟩) (hR.idle i hi hn) (hR.per i)
      (by rw [cnt_congr (t := s.timers) _ (fun j _ => by by_cases hj : j = i <;> simp [upd, hj])]; exact hR.reg)

theorem finish_keeps (s : St) (k : Kind) (i : Nat) : Keeps s (finish s k i) := by cases k <;> exact ⟨rfl, rfl⟩

/-- The walk of `clear`. -/
theorem clearLoop_ok : ∀ (D : DL) (fuel p b : Nat) (s : St), D.length < fuel → s.max ≤ 254 → (∀ x ∈ ids D, x < s.max) → (ids D).Nodup → Rep s.timers p b NO D → (∀ i, (s.timers i).period ≤ Inactive) →
    ∃ s', clearLoop fuel (hd NO D) s = .ok s' ∧ Keeps s s' ∧ s'.enabled = s.enabled ∧ s'.registered = s.registered ∧ ∀ i, (s'.timers i).period ≤ Inactive
  | [], fuel + 1, p, b, s, _, _, _, _, _, hp => ⟨s, by simp [clearLoop, hd], ⟨rfl, rfl⟩, rfl, rfl, hp⟩
  | (x, d) :: D, fuel + 1, p, b, s, hl, hm, hlt, hnd, hrep, hp => by
    have hx := hlt x (by simp [ids])
    have hxN : x ≠ NO := by unfold NO; omega
    have hxD : x ∉ ids D := by simp only [ids, List.map_cons, List.nodup_cons] at hnd; exact hnd.1
    simp only [Rep] at hrep
    show ∃ s', clearLoop (fuel + 1) x s = .ok s' ∧ _
    rw [clearLoop, if_neg hxN, put_ok _ hx]
    simp only
    rw [hrep.2.1]
    obtain ⟨s', e1, e2, e3, e4, e5⟩ := clearLoop_ok D fuel x d { s with timers := upd s.timers x { s.timers x with next := NO } } (by simp only [List.length_cons] at hl; omega) hm
      (fun y hy => hlt y (by simp only [ids, List.map_cons, List.mem_cons]; exact .inr hy)) (by simp only [ids, List.map_cons, List.nodup_cons] at hnd; exact hnd.2)
      (rep_frame hrep.2.2.2.2 (fun y hy => upd_other _ _ (by rintro rfl; exact hxD hy)))
      (fun i => by show (upd s.timers x _ i).period ≤ _; by_cases hi : i = x
                   · subst hi; rw [upd_same]; exact hp i
                   · rw [upd_other _ _ hi]; exact hp i)
    exact ⟨s', e1, e2, e3, e4, e5⟩

/-- All records are reset. -/
theorem W.end {s : St} {sp : Sp} {k : Nat} (h : W s sp k) (hk : s.max ≤ k) (n : Nat) (hn : n = 0) : R { s with registered := n } sp [] := by
  have hz : ∀ i, i < s.max → s.timers i = {} := fun i hi => h.done i (by omega) hi
  refine ⟨⟨h.head, h.tail, trivial, by simp [ids], by simp [ids], h.max⟩, ?_, ?_, fun i _ => h.cfg i, by simp, ?_, h.per, ?_, h.en⟩
  · intro i d; rw [h.due]; simp
  · intro i hi; exact .inr ⟨by show (s.timers i).id = NO; rw [hz i hi], h.cfg i⟩
  · intro i hi _; show (s.timers i).delta = _; rw [hz i hi]
  · show n = cnt s.timers s.max
    have : ∀ m, m ≤ s.max → cnt s.timers m = 0 := by
      intro m; induction m with
      | zero => intro _; rfl
      | succ m ih => intro hm; simp only [cnt]; rw [ih (by omega), hz m (by omega)]; rfl
    rw [this _ (Nat.le_refl _)]; exact hn

/-- The queries. -/
theorem head_ne {s : St} {sp : Sp} {D : DL} (h : R s sp D) : s.head ≠ NO ↔ ∃ i d, sp.due i = some d := by
  rw [ne_eq, head_none h]
  constructor
  · intro hne
    cases D with
    | nil => exact absurd rfl hne
    | cons x D => exact ⟨x.1, x.2, (h.due _ _).2 (by simp)⟩
  · rintro ⟨i, d, hd⟩ rfl
    have := (h.due i d).1 hd
    simp at this

theorem running {s : St} {sp : Sp} {D : DL} (h : R s sp D) {i : Nat} (hi : i < s.max) : ((s.timers i).id ≠ NO ∧ (s.timers i).delta ≠ Inactive) ↔ ∃ d, sp.due i = some d := by
  rw [h.active_iff hi]
  constructor
  · rintro ⟨_, hm⟩
    obtain ⟨d, hd⟩ := mem_ids_iff.1 hm
    exact ⟨d, (h.due _ _).2 hd⟩
  · rintro ⟨d, hd⟩
    have hm := mem_ids ((h.due _ _).1 hd)
    exact ⟨by rw [(h.lst.lt i hm).2]; exact lt_ne_NO h hi, hm⟩

theorem nextTime {max : Nat} {s : St} {sp : Sp} {D : DL} {h : Trace} (hR : R s sp D) : Does max sp h (.call .timeToNext (.time (if s.head ≠ NO then (s.timers s.head).delta else Inactive))) sp h := by
  cases D with
  | nil =>
    have hh : s.head = NO := (head_none hR).2 rfl
    rw [if_neg (fun hc => hc hh)]
    exact .nextNone (fun i => (due_none hR).2 (by simp [ids]))
  | cons y D =>
    obtain ⟨x, d⟩ := y
    have hh : s.head = x := hR.lst.head
    have hx := hR.lst.lt x (by simp [ids])
    have hrep := hR.lst.rep
    have hxd : (s.timers x).delta = d - sp.now ∧ sp.now ≤ d := by simp only [Rep] at hrep; exact ⟨hrep.2.2.2.1, hrep.2.2.1⟩
    rw [if_pos (by rw [hh]; exact lt_ne_NO hR hx.1), hh, hxd.1]
    refine .next (i := x) ((hR.due x d).2 (by simp)) (fun j e hj => ?_)
    have hm := (hR.due j e).1 hj
    have hs := rep_sorted hrep
    rcases List.mem_cons.1 hm with hm | hm
    · injection hm with _ hm; omega
    · exact (List.pairwise_cons.1 hs).1 _ hm

/-- What a step of call `o` does in terms of the specification: nothing, or the call. -/
def Moves (max : Nat) (o : COp) (sp : Sp) (h : Trace) (sp' : Sp) : Prop := sp' = sp ∨ ∃ r, Does max sp h (.call o r) sp' h

/-- Building the invariant after a step that takes effect. -/
theorem Inv.eff {v : Variant} {max : Nat} {s : S} {sp sp' : Sp} {h : Trace} {o : COp} {r : Resp} {t' : St} {pc' : Pc} (hI : Inv v max s sp h) (hph : phase v s.pc = .before o) (hk : Keeps s.t t')
    (hd : Does max sp h (.call o r) sp' h) (hc : Coup v t' sp' pc') (hph' : phase v pc' = .after o r) (hl : LeaveOk pc') : Inv v max { t := t', pc := pc', trace := s.trace ++ [.lin o r] } sp' h ∧ Moves max o sp h sp' := by
  refine ⟨?_, .inr ⟨r, hd⟩⟩
  refine ⟨?_, by show t'.log = _; rw [hk.2]; exact hI.log, by show t'.max = _; rw [hk.1]; exact hI.max, hc, ?_, hl⟩
  · show Legal max (items (s.trace ++ [.lin o r])) sp' h
    rw [items_append]; exact .snoc hI.legal hd
  · show Follows (s.trace ++ [.lin o r]) (phase v pc')
    rw [hph']
    have := hI.thr
    rw [hph] at this
    exact .lin this

/-- And after one that does not. -/
theorem Inv.silent {o : COp} {v : Variant} {max : Nat} {s : S} {sp : Sp} {h : Trace} {t' : St} {pc' : Pc} (hI : Inv v max s sp h) (hph : phase v pc' = phase v s.pc) (hk : Keeps s.t t')
    (hc : Coup v t' sp pc') (hl : LeaveOk pc') : Inv v max { t := t', pc := pc', trace := s.trace } sp h ∧ Moves max o sp h sp := by
  refine ⟨?_, .inl rfl⟩
  refine ⟨hI.legal, by show t'.log = _; rw [hk.2]; exact hI.log, by show t'.max = _; rw [hk.1]; exact hI.max, hc, ?_, hl⟩
  show Follows s.trace (phase v pc')
  rw [hph]; exact hI.thr

theorem post_not {o : COp} {r : Resp} {sp : Sp} (h : ∀ i, o ≠ .op (.stop i)) : Post o r sp := fun i hi _ => absurd hi (h i)
theorem post_no {o : COp} {sp : Sp} : Post o no sp := by intro i _ hr; simp [no, yes] at hr

/-- First step of the four functions. -/
theorem begin_kind {v : Variant} {max : Nat} {s : S} {sp : Sp} {h : Trace} {D : DL} (hI : Inv v max s sp h) (k : Kind) (i : Nat) (hpc : s.pc = .run (.op (k.op i)) .begin) (hR : R s.t sp D)
    (hi : i < s.t.max ∨ i = NO) (hper : ∀ p, k = .period p → p ≤ Inactive) :
    ∃ p r, beginKind s.t k i = .ok (p, r) ∧
      ((∃ a, r = some a ∧ ∃ sp', Inv v max { t := s.t, pc := .run (.op (k.op i)) p, trace := s.trace ++ [.lin (.op (k.op i)) a] } sp' h ∧ Moves max (.op (k.op i)) sp h sp') ∨
       (r = none ∧ Inv v max { t := s.t, pc := .run (.op (k.op i)) p, trace := s.trace } sp h ∧ Moves max (.op (k.op i)) sp h sp)) := by
  have hph : phase v s.pc = .before (.op (k.op i)) := by rw [hpc]; rfl
  rcases beginKind_R hR k hi with ⟨e1, e2⟩ | ⟨e1, e2, e3, e4⟩ | ⟨c, e1, e2, e3, e4⟩
  · exact ⟨_, _, e2, .inl ⟨_, rfl, sp, hI.eff hph ⟨rfl, rfl⟩ (.op (kind_specNot k e1)) ⟨⟨D, hR⟩, post_no⟩ rfl trivial⟩⟩
  · exact ⟨_, _, e4, .inr ⟨rfl, hI.silent (by rw [hpc]; rfl) ⟨rfl, rfl⟩ ⟨⟨D, hR⟩, rfl, e1, e2, e3, hper⟩ trivial⟩⟩
  · refine ⟨_, _, e4, .inl ⟨_, rfl, _, hI.eff hph ⟨rfl, rfl⟩ (.op (kind_spec k e2)) ⟨⟨sp, D, c, hR, e1, e2, e3, ?_, hper⟩, rfl⟩ rfl trivial⟩⟩
    rw [set_none_self e3]

theorem inv_begin {v : Variant} {max : Nat} {s : S} {sp : Sp} {h : Trace} {o : COp} (hI : Inv v max s sp h) (hpc : s.pc = .run o .begin) : ∃ s' sp', step v s = .ok s' ∧ Inv v max s' sp' h ∧ Moves max o sp h sp' := by
  have hco := hI.coup
  rw [hpc] at hco
  obtain ⟨⟨D, hR⟩, hok⟩ := hco
  have hph : phase v s.pc = .before o := by rw [hpc]; rfl
  unfold step
  rw [hpc]
  simp only
  have kind : ∀ (k : Kind) (i : Nat), o = .op (k.op i) → begin s.t o = (match beginKind s.t k i with | .error u => .error u | .ok (p, r) => .ok (p, r, s.t)) → (i < s.t.max ∨ i = NO) → (∀ p, k = .period p → p ≤ Inactive) →
      ∃ s' sp', (match begin s.t o with
        | .error u => (Except.error u : Res S)
        | .ok (p, some r, t) => Except.ok ({ t := t, pc := .run o p, trace := s.trace ++ [Ev.lin o r] } : S)
        | .ok (p, none, t) => Except.ok ({ t := t, pc := .run o p, trace := s.trace } : S)) = .ok s' ∧ Inv v max s' sp' h ∧ Moves max o sp h sp' := by
    intro k i ho hb hi hper
    subst ho
    obtain ⟨p, r, e1, e2⟩ := begin_kind hI k i hpc hR hi hper
    rw [hb, e1]
    rcases e2 with ⟨a, rfl, sp', e3⟩ | ⟨rfl, e3⟩
    · exact ⟨_, sp', rfl, e3⟩
    · exact ⟨_, sp, rfl, e3⟩
  cases o with
  | hasActive => exact ⟨_, sp, rfl, hI.silent (by rw [hpc]; rfl) ⟨rfl, rfl⟩ ⟨⟨D, hR⟩, rfl⟩ trivial⟩
  | timeToNext => exact ⟨_, sp, rfl, hI.silent (by rw [hpc]; rfl) ⟨rfl, rfl⟩ ⟨⟨D, hR⟩, rfl⟩ trivial⟩
  | isActive i =>
    simp only [begin]
    by_cases hi : i < s.t.max
    · rw [if_pos hi]
      exact ⟨_, sp, rfl, hI.silent (by rw [hpc]; rfl) ⟨rfl, rfl⟩ ⟨⟨D, hR⟩, rfl, hi⟩ trivial⟩
    · rw [if_neg hi]
      refine ⟨_, sp, rfl, hI.eff hph ⟨rfl, rfl⟩ (.isActive ?_) ⟨⟨D, hR⟩, post_no⟩ rfl trivial⟩
      constructor
      · intro hc; cases hc
      · rintro ⟨d, hd⟩
        exact absurd (hR.lst.lt i (mem_ids ((hR.due i d).1 hd))).1 hi
  | op p =>
    have hok := hok p rfl
    cases p with
    | register q r =>
      simp only [begin]
      have hreg := register_R (r := r) hR hok
      unfold register at hreg
      by_cases hlt : s.t.registered < s.t.max
      · rw [if_pos hlt]
        rw [if_pos hlt] at hreg
        rcases findFree_ok (s := s.t) s.t.max 0 (by omega) (by intro i hi; omega) with ⟨i, e1, e2, e3⟩ | ⟨e1, e2⟩
        · rw [e1]
          have hc : sp.cfg i = none := by
            rcases hR.cfg i e2 with hh | hh
            · exact absurd (hh.1.symm.trans e3) (lt_ne_NO hR e2)
            · exact hh.2
          exact ⟨_, sp, rfl, hI.silent (by rw [hpc]; rfl) ⟨rfl, rfl⟩ ⟨⟨D, hR⟩, rfl, e2, hc, hok⟩ trivial⟩
        · rw [e1]
          rw [e1] at hreg
          obtain ⟨sp', g1, g2, g3⟩ := hreg
          exact ⟨_, sp', rfl, hI.eff hph ⟨rfl, rfl⟩ (.op (by rw [hI.max] at g1; exact g1)) ⟨⟨D, g2⟩, post_not (by simp)⟩ rfl trivial⟩
      · rw [if_neg hlt]
        rw [if_neg hlt] at hreg
        obtain ⟨sp', g1, g2, g3⟩ := hreg
        exact ⟨_, sp', rfl, hI.eff hph ⟨rfl, rfl⟩ (.op (by rw [hI.max] at g1; exact g1)) ⟨⟨D, g2⟩, post_not (by simp)⟩ rfl trivial⟩
    | unregister i => exact kind .unreg i rfl rfl hok (by intro p hp; cases hp)
    | stop i => exact kind .stop i rfl rfl hok (by intro p hp; cases hp)
    | setPeriod i q => exact kind (.period q) i rfl rfl hok.1 (by intro p hp; injection hp with hp; subst hp; exact hok.2)
    | setMode i m => exact kind (.mode m) i rfl rfl hok (by intro p hp; cases hp)
    | start i b =>
      simp only [begin]
      by_cases hN : i = NO
      · rw [if_pos hN]
        exact ⟨_, sp, rfl, hI.eff hph ⟨rfl, rfl⟩ (.op (.startNot (fun p r hc => by rw [hN, cfg_NO hR] at hc; cases hc))) ⟨⟨D, hR⟩, post_not (by simp)⟩ rfl trivial⟩
      · have hi : i < s.t.max := hok.resolve_right hN
        rw [if_neg hN, if_neg (fun hc => hc hi)]
        rcases hR.cfg i hi with hh | hh
        · rw [if_neg (by rw [hh.1]; exact hN)]
          by_cases hp : (s.t.timers i).period = Inactive
          · rw [if_pos hp]
            exact ⟨_, sp, rfl, hI.eff hph ⟨rfl, rfl⟩ (.op (.startNot (fun p r hc => by rw [hh.2] at hc; injection hc with hc; injection hc with hc _; rw [← hc]; exact hp))) ⟨⟨D, hR⟩, post_not (by simp)⟩ rfl trivial⟩
          · rw [if_neg hp]
            exact ⟨_, sp, rfl, hI.silent (by rw [hpc]; rfl) ⟨rfl, rfl⟩ ⟨⟨D, hR⟩, rfl, hi, _, _, hh.2, hp⟩ trivial⟩
        · rw [if_pos hh.1]
          exact ⟨_, sp, rfl, hI.eff hph ⟨rfl, rfl⟩ (.op (.startNot (fun p r hc => by rw [hh.2] at hc; cases hc))) ⟨⟨D, hR⟩, post_not (by simp)⟩ rfl trivial⟩
    | clear => exact ⟨_, sp, rfl, hI.silent (by rw [hpc]; rfl) ⟨rfl, rfl⟩ ⟨⟨D, hR⟩, rfl⟩ trivial⟩
    | enable b =>
      exact ⟨_, _, rfl, hI.eff hph ⟨rfl, rfl⟩ (.op .enable) ⟨⟨D, ⟨⟨hR.lst.head, hR.lst.tail, hR.lst.rep, hR.lst.nodup, hR.lst.lt, hR.lst.max⟩, hR.due, hR.cfg, hR.out, hR.act, hR.idle, hR.per, hR.reg, rfl⟩⟩, post_not (by simp)⟩ rfl trivial⟩

/-- The work of `start`. -/
theorem work_start {v : Variant} {s : St} {i : Nat} {b : Bool} (h1 : i ≠ NO) (h2 : i < s.max) (h3 : (s.timers i).id ≠ NO) (h4 : (s.timers i).period ≠ Inactive) {t : St} (h : Timer.start s i b = .ok (true, t)) :
    work v s (.start i b) = .ok (yes, t) := by
  unfold Timer.start at h
  rw [if_neg h1, if_neg (fun hc => hc h2), if_neg h3, if_neg h4] at h
  unfold work
  simp only
  cases hd : deactivate s i with
  | error u => rw [hd] at h; cases h
  | ok s1 =>
    rw [hd] at h
    simp only at h ⊢
    cases hp : put s1 i (fun t => { t with delta := if b = true then 0 else t.period }) with
    | error u => rw [hp] at h; cases h
    | ok s2 =>
      rw [hp] at h
      simp only at h ⊢
      cases hi : insert s2 (s2.timers i).id with
      | error u => rw [hi] at h; cases h
      | ok s3 => rw [hi] at h; simp only at h ⊢; injection h with h; injection h with _ h; rw [h]

theorem start_fails {max : Nat} {sp sp' : Sp} {i : Nat} {b : Bool} {p : Nat} {r : Bool} (h : SpecOp max sp (.start i b) (.bool false) sp') (hc : sp.cfg i = some (p, r)) (hp : p ≠ Inactive) : False := by
  cases h with
  | startNot h1 => exact hp (h1 _ _ hc)

theorem inv_body {v : Variant} {max : Nat} {s : S} {sp : Sp} {h : Trace} {o : COp} {x : Sec} (hI : Inv v max s sp h) (hpc : s.pc = .run o (.body x)) : ∃ s' sp', step v s = .ok s' ∧ Inv v max s' sp' h ∧ Moves max o sp h sp' := by
  have hco := hI.coup
  rw [hpc] at hco
  have hph : phase v s.pc = .before o := by rw [hpc]; rfl
  unfold step
  rw [hpc]
  simp only
  cases x with
  | remove k i =>
    obtain ⟨⟨D, hR⟩, rfl, hi, hc, hd, hper⟩ := hco
    have hid : (s.t.timers i).id = i := by
      rcases hR.cfg i hi with hh | hh
      · exact hh.1
      · exact absurd hh.2 hc
    obtain ⟨d, hdd⟩ := Option.ne_none_iff_exists'.1 hd
    obtain ⟨c, hcc⟩ := Option.ne_none_iff_exists'.1 hc
    obtain ⟨A, B, rfl⟩ := mem_split ((hR.due i d).1 hdd)
    obtain ⟨t', e1, e2, e3⟩ := remove_R false hR (by simp)
    have hw : work v s.t (.remove k i) = .ok (yes, t') := by unfold work; simp only; rw [hid, e1]
    rw [hw]
    refine ⟨_, _, rfl, hI.eff hph ⟨e3.max, e3.log⟩ (.op (kind_spec k hcc)) ⟨⟨_, A ++ B, c, e2, by rw [e3.max]; exact hi, hcc, set_self _ _ _, rfl, hper⟩, rfl⟩ rfl rfl⟩
  | start i b =>
    obtain ⟨⟨D, hR⟩, rfl, hi, p, r, hc, hp⟩ := hco
    have hid : (s.t.timers i).id = i ∧ (s.t.timers i).period = p := by
      rcases hR.cfg i hi with hh | hh
      · rw [hc] at hh; have := hh.2; injection this with this; injection this with h1 h2; exact ⟨hh.1, h1.symm⟩
      · rw [hc] at hh; cases hh.2
    obtain ⟨r', t', sp', D', e1, e2, e3, e4⟩ := start_R (b := b) hR (.inl hi)
    cases r' with
    | false => exact (start_fails e2 hc hp).elim
    | true =>
      rw [work_start (lt_ne_NO hR hi) hi (by rw [hid.1]; exact lt_ne_NO hR hi) (by rw [hid.2]; exact hp) e1]
      exact ⟨_, sp', rfl, hI.eff hph e4 (.op (by rw [hI.max] at e2; exact e2)) ⟨⟨D', e3⟩, rfl⟩ rfl trivial⟩
  | clearList =>
    obtain ⟨⟨D, hR⟩, rfl⟩ := hco
    obtain ⟨t', e1, e2, e3, e4, e5⟩ := clearLoop_ok D (s.t.max + 1) NO sp.now s.t (Nat.lt_succ_of_le (ids_length_le hR.lst)) hR.lst.max (fun x hx => (hR.lst.lt x hx).1) hR.lst.nodup hR.lst.rep hR.per
    have hw : work v s.t .clearList = .ok (.ret .unit, { t' with head := NO, tail := NO, registered := if v = .interrupt then 0 else t'.registered }) := by
      unfold work; simp only; rw [hR.lst.head, e1]
    rw [hw]
    refine ⟨_, _, rfl, hI.eff hph ⟨e2.1, e2.2⟩ (.op .clear) ⟨⟨rfl, rfl, ?_, ?_, e5, ?_, fun _ => rfl, fun _ => rfl⟩, ?_, rfl⟩ rfl rfl⟩
    · show t'.max ≤ 254; rw [e2.1]; exact hR.lst.max
    · intro i hi; omega
    · show t'.enabled = sp.enabled; rw [e3]; exact hR.en
    · intro hv; show (if v = .interrupt then 0 else t'.registered) = 0; rw [if_pos hv]
  | hasActive =>
    obtain ⟨⟨D, hR⟩, rfl⟩ := hco
    refine ⟨_, sp, rfl, hI.eff hph ⟨rfl, rfl⟩ (.hasActive ?_) ⟨⟨D, hR⟩, rfl⟩ rfl trivial⟩
    rw [decide_eq_true_eq]; exact head_ne hR
  | next =>
    obtain ⟨⟨D, hR⟩, rfl⟩ := hco
    exact ⟨_, sp, rfl, hI.eff hph ⟨rfl, rfl⟩ (nextTime hR) ⟨⟨D, hR⟩, rfl⟩ rfl trivial⟩
  | isActive1 i =>
    obtain ⟨⟨D, hR⟩, rfl, hi⟩ := hco
    simp only [work]
    by_cases hv : v = .atomic
    · have ht : ∀ r, takesEffect v (.isActive1 i) r = true := by intro r; simp [takesEffect, hv]
      rw [if_pos (ht _), if_pos hv]
      refine ⟨_, sp, rfl, hI.eff hph ⟨rfl, rfl⟩ (.isActive ?_) ⟨⟨D, hR⟩, rfl, hi⟩ (by show (if takesEffect v _ _ = true then _ else _) = _; rw [if_pos (ht _)]) trivial⟩
      rw [Bool.and_eq_true, Bool.and_eq_true, decide_eq_true_eq, decide_eq_true_eq, decide_eq_true_eq, and_assoc, running hR hi, head_ne hR]
      constructor
      · exact fun hh => hh.2
      · exact fun hh => ⟨⟨i, hh⟩, hh⟩
    · rw [if_neg hv]
      by_cases hh : s.t.head ≠ NO
      · rw [show decide (s.t.head ≠ NO) = true from decide_eq_true hh]
        have ht : takesEffect v (.isActive1 i) (.ret (.bool true)) = false := by simp [takesEffect, hv, no]
        rw [ht]
        refine ⟨_, sp, rfl, ?_⟩
        rw [if_neg (by simp)]
        exact hI.silent (by rw [hpc]; show (if takesEffect v _ _ = true then _ else _) = _; rw [ht]; rfl) ⟨rfl, rfl⟩ ⟨⟨D, hR⟩, rfl, hi⟩ trivial
      · rw [show decide (s.t.head ≠ NO) = false from decide_eq_false hh]
        have ht : takesEffect v (.isActive1 i) (.ret (.bool false)) = true := by simp [takesEffect, no]
        rw [if_pos ht]
        refine ⟨_, sp, rfl, hI.eff hph ⟨rfl, rfl⟩ (.isActive ?_) ⟨⟨D, hR⟩, rfl, hi⟩ (by show (if takesEffect v _ _ = true then _ else _) = _; rw [if_pos ht]) trivial⟩
        constructor
        · intro hc; cases hc
        · rintro ⟨d, hd⟩; exact absurd ((head_ne hR).2 ⟨i, d, hd⟩) hh
  | isActive2 i =>
    obtain ⟨⟨D, hR⟩, rfl, hi⟩ := hco
    refine ⟨_, sp, rfl, hI.eff hph ⟨rfl, rfl⟩ (.isActive ?_) ⟨⟨D, hR⟩, rfl, hi⟩ rfl trivial⟩
    rw [Bool.and_eq_true, decide_eq_true_eq, decide_eq_true_eq]; exact running hR hi

theorem inv_leave {v : Variant} {max : Nat} {s : S} {sp : Sp} {h : Trace} {o : COp} {x : Sec} {r : Resp} (hI : Inv v max s sp h) (hpc : s.pc = .run o (.leave x r)) : ∃ s' sp', step v s = .ok s' ∧ Inv v max s' sp' h ∧ Moves max o sp h sp' := by
  have hco := hI.coup
  have hlv := hI.lv
  rw [hpc] at hco hlv
  unfold step
  rw [hpc]
  refine ⟨_, sp, rfl, ?_⟩
  cases x with
  | remove k i =>
    simp only [LeaveOk] at hlv; subst hlv
    exact hI.silent (by rw [hpc]; rfl) ⟨rfl, rfl⟩ hco trivial
  | start i b =>
    obtain ⟨hR, rfl⟩ := hco
    exact hI.silent (by rw [hpc]; rfl) ⟨rfl, rfl⟩ ⟨hR, post_not (by simp)⟩ trivial
  | clearList =>
    simp only [LeaveOk] at hlv; subst hlv
    exact hI.silent (by rw [hpc]; rfl) ⟨rfl, rfl⟩ hco trivial
  | hasActive =>
    obtain ⟨hR, rfl⟩ := hco
    exact hI.silent (by rw [hpc]; rfl) ⟨rfl, rfl⟩ ⟨hR, post_not (by simp)⟩ trivial
  | next =>
    obtain ⟨hR, rfl⟩ := hco
    exact hI.silent (by rw [hpc]; rfl) ⟨rfl, rfl⟩ ⟨hR, post_not (by simp)⟩ trivial
  | isActive1 i =>
    obtain ⟨hR, rfl, hi⟩ := hco
    by_cases ht : takesEffect v (.isActive1 i) r = true
    · have ha : after v (.isActive1 i) r = .ret r := by simp only [after]; rw [if_pos ht]
      rw [ha]
      exact hI.silent (by rw [hpc]; show _ = (if takesEffect v _ _ = true then _ else _); rw [if_pos ht]; rfl) ⟨rfl, rfl⟩ ⟨hR, post_not (by simp)⟩ trivial
    · have ha : after v (.isActive1 i) r = .enter (.isActive2 i) := by simp only [after]; rw [if_neg ht]
      rw [ha]
      exact hI.silent (by rw [hpc]; show _ = (if takesEffect v _ _ = true then _ else _); rw [if_neg ht]; rfl) ⟨rfl, rfl⟩ ⟨hR, rfl, hi⟩ trivial
  | isActive2 i =>
    obtain ⟨hR, rfl, hi⟩ := hco
    exact hI.silent (by rw [hpc]; rfl) ⟨rfl, rfl⟩ ⟨hR, post_not (by simp)⟩ trivial

/-- Every step of the thread is defined and keeps the invariant. -/
theorem inv_step' {v : Variant} {max : Nat} {s : S} {sp : Sp} {h : Trace} {o : COp} {p : P} (hI : Inv v max s sp h) (hpc : s.pc = .run o p) : ∃ s' sp', step v s = .ok s' ∧ Inv v max s' sp' h ∧ Moves max o sp h sp' := by
    have hco := hI.coup
    rw [hpc] at hco
    cases p with
    | begin => exact inv_begin hI hpc
    | enter x =>
      unfold step
      rw [hpc]
      refine ⟨_, sp, rfl, hI.silent (by rw [hpc]; rfl) ⟨rfl, rfl⟩ ?_ (by cases x <;> trivial)⟩
      cases x <;> exact hco
    | body x => exact inv_body hI hpc
    | leave x r => exact inv_leave hI hpc
    | create i p r =>
      obtain ⟨⟨D, hR⟩, rfl, hi, hc, hp⟩ := hco
      unfold step
      rw [hpc]
      have hid : (s.t.timers i).id = NO := by
        rcases hR.cfg i hi with hh | hh
        · rw [hc] at hh; cases hh.2
        · exact hh.1
      have hn : i ∉ ids D := fun hm => lt_ne_NO hR hi ((hR.lst.lt i hm).2.symm.trans hid)
      refine ⟨_, _, rfl, hI.eff (by rw [hpc]; rfl) ⟨rfl, rfl⟩ (.op (.register (by rw [← hI.max]; exact hi) hc)) ⟨⟨D, ?_⟩, post_not (by simp)⟩ rfl trivial⟩
      exact hR.configure hi hn _ _ _ (.inl ⟨rfl, rfl⟩) rfl hp (by rw [cnt_upd_add hid (lt_ne_NO hR hi) _ hi, hR.reg])
    | finish k i =>
      obtain ⟨hP, rfl⟩ := hco
      unfold step
      rw [hpc]
      refine ⟨_, sp, rfl, hI.silent (by rw [hpc]; rfl) (finish_keeps _ _ _) ⟨finish_R hP, ?_⟩ trivial⟩
      intro j hj _
      obtain ⟨spc, D, c, hR, hi, hc, hd, rfl, hper⟩ := hP
      cases k <;> simp only [Kind.op, COp.op.injEq, reduceCtorEq] at hj
      injection hj with hj
      subst hj
      exact hd
    | wipe k =>
      obtain ⟨hW, hreg, rfl⟩ := hco
      unfold step
      rw [hpc]
      simp only
      by_cases hk : k < s.t.max
      · rw [if_pos hk]
        refine ⟨_, sp, rfl, hI.silent (by rw [hpc]; rfl) ⟨rfl, rfl⟩ ⟨⟨hW.head, hW.tail, hW.max, ?_, ?_, hW.en, hW.cfg, hW.due⟩, hreg, rfl⟩ trivial⟩
        · intro i hi him
          show upd s.t.timers k {} i = {}
          by_cases hik : i = k
          · rw [hik, upd_same]
          · rw [upd_other _ _ hik]; exact hW.done i (by omega) him
        · intro i
          show (upd s.t.timers k {} i).period ≤ _
          by_cases hik : i = k
          · rw [hik, upd_same]; decide
          · rw [upd_other _ _ hik]; exact hW.per i
      · rw [if_neg hk]
        refine ⟨_, sp, rfl, hI.silent (by rw [hpc]; rfl) ⟨rfl, rfl⟩ ⟨⟨[], hW.end (by omega) _ ?_⟩, post_not (by simp)⟩ trivial⟩
        by_cases hv : v = .interrupt
        · rw [if_pos hv]; exact hreg hv
        · rw [if_neg hv]
    | ret r =>
      unfold step
      rw [hpc]
      refine ⟨_, sp, rfl, ⟨?_, hI.log, hI.max, hco.1, ?_, trivial⟩, .inl rfl⟩
      · show Legal max (items (s.trace ++ [.ret o r])) sp h
        rw [items_append]; simp only [items, List.append_nil]; exact hI.legal
      · have := hI.thr
        rw [hpc] at this
        exact .ret this

theorem inv_step {v : Variant} {max : Nat} {s : S} {sp : Sp} {h : Trace} (hI : Inv v max s sp h) : ∃ s' sp', step v s = .ok s' ∧ Inv v max s' sp' h ∧ (sp' = sp ∨ ∃ o p r, s.pc = .run o p ∧ Does max sp h (.call o r) sp' h) := by
  cases hpc : s.pc with
  | idle => exact ⟨s, sp, by unfold step; rw [hpc], hI, .inl rfl⟩
  | run o p =>
    obtain ⟨s', sp', e1, e2, e3⟩ := inv_step' hI hpc
    refine ⟨s', sp', e1, e2, ?_⟩
    rcases e3 with e3 | ⟨r, e3⟩
    · exact .inl e3
    · exact .inr ⟨o, p, r, rfl, e3⟩

end Etl.TimerIsr
