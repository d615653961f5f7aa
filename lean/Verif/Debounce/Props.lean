import Verif.Debounce.Model
import Mathlib.Tactic.SplitIfs
import Mathlib.Data.List.Induction
import Mathlib.Tactic.ByContra
import Mathlib.Tactic.IntervalCases

/-!
# Properties of `etl::debounce` (C41)
-/
namespace Etl.Debounce

/-! ## Specification -/

/-- Length of the run of `b` at the head of a list (newest sample first). -/
def runLen (b : Bool) : List Bool → Nat
  | [] => 0
  | x :: xs => if x = b then runLen b xs + 1 else 0

/-- How many equal samples are needed to leave the state set/held/repeating for clear. -/
def Kind.valid : Kind → Nat
  | .k4 V _ _ => V
  | .k3 V _ => V
  | .k2 V => V
  | .var V _ _ => V

/-- How many `true` samples, counted from the last event, are needed for the next event in phase 0 (clear), 1 (set), 2 (held), 3 (repeating). -/
def Kind.upCount : Kind → Nat → Option Nat
  | .k2 V, 0 => some V
  | .k2 _, _ => none
  | .k3 V _, 0 => some V
  | .k3 _ H, 1 => some H
  | .k3 _ _, _ => none
  | .k4 V _ _, 0 => some V
  | .k4 _ H _, 1 => some H
  | .k4 _ _ R, _ => some R
  | .var V _ _, 0 => some V
  | .var _ H _, 1 => some H
  | .var _ _ R, _ => some R

/-- The phase, and the samples since the last event (newest first). -/
structure Spec where
  kind : Kind
  phase : Nat
  since : List Bool
  changed : Bool

/-- What a sample does: an event happens exactly when the run of equal samples since the last event reaches the configured count. -/
def specStep (s : Spec) : Op → Spec × Option Bool
  | .add b =>
    let since := b :: s.since
    if b then
      if s.kind.upCount s.phase = some (runLen true since) then ({ s with phase := min (s.phase + 1) 3, since := [], changed := true }, some true)
      else ({ s with since := since, changed := false }, some false)
    else
      if s.phase ≠ 0 ∧ runLen false since = s.kind.valid then ({ s with phase := 0, since := [], changed := true }, some true)
      else ({ s with since := since, changed := false }, some false)
  | .set V H R => (match s.kind with | .var _ _ _ => { s with kind := .var V H R } | _ => s, none)

def specRun (s : Spec) : List Op → List (Option Bool × Bool × Bool × Bool × Bool)
  | [] => []
  | p :: ps =>
    let r := specStep s p
    (r.2, r.1.changed, r.1.phase ≥ 1, r.1.phase ≥ 2, r.1.phase ≥ 3) :: specRun r.1 ps

/-- All counts are `uint16_t`. -/
def Kind.Fits : Kind → Prop
  | .k4 V H R => V ≤ 65535 ∧ H ≤ 65535 ∧ R ≤ 65535
  | .k3 V H => V ≤ 65535 ∧ H ≤ 65535
  | .k2 V => V ≤ 65535
  | .var V H R => V ≤ 65535 ∧ H ≤ 65535 ∧ R ≤ 65535
def Op.Fits : Op → Prop
  | .set V H R => V ≤ 65535 ∧ H ≤ 65535 ∧ R ≤ 65535
  | _ => True

/-- The highest phase of a kind. -/
def Kind.top : Kind → Nat
  | .k2 _ => 1
  | .k3 _ _ => 2
  | _ => 3

instance (k : Kind) : Decidable k.Fits := by cases k <;> unfold Kind.Fits <;> infer_instance

/-! ## Proof -/

def Rel (o : Obj) (s : Spec) : Prop :=
  o.kind = s.kind ∧ o.kind.Fits ∧ o.st.flags.state = s.phase ∧ s.phase ≤ o.kind.top ∧ o.st.flags.change = s.changed ∧
  o.st.count = min (runLen o.st.flags.sample s.since) 65535 ∧ (s.since = [] ∨ s.since.head? = some o.st.flags.sample)

/-- The count after the new sample has been taken into account. -/
theorem count_after {o : Obj} {s : Spec} (h : Rel o s) (b : Bool) :
    (addSample o.st b).flags = ⟨s.phase, b, false⟩ ∧
    (addSample o.st b).count + 1 = min (runLen b (b :: s.since)) 65536 := by
  obtain ⟨_, _, h3, _, _, h6, h7⟩ := h
  unfold addSample
  by_cases hb : b = o.st.flags.sample
  · subst hb
    simp only [bne_self_eq_false, Bool.false_eq_true, if_false, runLen, if_true]
    refine ⟨by simp [← h3], by rw [h6]; omega⟩
  · have : (b != o.st.flags.sample) = true := by simpa using hb
    simp only [this, if_true, runLen]
    refine ⟨by simp [← h3], ?_⟩
    rcases h7 with h7 | h7
    · rw [h7]; simp [runLen]
    · cases hs : s.since with
      | nil => simp [runLen]
      | cons x xs =>
        rw [hs] at h7; simp only [List.head?_cons, Option.some.injEq] at h7
        have : x ≠ b := by rw [h7]; exact fun h => hb h.symm
        simp [runLen, this]

theorem runLen_pos (b : Bool) (l : List Bool) : 0 < runLen b (b :: l) := by simp [runLen]

theorem some_flip (a b : Nat) : (some a = some b) = (b = a) := by simp [eq_comm]

theorem process4_eq {s : St} {b : Bool} {ph c : Nat} (h : addSample s b = ⟨⟨ph, b, false⟩, c⟩) (hp : ph ≤ 3) (V H R : Nat) :
    process4 s b V H R = .ok (if (if b then (Kind.k4 V H R).upCount ph = some (c + 1) else ph ≠ 0 ∧ c + 1 = V) ∧ c < 65535
      then (⟨⟨if b then min (ph + 1) 3 else 0, b, true⟩, 0⟩, true) else (⟨⟨ph, b, false⟩, if c < 65535 then c + 1 else c⟩, false)) := by
  unfold process4
  simp only [h, UINT16_MAX]
  by_cases hc : c < 65535
  · simp only [hc, if_true, and_true]
    rcases hph : ph with _ | _ | _ | _ | _
    case succ.succ.succ.succ => omega
    all_goals cases b <;> simp only [getNext, table4, finish, Kind.upCount, bind, Except.bind, Nat.reduceMul, Nat.reduceAdd, if_true, if_false, Bool.false_eq_true, List.getElem?_cons_succ, List.getElem?_cons_zero] <;>
      (try simp only [some_flip]) <;> simp <;> split_ifs <;> simp_all
  · simp [hc, finish]

theorem process3_eq {s : St} {b : Bool} {ph c : Nat} (h : addSample s b = ⟨⟨ph, b, false⟩, c⟩) (hp : ph ≤ 2) (V H : Nat) :
    process3 s b V H = .ok (if (if b then (Kind.k3 V H).upCount ph = some (c + 1) else ph ≠ 0 ∧ c + 1 = V) ∧ c < 65535
      then (⟨⟨if b then min (ph + 1) 3 else 0, b, true⟩, 0⟩, true) else (⟨⟨ph, b, false⟩, if c < 65535 then c + 1 else c⟩, false)) := by
  unfold process3
  simp only [h, UINT16_MAX]
  by_cases hc : c < 65535
  · simp only [hc, if_true, and_true]
    rcases hph : ph with _ | _ | _ | _
    case succ.succ.succ => omega
    all_goals cases b <;> simp only [getNext, table3, finish, Kind.upCount, bind, Except.bind, Nat.reduceMul, Nat.reduceAdd, if_true, if_false, Bool.false_eq_true, List.getElem?_cons_succ, List.getElem?_cons_zero] <;>
      (try simp only [some_flip]) <;> simp <;> split_ifs <;> simp_all
  · simp [hc, finish]

theorem process2_eq {s : St} {b : Bool} {ph c : Nat} (h : addSample s b = ⟨⟨ph, b, false⟩, c⟩) (hp : ph ≤ 1) (V : Nat) :
    process2 s b V = .ok (if (if b then (Kind.k2 V).upCount ph = some (c + 1) else ph ≠ 0 ∧ c + 1 = V) ∧ c < 65535
      then (⟨⟨if b then min (ph + 1) 3 else 0, b, true⟩, 0⟩, true) else (⟨⟨ph, b, false⟩, if c < 65535 then c + 1 else c⟩, false)) := by
  unfold process2
  simp only [h, UINT16_MAX]
  by_cases hc : c < 65535
  · simp only [hc, if_true, and_true]
    rcases hph : ph with _ | _ | _
    case succ.succ => omega
    all_goals cases b <;> simp only [getNext, table2, finish, Kind.upCount, bind, Except.bind, Nat.reduceMul, Nat.reduceAdd, if_true, if_false, Bool.false_eq_true, List.getElem?_cons_succ, List.getElem?_cons_zero] <;>
      (try simp only [some_flip]) <;> simp <;> split_ifs <;> simp_all
  · simp [hc, finish]

/-- The common result of the three `process` functions. -/
def outcome (K : Kind) (ph : Nat) (b : Bool) (c : Nat) : St × Bool :=
  if (if b then K.upCount ph = some (c + 1) else ph ≠ 0 ∧ c + 1 = K.valid) ∧ c < 65535
      then (⟨⟨if b then min (ph + 1) 3 else 0, b, true⟩, 0⟩, true) else (⟨⟨ph, b, false⟩, if c < 65535 then c + 1 else c⟩, false)

theorem outcome_ok {o : Obj} {s : Spec} (h : Rel o s) {b : Bool} {c : Nat} (hc : c + 1 = min (runLen b (b :: s.since)) 65536) :
    (specStep s (.add b)).2 = some (outcome o.kind s.phase b c).2 ∧ Rel { o with st := (outcome o.kind s.phase b c).1 } (specStep s (.add b)).1 := by
  obtain ⟨h1, h2, h3, h4, h5, h6, h7⟩ := h
  have htop : ∀ m, o.kind.upCount s.phase = some m → min (s.phase + 1) 3 ≤ o.kind.top ∧ m ≤ 65535 := by
    intro m hm
    cases hk : o.kind <;> rw [hk] at h2 h4 hm <;> simp only [Kind.Fits, Kind.top] at h2 h4 ⊢ <;> rcases hph : s.phase with _ | _ | _ | _ <;> rw [hph] at hm h4 <;>
      simp only [Kind.upCount, Option.some.injEq, reduceCtorEq] at hm <;> omega
  have hval : o.kind.valid ≤ 65535 := by
    cases hk : o.kind <;> rw [hk] at h2 <;> simp only [Kind.Fits] at h2 <;> simp only [Kind.valid] <;> omega
  unfold outcome specStep
  rw [← h1]
  cases b with
  | true =>
    simp only [if_true]
    by_cases hu : o.kind.upCount s.phase = some (runLen true (true :: s.since))
    · have := htop _ hu
      have hcc : c + 1 = runLen true (true :: s.since) := by omega
      rw [if_pos hu, if_pos ⟨by rw [hcc]; exact hu, by omega⟩]
      exact ⟨rfl, rfl, h2, rfl, this.1, rfl, rfl, .inl rfl⟩
    · have hn : ¬ (o.kind.upCount s.phase = some (c + 1) ∧ c < 65535) := by
        rintro ⟨e1, e2⟩; exact hu (by rw [e1]; congr 1; omega)
      rw [if_neg hu, if_neg hn]
      refine ⟨rfl, rfl, h2, rfl, h4, rfl, ?_, .inr rfl⟩
      show (if c < 65535 then c + 1 else c) = min (runLen true (true :: s.since)) 65535
      split <;> omega
  | false =>
    simp only [Bool.false_eq_true, if_false]
    by_cases hu : s.phase ≠ 0 ∧ runLen false (false :: s.since) = o.kind.valid
    · have hcc : c + 1 = runLen false (false :: s.since) := by omega
      rw [if_pos hu, if_pos ⟨⟨hu.1, by omega⟩, by omega⟩]
      exact ⟨rfl, rfl, h2, rfl, Nat.zero_le _, rfl, rfl, .inl rfl⟩
    · have hn : ¬ ((s.phase ≠ 0 ∧ c + 1 = o.kind.valid) ∧ c < 65535) := by omega
      rw [if_neg hu, if_neg hn]
      refine ⟨rfl, rfl, h2, rfl, h4, rfl, ?_, .inr rfl⟩
      show (if c < 65535 then c + 1 else c) = min (runLen false (false :: s.since)) 65535
      split <;> omega

theorem var_upCount (V H R n : Nat) : (Kind.var V H R).upCount n = (Kind.k4 V H R).upCount n := by rcases n with _ | _ | _ <;> rfl

theorem step_ok {o : Obj} {s : Spec} (h : Rel o s) (p : Op) (hp : p.Fits) :
    ∃ o', step o p = .ok (o', (specStep s p).2) ∧ Rel o' (specStep s p).1 := by
  cases p with
  | set V H R =>
    obtain ⟨h1, h2, h3, h4, h5, h6, h7⟩ := h
    refine ⟨_, rfl, ?_⟩
    unfold specStep
    rw [← h1]
    cases hk : o.kind with
    | var a b c => exact ⟨rfl, hp, h3, by rw [hk] at h4; exact h4, h5, h6, h7⟩
    | k4 a b c => exact ⟨h1, h2, h3, h4, h5, h6, h7⟩
    | k3 a b => exact ⟨h1, h2, h3, h4, h5, h6, h7⟩
    | k2 a => exact ⟨h1, h2, h3, h4, h5, h6, h7⟩
  | add b =>
    obtain ⟨hf, hc⟩ := count_after h b
    have hq : addSample o.st b = ⟨⟨s.phase, b, false⟩, (addSample o.st b).count⟩ := by rw [← hf]
    have ho := outcome_ok h hc
    have h4 := h.2.2.2.1
    rw [ho.1]
    refine ⟨_, ?_, ho.2⟩
    cases hk : o.kind <;> rw [hk] at h4 <;> simp only [Kind.top] at h4 <;> simp only [step, hk]
    · rw [process4_eq hq h4]; rfl
    · rw [process3_eq hq h4]; rfl
    · rw [process2_eq hq h4]; rfl
    · rw [process4_eq hq h4, ← var_upCount]; rfl

theorem run_ok {o : Obj} {s : Spec} (h : Rel o s) (ps : List Op) (hp : ∀ p ∈ ps, p.Fits) : run o ps = .ok (specRun s ps) := by
  induction ps generalizing o s with
  | nil => rfl
  | cons p ps ih =>
    obtain ⟨o', h1, h2⟩ := step_ok h p (hp p (by simp))
    have := ih h2 (fun q hq => hp q (by simp [hq]))
    simp only [run, h1, bind, Except.bind, this, specRun]
    have hph : (specStep s p).1.phase ≤ 3 := by
      have := h2.2.2.2.1; rw [h2.1] at this
      refine Nat.le_trans this ?_
      cases (specStep s p).1.kind <;> simp [Kind.top]
    simp only [hasChanged, isSet, isHeld, isRepeating, h2.2.2.1, h2.2.2.2.2.1]
    congr 5
    generalize (specStep s p).1.phase = n at hph ⊢
    interval_cases n <;> rfl

/-- C41: whatever the samples (and calls of `set` on a variable debouncer) and the 16 bit counts, a freshly constructed debouncer returns from every `add`, and shows through
`has_changed`, `is_set`, `is_held`, `is_repeating` after every call, exactly what the specification says: the state advances clear → set → held → repeating exactly at the
configured number of consecutive `true` samples since the last event, repeats at every further repeat count, and falls back to clear exactly at the valid count of consecutive
`false` samples. -/
theorem C41_debounce_refines (k : Kind) (hk : k.Fits) (initial : Bool) (ps : List Op) (hp : ∀ p ∈ ps, p.Fits) :
    run ⟨k, init initial⟩ ps = .ok (specRun ⟨k, if initial then 1 else 0, [], false⟩ ps) := by
  refine run_ok ⟨rfl, hk, rfl, ?_, rfl, rfl, .inl rfl⟩ ps hp
  cases initial <;> cases k <;> simp [Kind.top]

/-! ## Consequences for the history of samples -/

/-- The object after a history of samples (oldest first). -/
def after (o : Obj) : List Bool → Res Obj
  | [] => .ok o
  | b :: bs => do after (← step o (.add b)).1 bs

def specAfter (s : Spec) : List Bool → Spec
  | [] => s
  | b :: bs => specAfter (specStep s (.add b)).1 bs

theorem after_ok {o : Obj} {s : Spec} (h : Rel o s) (bs : List Bool) : ∃ o', after o bs = .ok o' ∧ Rel o' (specAfter s bs) := by
  induction bs generalizing o s with
  | nil => exact ⟨o, rfl, h⟩
  | cons b bs ih =>
    obtain ⟨o', h1, h2⟩ := step_ok h (.add b) trivial
    obtain ⟨o2, h3, h4⟩ := ih h2
    exact ⟨o2, by simp only [after, h1, bind, Except.bind]; exact h3, h4⟩

theorem specAfter_concat (s : Spec) (bs : List Bool) (b : Bool) : specAfter s (bs ++ [b]) = (specStep (specAfter s bs) (.add b)).1 := by
  induction bs generalizing s with
  | nil => rfl
  | cons c cs ih => exact ih _

theorem rel_init {k : Kind} (hk : k.Fits) (initial : Bool) : Rel ⟨k, init initial⟩ ⟨k, if initial then 1 else 0, [], false⟩ := by
  refine ⟨rfl, hk, rfl, ?_, rfl, rfl, .inl rfl⟩
  cases initial <;> cases k <;> simp [Kind.top]

theorem upCount_zero (k : Kind) : k.upCount 0 = some k.valid := by cases k <;> rfl

/-- Invariant over the whole history `h` (newest first). -/
def HistInv (k : Kind) (s : Spec) (h : List Bool) : Prop :=
  s.kind = k ∧ (s.phase = 0 → runLen true h < k.valid ∧ runLen true h = runLen true s.since) ∧ (s.phase ≠ 0 → runLen false h < k.valid ∧ runLen false h = runLen false s.since)

theorem histInv_step {k : Kind} {s : Spec} {h : List Bool} (hv : 1 ≤ k.valid) (hi : HistInv k s h) (b : Bool) : HistInv k (specStep s (.add b)).1 (b :: h) := by
  obtain ⟨h1, h2, h3⟩ := hi
  unfold specStep
  cases b with
  | true =>
    simp only [if_true]
    by_cases hu : s.kind.upCount s.phase = some (runLen true (true :: s.since))
    · rw [if_pos hu]
      refine ⟨h1, fun h => ?_, fun _ => ⟨by simp [runLen]; omega, by simp [runLen]⟩⟩
      simp only at h; omega
    · rw [if_neg hu]
      refine ⟨h1, fun hp => ?_, fun _ => ⟨by simp [runLen]; omega, by simp [runLen]⟩⟩
      simp only at hp
      have := h2 hp
      rw [hp, h1, upCount_zero] at hu
      simp only [runLen, if_true, Option.some.injEq] at hu ⊢
      omega
  | false =>
    simp only [Bool.false_eq_true, if_false]
    by_cases hu : s.phase ≠ 0 ∧ runLen false (false :: s.since) = s.kind.valid
    · rw [if_pos hu]
      exact ⟨h1, fun _ => ⟨by simp [runLen]; omega, by simp [runLen]⟩, fun h => absurd rfl h⟩
    · rw [if_neg hu]
      refine ⟨h1, fun _ => ⟨by simp [runLen]; omega, by simp [runLen]⟩, fun hp => ?_⟩
      simp only at hp
      have := h3 hp
      rw [h1] at hu
      simp only [runLen, if_true] at hu ⊢
      omega

theorem histInv_after {k : Kind} (hv : 1 ≤ k.valid) (initial : Bool) (bs : List Bool) : HistInv k (specAfter ⟨k, if initial then 1 else 0, [], false⟩ bs) bs.reverse := by
  induction bs using List.reverseRecOn with
  | nil => exact ⟨rfl, fun _ => ⟨hv, rfl⟩, fun _ => ⟨hv, rfl⟩⟩
  | append_singleton bs b ih =>
    rw [specAfter_concat, List.reverse_append]; exact histInv_step hv ih b

theorem runLen_replicate (b : Bool) (n : Nat) (l : List Bool) : n ≤ runLen b (List.replicate n b ++ l) := by
  induction n with
  | zero => omega
  | succ n ih => simp only [List.replicate_succ, List.cons_append, runLen, if_true]; omega

theorem runLen_take (b : Bool) (l : List Bool) : l.take (runLen b l) = List.replicate (runLen b l) b := by
  induction l with
  | nil => rfl
  | cons x xs ih =>
    simp only [runLen]
    split_ifs with h
    · subst h; simp only [List.take_succ_cons, List.replicate_succ, ih]
    · rfl

theorem isSet_rel {o : Obj} {s : Spec} (h : Rel o s) : isSet o = decide (s.phase ≠ 0) := by
  simp only [isSet, h.2.2.1, Nat.pos_iff_ne_zero, gt_iff_lt]

/-- C41 (responsive): after any history that ends with `valid` equal samples, `is_set()` is that sample. -/
theorem C41_responsive {k : Kind} (hk : k.Fits) (hv : 1 ≤ k.valid) (initial : Bool) (pre : List Bool) (b : Bool) :
    ∃ o, after ⟨k, init initial⟩ (pre ++ List.replicate k.valid b) = .ok o ∧ isSet o = b := by
  obtain ⟨o, h1, h2⟩ := after_ok (rel_init hk initial) (pre ++ List.replicate k.valid b)
  refine ⟨o, h1, ?_⟩
  have hi := histInv_after hv initial (pre ++ List.replicate k.valid b)
  rw [List.reverse_append, List.reverse_replicate] at hi
  have hr := runLen_replicate b k.valid pre.reverse
  rw [isSet_rel h2]
  cases b with
  | true => simp only [decide_eq_true_eq]; intro h0; have := hi.2.1 h0; omega
  | false => simp only [decide_eq_false_iff_not, Decidable.not_not]; by_contra h0; have := hi.2.2 h0; omega

/-- C41 (no glitches): `is_set()` changes only at a sample that completes `valid` equal samples, and it then becomes that sample; `add` returns true there. -/
theorem C41_no_glitch {k : Kind} (hk : k.Fits) (initial : Bool) (hist : List Bool) (b : Bool) :
    ∃ o r, after ⟨k, init initial⟩ hist = .ok o ∧ step o (.add b) = .ok r ∧
      (isSet r.1 ≠ isSet o → isSet r.1 = b ∧ r.2 = some true ∧ hasChanged r.1 = true ∧ ∃ pre, hist ++ [b] = pre ++ List.replicate k.valid b) := by
  obtain ⟨o, h1, h2⟩ := after_ok (rel_init hk initial) hist
  obtain ⟨o', h3, h4⟩ := step_ok h2 (.add b) trivial
  refine ⟨o, _, h1, h3, ?_⟩
  have hkind : ∀ (l : List Bool) (s : Spec), (specAfter s l).kind = s.kind := by
    intro l
    induction l with
    | nil => intro s; rfl
    | cons c cs ih => intro s; rw [specAfter, ih]; unfold specStep; cases c <;> simp <;> split_ifs <;> rfl
  have hsince : ∀ l : List Bool, ∃ m, l.reverse = (specAfter ⟨k, if initial then 1 else 0, [], false⟩ l).since ++ m := by
    intro l
    induction l using List.reverseRecOn with
    | nil => exact ⟨[], rfl⟩
    | append_singleton l c ih =>
      obtain ⟨m, hm⟩ := ih
      rw [specAfter_concat, List.reverse_append, hm]
      unfold specStep
      cases c <;> simp <;> split_ifs <;> simp
  obtain ⟨m, hm⟩ := hsince hist
  have hk2 := hkind hist ⟨k, if initial then 1 else 0, [], false⟩
  simp only at hk2
  rw [isSet_rel h2, isSet_rel h4]
  have hch : hasChanged o' = (specStep (specAfter ⟨k, if initial then 1 else 0, [], false⟩ hist) (.add b)).1.changed := h4.2.2.2.2.1
  simp only [hch]
  generalize specAfter ⟨k, if initial then 1 else 0, [], false⟩ hist = s at *
  have fin : ∀ b : Bool, runLen b (b :: s.since) = k.valid → ∃ pre, hist ++ [b] = pre ++ List.replicate k.valid b := by
    intro b hr
    have h5 := runLen_take b (b :: s.since)
    rw [hr] at h5
    refine ⟨(((b :: s.since).drop k.valid) ++ m).reverse, ?_⟩
    have h6 : b :: hist.reverse = List.replicate k.valid b ++ ((b :: s.since).drop k.valid ++ m) := by
      rw [← h5, ← List.append_assoc, List.take_append_drop, hm]; rfl
    have h7 := congrArg List.reverse h6
    simpa using h7
  unfold specStep
  cases b with
  | true =>
    simp only [if_true]
    by_cases hu : s.kind.upCount s.phase = some (runLen true (true :: s.since))
    · rw [if_pos hu]
      intro hne
      refine ⟨by simp, rfl, rfl, ?_⟩
      have h0 : s.phase = 0 := by by_contra h0; exact hne (by simp [h0])
      rw [h0, hk2, upCount_zero, Option.some.injEq] at hu
      exact fin _ hu.symm
    · rw [if_neg hu]; intro hne; exact absurd rfl hne
  | false =>
    simp only [Bool.false_eq_true, if_false]
    by_cases hu : s.phase ≠ 0 ∧ runLen false (false :: s.since) = s.kind.valid
    · rw [if_pos hu]; intro _
      exact ⟨by simp, rfl, rfl, fin _ (by rw [← hk2]; exact hu.2)⟩
    · rw [if_neg hu]; intro hne; exact absurd rfl hne

/-! ## Examples -/
example : (Kind.k4 2 3 1).Fits ∧ 1 ≤ (Kind.k4 2 3 1).valid := by decide
/-- press (2), hold (3 more), first repeat (1 more), further repeats, release (2) -/
example : run ⟨.k4 2 3 1, init false⟩ ([true, false, true, true, true, true, true, true, true, false, false].map .add) =
    .ok [(some false, false, false, false, false), (some false, false, false, false, false), (some false, false, false, false, false),
      (some true, true, true, false, false), (some false, false, true, false, false), (some false, false, true, false, false), (some true, true, true, true, false),
      (some true, true, true, true, true), (some true, true, true, true, true), (some false, false, true, true, true), (some true, true, false, false, false)] := by rfl
example : ∃ o, after ⟨.k2 3, init true⟩ ([true, false] ++ List.replicate 3 false) = .ok o ∧ isSet o = false := C41_responsive (by decide) (by decide) true _ false

end Etl.Debounce
