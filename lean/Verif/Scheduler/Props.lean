import Verif.Scheduler.Model
import Verif.Algo.Partition
import Mathlib.Tactic.ByContra
import Mathlib.Data.List.Basic
import Mathlib.Data.List.Nodup

/-!
# C30: the scheduler
-/
namespace Etl.Scheduler

variable {σ : Type}

/-! ## The task list -/

/-- The tasks of `added`, ordered by priority, highest first, and in order of addition among equals.  There is only one such list (`ordered_unique`). -/
structure Ordered (prio : Nat → Nat) (added tasks : List Nat) : Prop where
  desc : tasks.Pairwise (fun a b => prio b ≤ prio a)
  fifo : ∀ p, tasks.filter (fun t => decide (prio t = p)) = added.filter (fun t => decide (prio t = p))

theorem Ordered.mem {prio : Nat → Nat} {added tasks : List Nat} (h : Ordered prio added tasks) (t : Nat) : t ∈ tasks ↔ t ∈ added := by
  have := h.fifo (prio t)
  constructor
  · intro ht
    have : t ∈ added.filter (fun x => decide (prio x = prio t)) := by rw [← this]; simp [ht]
    exact (List.mem_filter.1 this).1
  · intro ht
    have : t ∈ tasks.filter (fun x => decide (prio x = prio t)) := by rw [this]; simp [ht]
    exact (List.mem_filter.1 this).1

theorem Ordered.count {prio : Nat → Nat} {added tasks : List Nat} (h : Ordered prio added tasks) (t : Nat) : tasks.count t = added.count t := by
  have e : ∀ l : List Nat, l.count t = (l.filter (fun x => decide (prio x = prio t))).count t := by
    intro l; rw [List.count_filter]; simp
  rw [e tasks, e added, h.fifo]

theorem Ordered.perm {prio : Nat → Nat} {added tasks : List Nat} (h : Ordered prio added tasks) : tasks.Perm added := List.perm_iff_count.2 h.count

theorem ordered_unique {prio : Nat → Nat} {added : List Nat} : ∀ {l l' : List Nat}, Ordered prio added l → Ordered prio added l' → l = l' := by
  intro l
  induction l generalizing added with
  | nil =>
    intro l' h h'
    have : l'.length = 0 := by rw [h'.perm.length_eq, ← h.perm.length_eq]; rfl
    rw [List.length_eq_zero_iff.1 this]
  | cons a l ih =>
    intro l' h h'
    cases l' with
    | nil => have := h'.perm.length_eq.trans h.perm.length_eq.symm; simp at this
    | cons b l' =>
      have hb : b ∈ a :: l := (h.mem b).2 ((h'.mem b).1 (by simp))
      have ha : a ∈ b :: l' := (h'.mem a).2 ((h.mem a).1 (by simp))
      have h1 : prio b ≤ prio a := by
        rcases List.mem_cons.1 hb with rfl | hb
        · exact Nat.le_refl _
        · exact (List.pairwise_cons.1 h.desc).1 b hb
      have h2 : prio a ≤ prio b := by
        rcases List.mem_cons.1 ha with rfl | ha
        · exact Nat.le_refl _
        · exact (List.pairwise_cons.1 h'.desc).1 a ha
      have hp : prio a = prio b := by omega
      have ef := (h.fifo (prio a)).trans (h'.fifo (prio a)).symm
      simp only [List.filter_cons, decide_true, if_true, ← hp] at ef
      injection ef with e1 e2
      subst e1
      have key : Ordered prio l l' := by
        refine ⟨(List.pairwise_cons.1 h'.desc).2, fun p => ?_⟩
        by_cases hpp : prio a = p
        · subst hpp; exact e2.symm
        · have := (h.fifo p).trans (h'.fifo p).symm
          simpa [List.filter_cons, hpp] using this.symm
      rw [ih ⟨(List.pairwise_cons.1 h.desc).2, fun _ => rfl⟩ key]

theorem addTask_spec {y : Sys σ} {added tasks : List Nat} (cap t : Nat) (h : Ordered y.prio added tasks) :
    if tasks.length < cap then ∃ l, addTask y cap tasks t = .ok (some l) ∧ Ordered y.prio (added ++ [t]) l else addTask y cap tasks t = .ok none := by
  by_cases hc : tasks.length < cap
  · rw [if_pos hc, addTask, if_pos hc]
    obtain ⟨r, e, hr, h1, h2⟩ := Algo.upperBound_filter tasks (y.prio t) (fun p x => decide (p > y.prio x)) (h.desc.imp (by intro a b hab; simp; omega))
    rw [e]
    refine ⟨_, rfl, ?_, ?_⟩
    · rw [List.pairwise_append]
      refine ⟨h.desc.sublist (List.take_sublist _ _), ?_, ?_⟩
      · rw [List.pairwise_cons]
        refine ⟨fun b hb => ?_, h.desc.sublist (List.drop_sublist _ _)⟩
        rw [h2] at hb; simp at hb; omega
      · intro a ha b hb
        have ha' := ha
        rw [h1] at ha'; simp at ha'
        rcases List.mem_cons.1 hb with rfl | hb
        · omega
        · rw [h2] at hb; simp at hb; omega
    · intro p
      rw [List.filter_append, List.filter_cons, List.filter_append, ← h.fifo p]
      have hsplit : (tasks.take r).filter (fun x => decide (y.prio x = p)) ++ (tasks.drop r).filter (fun x => decide (y.prio x = p)) = tasks.filter (fun x => decide (y.prio x = p)) := by
        rw [← List.filter_append, List.take_append_drop]
      by_cases hp : y.prio t = p
      · have : (tasks.drop r).filter (fun x => decide (y.prio x = p)) = [] := by
          rw [List.filter_eq_nil_iff]; intro x hx; rw [h2] at hx; simp at hx ⊢; omega
        rw [this, List.append_nil] at hsplit
        simp only [hp, decide_true, if_true, this, hsplit, List.filter_cons, List.filter_nil]
      · simp only [hp, decide_false, Bool.false_eq_true, if_false, hsplit, List.filter_cons, List.filter_nil, List.append_nil]
  · rw [if_neg hc, addTask, if_neg hc]

/-- **C30.** Whatever tasks are added, in one call or many: every one of the first `cap` is kept, and the list is ordered by priority, and by order of addition among
equals; adding to a full list fires the assert and changes nothing. -/
theorem C30_add (y : Sys σ) (cap : Nat) : ∀ (ts added tasks : List Nat), Ordered y.prio added tasks → tasks.length ≤ cap →
    ∃ l, addTaskList y cap tasks ts = .ok (l, decide (tasks.length + ts.length ≤ cap)) ∧ Ordered y.prio (added ++ ts.take (cap - tasks.length)) l := by
  intro ts
  induction ts with
  | nil => intro added tasks h hc; exact ⟨tasks, by simp [addTaskList, hc], by simpa using h⟩
  | cons t ts ih =>
    intro added tasks h hc
    have := addTask_spec cap t h
    by_cases hlt : tasks.length < cap
    · rw [if_pos hlt] at this
      obtain ⟨l, e, ho⟩ := this
      have hlen : l.length = tasks.length + 1 := by rw [ho.perm.length_eq, List.length_append, ← h.perm.length_eq]; rfl
      obtain ⟨l', e', ho'⟩ := ih (added ++ [t]) l ho (by omega)
      refine ⟨l', ?_, ?_⟩
      · rw [addTaskList, e]
        simp only
        rw [e', show l.length + ts.length = tasks.length + (t :: ts).length by rw [hlen, List.length_cons]; omega]
      · rw [hlen] at ho'
        obtain ⟨k, hk⟩ : ∃ k, cap - tasks.length = k + 1 := ⟨cap - tasks.length - 1, by omega⟩
        rw [hk, List.take_succ_cons]
        rw [show cap - (tasks.length + 1) = k by omega] at ho'
        simpa using ho'
    · rw [if_neg hlt] at this
      refine ⟨tasks, ?_, by rw [show cap - tasks.length = 0 by omega]; simpa using h⟩
      rw [addTaskList, this]
      simp only [List.length_cons]
      congr 2
      exact (decide_eq_false (by omega)).symm

/-! ## The policies -/

/-- What a pass did: from the world `u` the tasks `l` did work, in this order. -/
def worked (y : Sys σ) (u : σ) (l : List Nat) : σ := l.foldl (fun u t => (y.process t u).1) u

/-- Some task of `l`, run in this order from `u`, asked the scheduler to exit. -/
def asked (y : Sys σ) : σ → List Nat → Bool
  | _, [] => false
  | u, t :: l => (y.process t u).2 || asked y (y.process t u).1 l

/-- `s` after the tasks `l` were run. -/
def after (y : Sys σ) (s : St σ) (l : List Nat) : St σ := { s with world := worked y s.world l, exit := s.exit || asked y s.world l, log := s.log ++ l }

theorem after_nil (y : Sys σ) (s : St σ) : after y s [] = s := by simp [after, worked, asked]

theorem after_work (y : Sys σ) (s : St σ) (t : Nat) (l : List Nat) : after y (work y t s) l = after y s (t :: l) := by
  simp [after, worked, asked, work, Bool.or_assoc]

/-- The tasks that run in one pass of the "single" policy: each, in order, if it has work when its turn comes. -/
inductive SingleRuns (y : Sys σ) : List Nat → σ → List Nat → Prop
  | nil {u} : SingleRuns y [] u []
  | run {t l u r} : y.request t u > 0 → SingleRuns y l (y.process t u).1 r → SingleRuns y (t :: l) u (t :: r)
  | skip {t l u r} : y.request t u = 0 → SingleRuns y l u r → SingleRuns y (t :: l) u r

/-- Each task runs until it has no more work. -/
inductive MultipleRuns (y : Sys σ) : List Nat → σ → List Nat → Prop
  | nil {u} : MultipleRuns y [] u []
  | run {t l u r} : y.request t u > 0 → MultipleRuns y (t :: l) (y.process t u).1 r → MultipleRuns y (t :: l) u (t :: r)
  | next {t l u r} : y.request t u = 0 → MultipleRuns y l u r → MultipleRuns y (t :: l) u r

theorem singleLoop_spec (y : Sys σ) (tasks : List Nat) : ∀ (fuel i : Nat) (idle : Bool) (s : St σ), i + fuel = tasks.length →
    ∃ l, SingleRuns y (tasks.drop i) s.world l ∧ singleLoop y tasks fuel i idle s = .ok (idle && l.isEmpty, after y s l) := by
  intro fuel
  induction fuel with
  | zero => intro i idle s h; exact ⟨[], by rw [List.drop_eq_nil_of_le (by omega)]; exact .nil, by rw [singleLoop, if_neg (by omega)]; simp [after_nil]⟩
  | succ fuel ih =>
    intro i idle s h
    have hi : i < tasks.length := by omega
    rw [singleLoop, if_pos hi, List.getElem?_eq_getElem hi, List.drop_eq_getElem_cons hi]
    simp only
    by_cases hr : y.request tasks[i] s.world > 0
    · rw [if_pos hr]
      obtain ⟨l, hl, e⟩ := ih (i + 1) false (work y tasks[i] s) (by omega)
      refine ⟨tasks[i] :: l, .run hr hl, ?_⟩
      rw [e, after_work]; simp
    · rw [if_neg hr]
      obtain ⟨l, hl, e⟩ := ih (i + 1) idle s (by omega)
      exact ⟨l, .skip (by omega) hl, e⟩

/-- **C30**, sequential_single: one pass runs one unit of each task that has work when its turn comes, in order; it is idle iff none had. -/
theorem C30_single (y : Sys σ) (tasks : List Nat) (s : St σ) : ∃ l, SingleRuns y tasks s.world l ∧ single y tasks s = .ok (l.isEmpty, after y s l) := by
  have := singleLoop_spec y tasks tasks.length 0 true s (by omega)
  simpa [single] using this

/-- Working changes only the amount of work of the task itself. -/
def Independent (y : Sys σ) : Prop := ∀ t t' u, t ≠ t' → y.request t' (y.process t u).1 = y.request t' u

theorem SingleRuns.filter {y : Sys σ} (hi : Independent y) {tasks : List Nat} {u : σ} {l : List Nat} (h : SingleRuns y tasks u l) (hn : tasks.Nodup) :
    l = tasks.filter (fun t => decide (y.request t u > 0)) := by
  induction h with
  | nil => rfl
  | @run t l u r hr _ ih =>
    rw [List.nodup_cons] at hn
    rw [List.filter_cons, decide_eq_true hr, if_pos rfl, ih hn.2]
    congr 1
    apply List.filter_congr
    intro x hx
    rw [hi t x u (by rintro rfl; exact hn.1 hx)]
  | @skip t l u r hr _ ih =>
    rw [List.nodup_cons] at hn
    rw [List.filter_cons, ih hn.2]
    simp [hr]

/-- **C30**, sequential_single: for independent tasks, no task with work starves: exactly those that had work at the start are run, once each. -/
theorem C30_single_fair {y : Sys σ} (hi : Independent y) (tasks : List Nat) (hn : tasks.Nodup) (s : St σ) :
    single y tasks s = .ok ((tasks.filter (fun t => decide (y.request t s.world > 0))).isEmpty, after y s (tasks.filter (fun t => decide (y.request t s.world > 0)))) := by
  obtain ⟨l, hl, e⟩ := C30_single y tasks s
  rw [hl.filter hi hn] at e; exact e

theorem drain_spec (y : Sys σ) (t : Nat) (l : List Nat) : ∀ (fuel : Nat) (idle idle' : Bool) (s s' : St σ), drain y t fuel idle s = .ok (idle', s') →
    ∃ k, s' = after y s (List.replicate k t) ∧ idle' = (idle && decide (k = 0)) ∧ ∀ r, MultipleRuns y l s'.world r → MultipleRuns y (t :: l) s.world (List.replicate k t ++ r) := by
  intro fuel
  induction fuel with
  | zero =>
    intro idle idle' s s' h
    rw [drain] at h
    by_cases hr : y.request t s.world > 0
    · rw [if_pos hr] at h; cases h
    · rw [if_neg hr] at h; cases h
      exact ⟨0, by simp [after_nil], by simp, fun r hm => .next (by omega) hm⟩
  | succ fuel ih =>
    intro idle idle' s s' h
    rw [drain] at h
    by_cases hr : y.request t s.world > 0
    · rw [if_pos hr] at h
      obtain ⟨k, e, hi, hm⟩ := ih _ _ _ _ h
      refine ⟨k + 1, by rw [List.replicate_succ, ← after_work]; exact e, by simpa using hi, fun r h => ?_⟩
      rw [List.replicate_succ]
      exact .run hr (hm r h)
    · rw [if_neg hr] at h; cases h
      exact ⟨0, by simp [after_nil], by simp, fun r hm => .next (by omega) hm⟩

theorem after_append (y : Sys σ) (s : St σ) (l l' : List Nat) : after y (after y s l) l' = after y s (l ++ l') := by
  induction l generalizing s with
  | nil => simp [after_nil]
  | cons t l ih => rw [← after_work, ih, List.cons_append, after_work]

theorem multipleLoop_spec (y : Sys σ) (tasks : List Nat) (bound : Nat) : ∀ (fuel i : Nat) (idle idle' : Bool) (s s' : St σ), i + fuel = tasks.length →
    multipleLoop y tasks bound fuel i idle s = .ok (idle', s') → ∃ l, MultipleRuns y (tasks.drop i) s.world l ∧ s' = after y s l ∧ idle' = (idle && l.isEmpty) := by
  intro fuel
  induction fuel with
  | zero =>
    intro i idle idle' s s' h e
    rw [multipleLoop, if_neg (by omega)] at e; cases e
    exact ⟨[], by rw [List.drop_eq_nil_of_le (by omega)]; exact .nil, by simp [after_nil], by simp⟩
  | succ fuel ih =>
    intro i idle idle' s s' h e
    have hi : i < tasks.length := by omega
    rw [multipleLoop, if_pos hi, List.getElem?_eq_getElem hi] at e
    simp only at e
    cases hd : drain y tasks[i] bound idle s with
    | error u => rw [hd] at e; cases e
    | ok p =>
      obtain ⟨i1, s1⟩ := p
      rw [hd] at e
      simp only at e
      obtain ⟨k, e1, hi1, hm⟩ := drain_spec y tasks[i] (tasks.drop (i + 1)) bound idle i1 s s1 hd
      obtain ⟨l, hl, e2, hi2⟩ := ih (i + 1) i1 idle' s1 s' (by omega) e
      refine ⟨List.replicate k tasks[i] ++ l, by rw [List.drop_eq_getElem_cons hi]; exact hm l hl, by rw [e2, e1, after_append], ?_⟩
      rw [hi2, hi1]
      cases k <;> simp [List.replicate_succ]

/-- **C30**, sequential_multiple: a pass that ends ran each task, in order, until it had no work; it is idle iff nothing ran. -/
theorem C30_multiple (y : Sys σ) (bound : Nat) (tasks : List Nat) (s s' : St σ) (idle : Bool) (h : multiple y bound tasks s = .ok (idle, s')) :
    ∃ l, MultipleRuns y tasks s.world l ∧ s' = after y s l ∧ idle = l.isEmpty := by
  have := multipleLoop_spec y tasks bound tasks.length 0 true idle s s' (by omega) h
  simpa using this

theorem drain_ends (y : Sys σ) (t : Nat) (h1 : ∀ u, y.request t u > 0 → y.request t (y.process t u).1 < y.request t u) : ∀ (fuel : Nat) (idle : Bool) (s : St σ), y.request t s.world ≤ fuel →
    ∃ r, drain y t fuel idle s = .ok r := by
  intro fuel
  induction fuel with
  | zero => intro idle s h; rw [drain, if_neg (by omega)]; exact ⟨_, rfl⟩
  | succ fuel ih =>
    intro idle s h
    rw [drain]
    by_cases hr : y.request t s.world > 0
    · rw [if_pos hr]; apply ih; have := h1 s.world hr; show y.request t (y.process t s.world).1 ≤ fuel; omega
    · rw [if_neg hr]; exact ⟨_, rfl⟩

/-- **C30**, sequential_multiple: when working reduces a task's amount of work, and does not change the others', the pass ends, and no task of the list has any work left. -/
theorem C30_multiple_drains {y : Sys σ} (hi : Independent y) (hdec : ∀ t u, y.request t u > 0 → y.request t (y.process t u).1 < y.request t u) (tasks : List Nat) (s : St σ) (bound : Nat)
    (hb : ∀ t ∈ tasks, y.request t s.world ≤ bound) :
    ∃ idle s', multiple y bound tasks s = .ok (idle, s') ∧ (∀ t ∈ tasks, y.request t s'.world = 0) ∧ ∀ t, t ∉ tasks → y.request t s'.world = y.request t s.world := by
  have hw : ∀ t u, y.request t (y.process t u).1 ≤ y.request t u ∨ y.request t u = 0 := fun t u => by
    by_cases h : y.request t u > 0
    · exact .inl (Nat.le_of_lt (hdec t u h))
    · exact .inr (by omega)
  have runs_le : ∀ {l : List Nat} {u : σ} {r : List Nat}, MultipleRuns y l u r → (∀ t, y.request t (worked y u r) ≤ y.request t u) ∧ (∀ t ∈ l, y.request t (worked y u r) = 0) ∧
      ∀ t, t ∉ l → y.request t (worked y u r) = y.request t u := by
    intro l u r h
    induction h with
    | nil => exact ⟨fun t => Nat.le_refl _, by simp, fun _ _ => rfl⟩
    | @run t l u r hr _ ih =>
      refine ⟨fun t' => Nat.le_trans (ih.1 t') ?_, ih.2.1, fun t' ht' => (ih.2.2 t' ht').trans ?_⟩
      · by_cases htt : t = t'
        · subst htt; exact Nat.le_of_lt (hdec t u hr)
        · rw [hi t t' u htt]; exact Nat.le_refl _
      · exact hi t t' u (by rintro rfl; simp at ht')
    | @next t l u r hr _ ih =>
      refine ⟨ih.1, fun t' ht' => ?_, fun t' ht' => ih.2.2 t' (fun h => ht' (by simp [h]))⟩
      rcases List.mem_cons.1 ht' with rfl | ht'
      · have := ih.1 t'; omega
      · exact ih.2.1 t' ht'
  have ends : ∀ (fuel i : Nat) (idle : Bool) (s : St σ), i + fuel = tasks.length → (∀ t ∈ tasks, y.request t s.world ≤ bound) → ∃ r, multipleLoop y tasks bound fuel i idle s = .ok r := by
    intro fuel
    induction fuel with
    | zero => intro i idle s h _; rw [multipleLoop, if_neg (by omega)]; exact ⟨_, rfl⟩
    | succ fuel ih =>
      intro i idle s h hb
      have hlt : i < tasks.length := by omega
      rw [multipleLoop, if_pos hlt, List.getElem?_eq_getElem hlt]
      obtain ⟨⟨i1, s1⟩, hd⟩ := drain_ends y tasks[i] (hdec tasks[i]) bound idle s (hb _ (List.getElem_mem hlt))
      simp only [hd]
      apply ih (i + 1) i1 s1 (by omega)
      obtain ⟨k, e1, _, hm⟩ := drain_spec y tasks[i] [] bound idle i1 s s1 hd
      have := runs_le (hm [] .nil)
      intro t ht
      have h1 := this.1 t
      have : s1.world = worked y s.world (List.replicate k tasks[i] ++ []) := by rw [e1]; simp [after]
      rw [this]; exact Nat.le_trans h1 (hb t ht)
  obtain ⟨⟨idle, s'⟩, e⟩ := ends tasks.length 0 true s (by omega) hb
  obtain ⟨l, hl, e1, _⟩ := C30_multiple y bound tasks s s' idle e
  have := runs_le hl
  refine ⟨idle, s', e, ?_, ?_⟩
  · rw [e1]; exact this.2.1
  · rw [e1]; exact this.2.2

theorem highestLoop_spec (y : Sys σ) (tasks : List Nat) : ∀ (fuel i : Nat) (s : St σ), i + fuel = tasks.length →
    highestLoop y tasks fuel i s = match (tasks.drop i).find? (fun t => decide (y.request t s.world > 0)) with
      | none => .ok (true, s)
      | some t => .ok (false, work y t s) := by
  intro fuel
  induction fuel with
  | zero => intro i s h; rw [highestLoop, if_neg (by omega), List.drop_eq_nil_of_le (by omega)]; rfl
  | succ fuel ih =>
    intro i s h
    have hi : i < tasks.length := by omega
    rw [highestLoop, if_pos hi, List.getElem?_eq_getElem hi, List.drop_eq_getElem_cons hi, List.find?_cons]
    simp only
    by_cases hr : y.request tasks[i] s.world > 0
    · rw [if_pos hr, decide_eq_true hr]
    · rw [if_neg hr, decide_eq_false hr, ih (i + 1) s (by omega)]

/-- **C30**, highest_priority: if some task has work, one unit of one task is run: its priority is the highest among those with work, and it was added first among those with
this priority and work; otherwise nothing is run and the pass is idle. -/
theorem C30_highest (y : Sys σ) (added tasks : List Nat) (ho : Ordered y.prio added tasks) (s : St σ) :
    ((∀ t ∈ added, y.request t s.world = 0) ∧ highest y tasks s = .ok (true, s)) ∨
    ∃ t ∈ added, y.request t s.world > 0 ∧ (∀ t' ∈ added, y.request t' s.world > 0 → y.prio t' ≤ y.prio t) ∧
      added.find? (fun t' => decide (y.prio t' = y.prio t ∧ y.request t' s.world > 0)) = some t ∧ highest y tasks s = .ok (false, after y s [t]) := by
  have e := highestLoop_spec y tasks tasks.length 0 s (by omega)
  rw [List.drop_zero] at e
  rw [highest, e]
  cases hf : tasks.find? (fun t => decide (y.request t s.world > 0)) with
  | none =>
    left
    refine ⟨fun t ht => ?_, rfl⟩
    have := List.find?_eq_none.1 hf t ((ho.mem t).2 ht)
    simpa using this
  | some t =>
    right
    obtain ⟨ht, l1, l2, hl, hbefore⟩ := List.find?_eq_some_iff_append.1 hf
    have ht' : y.request t s.world > 0 := by simpa using ht
    refine ⟨t, (ho.mem t).1 (by rw [hl]; simp), ht', ?_, ?_, by rw [← after_work, after_nil]⟩
    · intro t' hm hr
      have hm := (ho.mem t').2 hm
      rw [hl] at hm
      rcases List.mem_append.1 hm with hm | hm
      · have := hbefore t' hm; simp at this; omega
      · rcases List.mem_cons.1 hm with rfl | hm
        · exact Nat.le_refl _
        · have := ho.desc; rw [hl] at this
          exact (List.pairwise_cons.1 (List.pairwise_append.1 this).2.1).1 t' hm
    · have e1 : ∀ l : List Nat, l.find? (fun t' => decide (y.prio t' = y.prio t ∧ y.request t' s.world > 0)) =
          (l.filter (fun t' => decide (y.prio t' = y.prio t))).find? (fun t' => decide (y.request t' s.world > 0)) := by
        intro l
        rw [List.find?_filter]
        congr 1; funext x; simp
      rw [e1, ← ho.fifo, ← e1, hl, List.find?_append]
      have : l1.find? (fun t' => decide (y.prio t' = y.prio t ∧ y.request t' s.world > 0)) = none := by
        rw [List.find?_eq_none]; intro x hx; have := hbefore x hx; simp at this ⊢; omega
      rw [this]; simp [ht']

theorem mostScan_spec (y : Sys σ) (tasks : List Nat) (s : St σ) : ∀ (fuel i : Nat) (idle : Bool) (mi mw : Nat), i + fuel = tasks.length →
    (idle = true → mw = 0) → (idle = false → mi < i ∧ ∃ t, tasks[mi]? = some t ∧ y.request t s.world = mw ∧ mw > 0) →
    (∀ k t, k < i → tasks[k]? = some t → y.request t s.world ≤ mw ∧ (idle = false → k < mi → y.request t s.world < mw)) →
    ∃ idle' mi' mw', mostScan y tasks s fuel i idle mi mw = .ok (idle', mi') ∧ (idle' = true → mw' = 0) ∧ (idle' = false → ∃ t, tasks[mi']? = some t ∧ y.request t s.world = mw' ∧ mw' > 0) ∧
      ∀ k t, tasks[k]? = some t → y.request t s.world ≤ mw' ∧ (idle' = false → k < mi' → y.request t s.world < mw') := by
  intro fuel
  induction fuel with
  | zero =>
    intro i idle mi mw h h1 h2 h3
    refine ⟨idle, mi, mw, by rw [mostScan, if_neg (by omega)], h1, fun hi => (h2 hi).2, fun k t hk => h3 k t ?_ hk⟩
    have : k < tasks.length := by by_contra hc; rw [List.getElem?_eq_none (by omega)] at hk; cases hk
    omega
  | succ fuel ih =>
    intro i idle mi mw h h1 h2 h3
    have hi : i < tasks.length := by omega
    rw [mostScan, if_pos hi, List.getElem?_eq_getElem hi]
    simp only
    by_cases hr : y.request tasks[i] s.world > mw
    · rw [if_pos hr]
      apply ih (i + 1) false i _ (by omega) (by simp) (fun _ => ⟨by omega, tasks[i], List.getElem?_eq_getElem hi, rfl, by omega⟩)
      intro k t hk hkt
      by_cases hki : k = i
      · subst hki; rw [List.getElem?_eq_getElem hi] at hkt; cases hkt; exact ⟨Nat.le_refl _, fun _ h => by omega⟩
      · have := (h3 k t (by omega) hkt).1
        exact ⟨by omega, fun _ _ => by omega⟩
    · rw [if_neg hr]
      apply ih (i + 1) idle mi mw (by omega) h1 (fun h => ⟨by have := (h2 h).1; omega, (h2 h).2⟩)
      intro k t hk hkt
      by_cases hki : k = i
      · subst hki; rw [List.getElem?_eq_getElem hi] at hkt; cases hkt
        exact ⟨by omega, fun h hlt => by have := (h2 h).1; omega⟩
      · exact h3 k t (by omega) hkt

/-- **C30**, most_work: if some task has work, one unit of one task is run, at position `i` of the list: none has more work, and those before it have less; otherwise the pass is idle. -/
theorem C30_most_work (y : Sys σ) (tasks : List Nat) (s : St σ) :
    ((∀ t ∈ tasks, y.request t s.world = 0) ∧ mostWork y tasks s = .ok (true, s)) ∨
    ∃ (i t : Nat), tasks[i]? = some t ∧ y.request t s.world > 0 ∧ (∀ t' ∈ tasks, y.request t' s.world ≤ y.request t s.world) ∧
      (∀ (k t' : Nat), k < i → tasks[k]? = some t' → y.request t' s.world < y.request t s.world) ∧ mostWork y tasks s = .ok (false, after y s [t]) := by
  obtain ⟨idle, mi, mw, e, h1, h2, h3⟩ := mostScan_spec y tasks s tasks.length 0 true 0 0 (by omega) (fun _ => rfl) (by simp) (by intro k t hk; omega)
  rw [mostWork, e]
  simp only
  have hall : ∀ t ∈ tasks, y.request t s.world ≤ mw := by
    intro t ht
    obtain ⟨k, hk, rfl⟩ := List.getElem_of_mem ht
    exact (h3 k _ (List.getElem?_eq_getElem hk)).1
  cases idle with
  | true =>
    left
    have := h1 rfl
    exact ⟨fun t ht => by have := hall t ht; omega, by simp⟩
  | false =>
    right
    obtain ⟨t, ht, hm, hp⟩ := h2 rfl
    refine ⟨mi, t, ht, by omega, fun t' h' => by rw [hm]; exact hall t' h', fun k t' hk hkt => by rw [hm]; exact (h3 k t' hkt).2 rfl hk, ?_⟩
    simp [ht, ← after_work, after_nil]

/-! ## `start` -/

/-- Any number of rounds, none of them begun after someone asked to exit. -/
inductive Rounds (y : Sys σ) (policy : List Nat → St σ → Res (Bool × St σ)) (tasks : List Nat) : St σ → St σ → Prop
  | done {s} : s.exit = true → Rounds y policy tasks s s
  | more {s s1 s2 idle s3} : s.exit = false → policy tasks s = .ok (idle, s1) → s2 = callback y.watchdog s1 →
      Rounds y policy tasks (if idle then callback y.idle s2 else s2) s3 → Rounds y policy tasks s s3

/-- **C30**: `start` runs the policy again and again, calling the watchdog after each pass and the idle callback after idle ones, and returns exactly when the exit flag is set at the start of a round;
an empty task list is an error. -/
theorem C30_start (y : Sys σ) (policy : List Nat → St σ → Res (Bool × St σ)) (tasks : List Nat) (s s' : St σ) :
    (∃ fuel, start y policy tasks fuel s = .ok (some s')) ↔ tasks ≠ [] ∧ Rounds y policy tasks { s with running := true } s' := by
  have loop : ∀ s s', (∃ fuel, startLoop y policy tasks fuel s = .ok s') ↔ Rounds y policy tasks s s' := by
    intro s s'
    constructor
    · rintro ⟨fuel, e⟩
      induction fuel generalizing s with
      | zero =>
        rw [startLoop] at e
        by_cases hx : s.exit = true
        · rw [if_pos hx] at e; cases e; exact .done hx
        · rw [if_neg hx] at e; cases e
      | succ fuel ih =>
        rw [startLoop] at e
        by_cases hx : s.exit = true
        · rw [if_pos hx] at e; cases e; exact .done hx
        · rw [if_neg hx, round] at e
          cases hp : policy tasks s with
          | error u => rw [hp] at e; cases e
          | ok p =>
            obtain ⟨idle, s1⟩ := p
            rw [hp] at e
            exact .more (by simpa using hx) hp rfl (ih _ e)
    · intro h
      induction h with
      | @done s hx => exact ⟨0, by rw [startLoop, if_pos hx]⟩
      | @more s s1 s2 idle s3 hx hp h2 _ ih =>
        obtain ⟨fuel, e⟩ := ih
        refine ⟨fuel + 1, ?_⟩
        rw [startLoop, hx, round, hp]
        subst h2; exact e
  rw [← loop]
  constructor
  · rintro ⟨fuel, e⟩
    rw [start] at e
    by_cases hl : tasks.length > 0
    · rw [if_pos hl] at e
      refine ⟨by rintro rfl; simp at hl, fuel, ?_⟩
      cases h : startLoop y policy tasks fuel { s with running := true } with
      | error u => rw [h] at e; cases e
      | ok s1 => rw [h] at e; cases e; rfl
    · rw [if_neg hl] at e; cases e
  · rintro ⟨hne, fuel, e⟩
    exact ⟨fuel, by rw [start, if_pos (List.length_pos_iff.2 hne), e]⟩

/-! ### An example: the world is the amount of work of each task; a task asks to exit when the total is used up -/

def demo : Sys (List Nat) where
  prio := fun t => t / 2
  request := fun t u => u.getD t 0
  process := fun t u => (u.set t (u.getD t 0 - 1), decide ((u.set t (u.getD t 0 - 1)).sum = 0))
  watchdog := none
  idle := none

example : addTaskList demo 4 [] [0, 3, 1, 2, 5] = .ok ([3, 2, 0, 1], false) := by decide +kernel

example : Independent demo ∧ (∀ t u, demo.request t u > 0 → demo.request t (demo.process t u).1 < demo.request t u) := by
  refine ⟨fun t t' u h => ?_, fun t u h => ?_⟩
  · simp [demo, List.getD, List.getElem?_set, h]
  · simp only [demo, List.getD, List.getElem?_set, if_true] at *
    split
    · show _ < _; simp; cases hx : u[t]? with
      | none => simp [hx] at h
      | some v => simp [hx] at h ⊢; omega
    · rename_i hn; rw [List.getElem?_eq_none (Nat.le_of_not_lt hn)] at h; simp at h

def logOf {σ : Type} : Res (Bool × St σ) → Option (Bool × List Nat)
  | .ok (b, s) => some (b, s.log)
  | .error _ => none

example : logOf (single demo [3, 2, 0, 1] ⟨[1, 2, 0, 2], true, false, []⟩) = some (false, [3, 0, 1]) ∧
    logOf (multiple demo 5 [3, 2, 0, 1] ⟨[1, 2, 0, 2], true, false, []⟩) = some (false, [3, 3, 0, 1, 1]) ∧
    logOf (highest demo [3, 2, 0, 1] ⟨[1, 2, 0, 0], true, false, []⟩) = some (false, [0]) ∧
    logOf (mostWork demo [3, 2, 0, 1] ⟨[1, 2, 0, 2], true, false, []⟩) = some (false, [3]) := by decide +kernel

example : (match start demo (mostWork demo) [3, 2, 0, 1] 10 ⟨[1, 2, 0, 2], false, false, []⟩ with | .ok (some s) => some (s.log) | _ => none) = some [3, 1, 3, 0, 1] := by decide +kernel

end Etl.Scheduler
