import Verif.Atomic.Lock
import Mathlib.Tactic.Linarith

/-!
# `etl::atomic<T>` of class types is linearizable (C88)
-/
namespace Etl.Atomic.Lock
variable {n : Nat} {W : Type} [Inhabited W] [DecidableEq W]

/-! ## Specification -/

/-- An atomic variable, used by one thread at a time.  What `expected` is after a compare_exchange that fails is left open here: see `C88_finding_expected`. -/
inductive Reg : Val n W → Op n W → Val n W → Resp n W → Prop where
  | load (v) : Reg v .load v (.val v)
  | store (v w) : Reg v (.store w) w .unit
  | exchange (v w) : Reg v (.exchange w) w (.val v)
  | swapped (v d) : Reg v (.cas v d) d (.cas true v)
  | failed (v e d x) (h : v ≠ e) : Reg v (.cas e d) v (.cas false x)

/-- The thread is between the lock and the unlock. -/
def Inside : Pc n W → Prop
  | .read _ _ _ => True
  | .compare _ _ => True
  | .write _ _ _ => True
  | .unlock _ _ => True
  | _ => False

/-! ## Proof -/

def phase : Pc n W → Phase (Op n W) (Resp n W)
  | .idle => .out
  | .spin o => .before o
  | .read o _ _ => .before o
  | .compare o _ => .before o
  | .write o _ _ => .before o
  | .unlock o _ => .before o
  | .done o r => .after o r

/-- What is in `value` while a thread is inside; `v` is the value of the sequential variable. -/
def Mid (v m : Val n W) : Pc n W → Prop
  | .read o r i => (o = .load ∨ ∃ w, o = .exchange w) ∧ m = v ∧ i ≤ n ∧ ∀ j : Fin n, j.val < i → r j = v j
  | .compare o i => ∃ e d, o = .cas e d ∧ m = v ∧ i ≤ n ∧ ∀ j : Fin n, j.val < i → v j = e j
  | .write o r i => o ≠ .load ∧ Reg v o (o.arg v) r ∧ i ≤ n ∧ ∀ j : Fin n, m j = if j.val < i then o.arg v j else v j
  | .unlock o r => Reg v o m r
  | _ => False

structure Inv (v0 : Val n W) (s : St n W) (v : Val n W) : Prop where
  legal : Legal Reg v0 (lins s.trace) v
  free : s.flag = false → s.value = v ∧ ∀ t, ¬ Inside (s.pc t)
  held : s.flag = true → ∃ t, Inside (s.pc t) ∧ Mid v s.value (s.pc t) ∧ ∀ u, Inside (s.pc u) → u = t
  follows : ∀ t, Follows t s.trace (phase (s.pc t))

theorem inv_init (v : Val n W) : Inv v (init v) v :=
  ⟨.nil _, fun _ => ⟨rfl, fun _ h => h⟩, fun h => (Bool.noConfusion h), fun _ => .nil⟩

theorem arg_ne {o : Op n W} (h : o ≠ .load) (v w : Val n W) : o.arg v = o.arg w := by
  cases o <;> first | exact absurd rfl h | rfl

/-- A step inside that stays inside. -/
theorem inv_mid {v0 v : Val n W} {s : St n W} (h : Inv v0 s v) {t : Nat} (hi : Inside (s.pc t)) {m : Val n W} {p : Pc n W} (hp : Inside p) (hph : phase p = phase (s.pc t)) (hm : Mid v m p) :
    Inv v0 { s with value := m, pc := upd s.pc t p } v := by
  have hf : s.flag = true := by
    by_contra c
    exact (h.free (by simpa using c)).2 t hi
  obtain ⟨t', _, _, huniq⟩ := h.held hf
  have ht := huniq t hi
  subst ht
  refine ⟨h.legal, fun c => ?_, fun _ => ⟨t, ?_, ?_, ?_⟩, ?_⟩
  · rw [show s.flag = false from c] at hf; cases hf
  · show Inside (upd s.pc t p t); rw [upd_same]; exact hp
  · show Mid v m (upd s.pc t p t); rw [upd_same]; exact hm
  · intro u hu
    by_cases e : u = t
    · exact e
    · replace hu : Inside (upd s.pc t p u) := hu
      rw [upd_other _ _ e] at hu
      exact huniq u hu
  · intro u
    show Follows u s.trace (phase (upd s.pc t p u))
    by_cases e : u = t
    · subst e; rw [upd_same, hph]; exact h.follows u
    · rw [upd_other _ _ e]; exact h.follows u

theorem mid_of {v0 v : Val n W} {s : St n W} (h : Inv v0 s v) {t : Nat} (hi : Inside (s.pc t)) : s.flag = true ∧ Mid v s.value (s.pc t) ∧ ∀ u, Inside (s.pc u) → u = t := by
  have hf : s.flag = true := by
    by_contra c
    exact (h.free (by simpa using c)).2 t hi
  obtain ⟨t', _, hm, huniq⟩ := h.held hf
  have ht := huniq t hi
  subst ht
  exact ⟨hf, hm, huniq⟩

/-- A step of a thread outside that stays outside and does not touch the variables. -/
theorem inv_out {v0 v : Val n W} {s : St n W} (h : Inv v0 s v) {t : Nat} (hi : ¬ Inside (s.pc t)) {p : Pc n W} (hp : ¬ Inside p) {e : Ev (Op n W) (Resp n W)} (he : lins [e] = [])
    (hn : Next t (phase (s.pc t)) e (phase p)) (ho : ∀ u, u ≠ t → ∀ q, Next u q e q) : Inv v0 { s with pc := upd s.pc t p, trace := s.trace ++ [e] } v := by
  have hin : ∀ u, Inside (upd s.pc t p u) ↔ Inside (s.pc u) := by
    intro u
    by_cases e : u = t
    · subst e; rw [upd_same]; exact ⟨fun c => absurd c hp, fun c => absurd c hi⟩
    · rw [upd_other _ _ e]
  refine ⟨by show Legal Reg v0 (lins (s.trace ++ [e])) v; rw [lins_append, he, List.append_nil]; exact h.legal, fun c => ⟨(h.free c).1, fun u hu => (h.free c).2 u ((hin u).mp hu)⟩, fun c => ?_, ?_⟩
  · obtain ⟨u, hu, hm, huniq⟩ := h.held c
    have hut : u ≠ t := fun e => hi (e ▸ hu)
    refine ⟨u, (hin u).mpr hu, ?_, fun w hw => huniq w ((hin w).mp hw)⟩
    show Mid v s.value (upd s.pc t p u)
    rw [upd_other _ _ hut]; exact hm
  · intro u
    show Follows u (s.trace ++ [e]) (phase (upd s.pc t p u))
    by_cases ht : u = t
    · subst ht; rw [upd_same]; exact .snoc (h.follows u) hn
    · rw [upd_other _ _ ht]; exact .snoc (h.follows u) (ho u ht _)

theorem inside_start (o : Op n W) : Inside (start o) := by cases o <;> trivial
theorem phase_start (o : Op n W) : phase (start o) = .before o := by cases o <;> rfl
theorem mid_start (v : Val n W) (o : Op n W) : Mid v v (start o) := by
  cases o with
  | load => exact ⟨.inl rfl, rfl, Nat.zero_le _, fun j hj => absurd hj (Nat.not_lt_zero _)⟩
  | store w => exact ⟨by simp, .store _ _, Nat.zero_le _, fun j => by simp⟩
  | exchange w => exact ⟨.inr ⟨w, rfl⟩, rfl, Nat.zero_le _, fun j hj => absurd hj (Nat.not_lt_zero _)⟩
  | cas e d => exact ⟨e, d, rfl, rfl, Nat.zero_le _, fun j hj => absurd hj (Nat.not_lt_zero _)⟩

theorem inv_stepT {v0 v : Val n W} {s : St n W} (h : Inv v0 s v) (t : Nat) : ∃ v', Inv v0 (stepT s t) v' := by
  unfold stepT
  cases hp : s.pc t with
  | idle => exact ⟨v, h⟩
  | spin o =>
    simp only []
    by_cases hf : s.flag
    · rw [if_pos hf]; exact ⟨v, h⟩
    · rw [if_neg hf]
      have hf' : s.flag = false := by simpa using hf
      obtain ⟨hv, hno⟩ := h.free hf'
      refine ⟨v, h.legal, fun c => Bool.noConfusion c, fun _ => ⟨t, ?_, ?_, ?_⟩, ?_⟩
      · show Inside (upd s.pc t (start o) t); rw [upd_same]; exact inside_start o
      · show Mid v s.value (upd s.pc t (start o) t); rw [upd_same, hv]; exact mid_start v o
      · intro u hu
        by_contra e
        replace hu : Inside (upd s.pc t (start o) u) := hu
        rw [upd_other _ _ e] at hu
        exact hno u hu
      · intro u
        show Follows u s.trace (phase (upd s.pc t (start o) u))
        have := h.follows u
        by_cases e : u = t
        · subst e; rw [upd_same, phase_start]; rw [hp] at this; exact this
        · rw [upd_other _ _ e]; exact this
  | read o r i =>
    have hi : Inside (s.pc t) := by rw [hp]; trivial
    obtain ⟨_, hm, _⟩ := mid_of h hi
    rw [hp] at hm
    obtain ⟨ho, hv, hin, hr⟩ := hm
    simp only []
    by_cases hlt : i < n
    · rw [dif_pos hlt]
      refine ⟨v, inv_mid h hi (m := s.value) trivial (by rw [hp]; rfl) ⟨ho, hv, hlt, ?_⟩⟩
      intro j hj
      unfold put
      by_cases e : j = ⟨i, hlt⟩
      · rw [if_pos e, hv, e]
      · rw [if_neg e]
        refine hr j ?_
        have : j.val ≠ i := fun c => e (Fin.ext c)
        omega
    · rw [dif_neg hlt]
      have hre : r = v := funext fun j => hr j (by omega)
      rcases ho with rfl | ⟨w, rfl⟩
      · refine ⟨v, inv_mid h hi (m := s.value) trivial (by rw [hp]; rfl) ?_⟩
        show Reg v .load s.value (.val r)
        rw [hre, hv]; exact .load v
      · refine ⟨v, inv_mid h hi (m := s.value) trivial (by rw [hp]; rfl) ⟨by simp, ?_, Nat.zero_le _, fun j => by simp [hv]⟩⟩
        rw [hre]; exact .exchange v w
  | compare o i =>
    have hi : Inside (s.pc t) := by rw [hp]; trivial
    obtain ⟨_, hm, _⟩ := mid_of h hi
    rw [hp] at hm
    obtain ⟨e, d, rfl, hv, hin, he⟩ := hm
    simp only []
    by_cases hlt : i < n
    · rw [dif_pos hlt]
      by_cases heq : s.value ⟨i, hlt⟩ = e ⟨i, hlt⟩
      · rw [if_pos heq]
        refine ⟨v, inv_mid h hi (m := s.value) trivial (by rw [hp]; rfl) ⟨e, d, rfl, hv, hlt, ?_⟩⟩
        intro j hj
        by_cases c : j.val = i
        · have : j = ⟨i, hlt⟩ := Fin.ext c
          rw [this, ← hv]; exact heq
        · exact he j (by omega)
      · rw [if_neg heq]
        refine ⟨v, inv_mid h hi (m := s.value) trivial (by rw [hp]; rfl) ?_⟩
        show Reg v (.cas e d) s.value (.cas false e)
        rw [hv]
        exact .failed v e d e (fun c => heq (by rw [hv, c]))
    · rw [dif_neg hlt]
      have hve : v = e := funext fun j => he j (by omega)
      refine ⟨v, inv_mid h hi (m := s.value) trivial (by rw [hp]; rfl) ⟨by simp, ?_, Nat.zero_le _, fun j => by simp [hv]⟩⟩
      rw [← hve]; exact .swapped v d
  | write o r i =>
    have hi : Inside (s.pc t) := by rw [hp]; trivial
    obtain ⟨_, hm, _⟩ := mid_of h hi
    rw [hp] at hm
    obtain ⟨ho, hreg, hin, hw⟩ := hm
    simp only []
    by_cases hlt : i < n
    · rw [dif_pos hlt]
      refine ⟨v, inv_mid h hi trivial (by rw [hp]; rfl) ⟨ho, hreg, hlt, ?_⟩⟩
      intro j
      unfold put
      by_cases e : j = ⟨i, hlt⟩
      · rw [if_pos e, e, if_pos (show i < i + 1 by omega), arg_ne ho v s.value]
      · rw [if_neg e, hw j]
        have : j.val ≠ i := fun c => e (Fin.ext c)
        by_cases c : j.val < i
        · rw [if_pos c, if_pos (by omega)]
        · rw [if_neg c, if_neg (by omega)]
    · rw [dif_neg hlt]
      refine ⟨v, inv_mid h hi (m := s.value) trivial (by rw [hp]; rfl) ?_⟩
      have : s.value = o.arg v := funext fun j => by rw [hw j, if_pos (show j.val < i by omega)]
      show Reg v o s.value r
      rw [this]; exact hreg
  | unlock o r =>
    have hi : Inside (s.pc t) := by rw [hp]; trivial
    obtain ⟨_, hm, huniq⟩ := mid_of h hi
    rw [hp] at hm
    refine ⟨s.value, ?_, fun _ => ⟨rfl, ?_⟩, fun c => Bool.noConfusion c, ?_⟩
    · show Legal Reg v0 (lins (s.trace ++ [.lin t o r])) s.value
      rw [lins_append]
      exact .snoc h.legal hm
    · intro u hu
      replace hu : Inside (upd s.pc t (.done o r) u) := hu
      by_cases e : u = t
      · subst e; rw [upd_same] at hu; exact hu
      · rw [upd_other _ _ e] at hu; exact e (huniq u hu)
    · intro u
      show Follows u (s.trace ++ [.lin t o r]) (phase (upd s.pc t (.done o r) u))
      have := h.follows u
      by_cases e : u = t
      · subst e; rw [upd_same]; rw [hp] at this; exact .snoc this (.lin o r)
      · rw [upd_other _ _ e]; exact .snoc this (.lin' (Ne.symm e))
  | done o r =>
    refine ⟨v, inv_out h (by rw [hp]; exact id) id rfl (by rw [hp]; exact .ret o r) (fun u hu q => .ret' (Ne.symm hu))⟩

theorem inv_step {v0 v : Val n W} {s : St n W} (h : Inv v0 s v) (a : Act n W) : ∃ v', Inv v0 (step s a) v' := by
  cases a with
  | step t => exact inv_stepT h t
  | call t o =>
    simp only [step]
    cases hp : s.pc t with
    | idle => exact ⟨v, inv_out h (by rw [hp]; exact id) id rfl (by rw [hp]; exact .inv o) (fun u hu q => .inv' (Ne.symm hu))⟩
    | _ => exact ⟨v, h⟩

theorem inv_run {v0 : Val n W} (l : List (Act n W)) : ∀ {s : St n W} {v : Val n W}, Inv v0 s v → ∃ v', Inv v0 (run s l) v' := by
  induction l with
  | nil => intro s v h; exact ⟨v, h⟩
  | cons a l ih =>
    intro s v h
    obtain ⟨v', h'⟩ := inv_step h a
    exact ih h'

/-! ## C88 -/

/-- C88: for every type, every number of threads and every interleaving of their steps, what they see of an atomic variable is linearizable: each call takes effect at one moment.  If no thread is inside, the variable has the value that the sequential execution gives. -/
theorem C88_linearizable (v0 : Val n W) (l : List (Act n W)) : ∃ v, Linearizable Reg v0 (visible (run (init v0) l).trace) v ∧ ((∀ t, ¬ Inside ((run (init v0) l).pc t)) → (run (init v0) l).value = v) := by
  obtain ⟨v, h⟩ := inv_run l (inv_init v0)
  refine ⟨v, ⟨_, rfl, fun t => ⟨_, h.follows t⟩, h.legal⟩, fun hn => ?_⟩
  have hf : (run (init v0) l).flag = false := by
    by_contra c
    obtain ⟨t, ht, _⟩ := h.held (by simpa using c)
    exact hn t ht
  exact (h.free hf).1

/-- C88: no two threads are ever inside at the same time, so no access to the value is a race. -/
theorem C88_exclusion (v0 : Val n W) (l : List (Act n W)) {t u : Nat} (ht : Inside ((run (init v0) l).pc t)) (hu : Inside ((run (init v0) l).pc u)) : t = u := by
  obtain ⟨v, h⟩ := inv_run l (inv_init v0)
  exact ((mid_of h ht).2.2 u hu).symm

/-- How far a thread inside is from the unlock. -/
def dist : Pc n W → Nat
  | .read _ _ i => 2 * n + 4 - i
  | .compare _ i => 2 * n + 4 - i
  | .write _ _ i => n + 2 - i
  | .unlock _ _ => 1
  | _ => 0

theorem dist_stepT {v0 v : Val n W} {s : St n W} (h : Inv v0 s v) {t : Nat} (hi : Inside (s.pc t)) : dist ((stepT s t).pc t) < dist (s.pc t) ∧ (Inside ((stepT s t).pc t) ∨ (stepT s t).flag = false) := by
  obtain ⟨_, hm, _⟩ := mid_of h hi
  unfold stepT
  cases hp : s.pc t with
  | idle => rw [hp] at hi; exact hi.elim
  | spin o => rw [hp] at hi; exact hi.elim
  | done o r => rw [hp] at hi; exact hi.elim
  | unlock o r => exact ⟨by simp [dist], .inr rfl⟩
  | write o r i =>
    rw [hp] at hm
    have := hm.2.2.1
    simp only []
    split
    · simp only [upd_same, dist]; exact ⟨by omega, .inl trivial⟩
    · simp only [upd_same, dist]; exact ⟨by omega, .inl trivial⟩
  | read o r i =>
    rw [hp] at hm
    have := hm.2.2.1
    simp only []
    split
    · simp only [upd_same, dist]; exact ⟨by omega, .inl trivial⟩
    · split <;> (simp only [upd_same, dist]; exact ⟨by omega, .inl trivial⟩)
  | compare o i =>
    rw [hp] at hm
    obtain ⟨e, d, rfl, _, hin, _⟩ := hm
    simp only []
    split
    · split <;> (simp only [upd_same, dist]; exact ⟨by omega, .inl trivial⟩)
    · simp only [upd_same, dist]; exact ⟨by omega, .inl trivial⟩

theorem frees {v0 : Val n W} (t : Nat) : ∀ (k : Nat) (s : St n W) (v : Val n W), Inv v0 s v → Inside (s.pc t) → dist (s.pc t) ≤ k → ∃ j ≤ k, (run s (List.replicate j (.step t))).flag = false := by
  intro k
  induction k with
  | zero =>
    intro s v h hi hd
    have := (dist_stepT h hi).1; omega
  | succ k ih =>
    intro s v h hi hd
    obtain ⟨hlt, hor⟩ := dist_stepT h hi
    rcases hor with hin | hfr
    · obtain ⟨v', h'⟩ := inv_stepT h t
      obtain ⟨j, hj, hr⟩ := ih _ v' h' hin (by omega)
      exact ⟨j + 1, by omega, by simpa [run, List.replicate_succ, step] using hr⟩
    · exact ⟨1, by omega, by simpa [run, step] using hfr⟩

/-- C88: the lock is not lost, and a thread inside waits for nobody: in every state that can be reached, either nobody is inside and the next try of any waiting thread succeeds, or the thread that is inside has left after at most `2 n + 4` steps of its own. -/
theorem C88_progress (v0 : Val n W) (l : List (Act n W)) :
    (∀ t o, (run (init v0) l).pc t = .spin o → (∀ u, ¬ Inside ((run (init v0) l).pc u)) → Inside ((run (init v0) (l ++ [.step t])).pc t)) ∧
    (∀ t, Inside ((run (init v0) l).pc t) → ∃ j ≤ 2 * n + 4, (run (init v0) (l ++ List.replicate j (.step t))).flag = false) := by
  obtain ⟨v, h⟩ := inv_run l (inv_init v0)
  have happ : ∀ m : List (Act n W), run (init v0) (l ++ m) = run (run (init v0) l) m := fun m => List.foldl_append
  refine ⟨fun t o hp hn => ?_, fun t hi => ?_⟩
  · have hf : (run (init v0) l).flag = false := by
      by_contra c
      obtain ⟨u, hu, _⟩ := h.held (by simpa using c)
      exact hn u hu
    rw [happ]
    show Inside ((stepT (run (init v0) l) t).pc t)
    unfold stepT
    rw [hp]
    simp only [hf]
    simp only [Bool.false_eq_true, if_false, upd_same]
    exact inside_start o
  · have hd : dist ((run (init v0) l).pc t) ≤ 2 * n + 4 := by
      cases (run (init v0) l).pc t <;> simp only [dist] <;> omega
    obtain ⟨j, hj, hr⟩ := frees t _ _ v h hi hd
    exact ⟨j, hj, by rw [happ]; exact hr⟩

/-! ## etl::mutex -/

theorem minv (l : List MAct) : ∀ s : MSt, (∀ t u, s.pc t = .inside → s.pc u = .inside → t = u) → (s.flag = true ↔ ∃ t, s.pc t = .inside) →
    (∀ t u, (mrun s l).pc t = .inside → (mrun s l).pc u = .inside → t = u) ∧ ((mrun s l).flag = true ↔ ∃ t, (mrun s l).pc t = .inside) := by
  induction l with
  | nil => intro s h1 h2; exact ⟨h1, h2⟩
  | cons a l ih =>
    intro s h1 h2
    have enter : ∀ t, s.pc t ≠ .inside → s.flag = false → (∀ x y, upd s.pc t MPc.inside x = .inside → upd s.pc t MPc.inside y = .inside → x = y) ∧ (true = true ↔ ∃ x, upd s.pc t MPc.inside x = .inside) := by
      intro t ht hf
      have hno : ∀ x, s.pc x ≠ .inside := fun x hx => by
        have := h2.mpr ⟨x, hx⟩; rw [hf] at this; cases this
      refine ⟨fun x y hx hy => ?_, fun _ => ⟨t, upd_same _ _ _⟩, fun _ => rfl⟩
      have : ∀ z, upd s.pc t MPc.inside z = .inside → z = t := fun z hz => by
        by_contra c; rw [upd_other _ _ c] at hz; exact hno z hz
      rw [this x hx, this y hy]
    refine ih (mstep s a) ?_ ?_ <;> cases a with
    | lock t =>
      simp only [mstep]
      split
      next ho =>
        have hq : ∀ x, upd s.pc t MPc.lock x = .inside ↔ s.pc x = .inside := fun x => by
          by_cases c : x = t
          · subst c; rw [upd_same, ho]; simp
          · rw [upd_other _ _ c]
        first
        | (intro x y hx hy; exact h1 x y ((hq x).mp hx) ((hq y).mp hy))
        | (rw [h2]; exact ⟨fun ⟨x, hx⟩ => ⟨x, (hq x).mpr hx⟩, fun ⟨x, hx⟩ => ⟨x, (hq x).mp hx⟩⟩)
      next => first | exact h1 | exact h2
    | spin t =>
      simp only [mstep]
      split
      next ho =>
        split
        · first | exact h1 | exact h2
        next hf =>
          have := enter t (by rw [ho]; simp) (by simpa using hf)
          first | exact this.1 | exact this.2
      next => first | exact h1 | exact h2
    | tryLock t =>
      simp only [mstep]
      split
      next ho =>
        split
        · first | exact h1 | exact h2
        next hf =>
          have := enter t (by rw [ho]; simp) (by simpa using hf)
          first | exact this.1 | exact this.2
      next => first | exact h1 | exact h2
    | unlock t =>
      simp only [mstep]
      split
      next ho =>
        have hq : ∀ x, upd s.pc t MPc.out x ≠ .inside := fun x hx => by
          by_cases c : x = t
          · subst c; rw [upd_same] at hx; cases hx
          · rw [upd_other _ _ c] at hx; exact c (h1 x t hx ho)
        first
        | (intro x y hx hy; exact absurd hx (hq x))
        | exact ⟨fun c => Bool.noConfusion c, fun ⟨x, hx⟩ => absurd hx (hq x)⟩
      next => first | exact h1 | exact h2

/-- C88: `etl::mutex`, if a thread only unlocks what it has locked: never two threads inside, and `try_lock` and a turn of `lock` succeed exactly if nobody is inside. -/
theorem C88_mutex (l : List MAct) : (∀ t u, (mrun minit l).pc t = .inside → (mrun minit l).pc u = .inside → t = u) ∧
    ∀ t, ((mrun minit l).pc t = .out → ((mrun minit (l ++ [.tryLock t])).pc t = .inside ↔ ∀ u, (mrun minit l).pc u ≠ .inside)) ∧
      ((mrun minit l).pc t = .lock → ((mrun minit (l ++ [.spin t])).pc t = .inside ↔ ∀ u, (mrun minit l).pc u ≠ .inside)) := by
  obtain ⟨h1, h2⟩ := minv l minit (fun t u h => by cases h) ⟨fun h => (by cases h), fun ⟨t, h⟩ => (by cases h)⟩
  have happ : ∀ a, mrun minit (l ++ [a]) = mstep (mrun minit l) a := fun a => List.foldl_append
  have hno : (mrun minit l).flag = false → ∀ u, (mrun minit l).pc u ≠ .inside := fun hf u hu => by
    have := h2.mpr ⟨u, hu⟩; rw [hf] at this; cases this
  refine ⟨h1, fun t => ⟨fun ho => ?_, fun ho => ?_⟩⟩ <;> rw [happ] <;> simp only [mstep] <;> rw [if_pos ho]
  all_goals
    cases hf : (mrun minit l).flag with
    | true =>
      obtain ⟨u, hu⟩ := h2.mp hf
      rw [if_pos rfl]
      exact ⟨fun c => (by rw [ho] at c; cases c), fun c => absurd hu (c u)⟩
    | false => exact ⟨fun _ => hno hf, fun _ => upd_same _ _ _⟩

/-! ## Findings -/

/-- A compare_exchange that fails leaves `expected` as it was, l.929-947 and l.2127-2143, where the contract of `std::atomic` stores the current value in it.  So the usual loop `while (!a.compare_exchange_weak(expected, desired)) {}` of a single thread never ends if `expected` is not the value at first: after any number of rounds the answer is still no.  Here one round, from any state in which the variable is free and has another value, ends in the same state with the same `expected`. -/
theorem C88_finding_expected (v e d : Val 1 W) (h : v 0 ≠ e 0) :
    (run (init v) [.call 0 (.cas e d), .step 0, .step 0, .step 0]).pc 0 = .done (.cas e d) (.cas false e) ∧ (run (init v) [.call 0 (.cas e d), .step 0, .step 0, .step 0]).value = v := by
  have h' : ¬ v 0 = e 0 := h
  simp [run, step, stepT, init, start, upd, h']

/-! ## Examples -/

/-- Two threads: thread 1 waits while thread 0 exchanges, then loads. -/
example : ((run (init (fun _ => 7 : Val 2 Nat)) [.call 0 (.exchange fun _ => 9), .call 1 .load, .step 0, .step 1, .step 0, .step 0, .step 0, .step 0, .step 1]).pc 1 matches .spin _) ∧
    (run (init (fun _ => 7 : Val 2 Nat)) [.call 0 (.exchange fun _ => 9), .call 1 .load, .step 0, .step 1, .step 0, .step 0, .step 0, .step 0]).value 0 = 9 ∧
    (run (init (fun _ => 7 : Val 2 Nat)) [.call 0 (.exchange fun _ => 9), .call 1 .load, .step 0, .step 1, .step 0, .step 0, .step 0, .step 0]).value 1 = 7 := by decide +kernel
example : (mrun minit [.lock 0, .spin 0, .lock 1, .spin 1]).pc 0 = .inside ∧ (mrun minit [.lock 0, .spin 0, .lock 1, .spin 1]).pc 1 = .lock := by decide +kernel

end Etl.Atomic.Lock
