import Verif.Deque.Steps
import Batteries.Tactic.SeqFocus

/-!
# Properties of the deque (C11)
-/
namespace Etl.Deque
open Mem
variable {α : Type}

/-! ## Specification: a list of at most `cap` elements -/

/-- Effect of an operation on the contents, and what it reports; iterators are positions counted from `begin()`. -/
def specStep (cap : Nat) (l : List α) : Op α → List α × Out
  | .assignRange vs => if vs.length ≤ cap then (vs, .ok) else (vs.take cap, .err .full)
  | .assignN k v => if k ≤ cap then (List.replicate k v, .ok) else (l, .err .full)
  | .clear => ([], .ok)
  | .resize k v => if k ≤ cap then (l.take k ++ List.replicate (k - l.length) v, .ok) else (l, .err .full)
  | .pushBack v => if l.length < cap then (l ++ [v], .ok) else (l, .err .full)
  | .pushFront v => if l.length < cap then (v :: l, .ok) else (l, .err .full)
  | .popBack => if l = [] then (l, .err .empty) else (l.dropLast, .ok)
  | .popFront => if l = [] then (l, .err .empty) else (l.tail, .ok)
  | .insert i v | .insertMove i v | .emplace i v =>
      if l.length < cap then (l.take i ++ v :: l.drop i, .at i) else (l, .err .full)
  | .insertN i k v => if l.length + k ≤ cap then (l.take i ++ List.replicate k v ++ l.drop i, .at i) else (l, .err .full)
  | .insertRange i vs => if l.length + vs.length ≤ cap then (l.take i ++ vs ++ l.drop i, .at i) else (l, .err .full)
  | .erase i => (l.eraseIdx i, .at i)
  | .eraseRange i j => (l.take i ++ l.drop j, .at i)

/-- Preconditions: iterators are valid; with `ETL_CHECK_PUSH_POP` off the caller respects the capacity; inserting or erasing an *empty* range
in the middle moves elements onto themselves, so `T` must tolerate self-move; `insert(T&&)` must not be used in the front half (see
`insertMove_front_broken`). -/
def Legal (cap : Nat) (sms check : Bool) (l : List α) : Op α → Prop
  | .assignN _ _ | .clear | .resize _ _ => True
  | .assignRange vs => check = true ∨ vs.length ≤ cap
  | .pushBack _ | .pushFront _ => check = true ∨ l.length < cap
  | .popBack | .popFront => check = true ∨ l ≠ []
  | .insert i _ | .emplace i _ => i ≤ l.length
  | .insertMove i _ => i ≤ l.length ∧ (i = 0 ∨ i = l.length ∨ l.length ≤ 2 * i + 1)
  | .insertN i k _ => i ≤ l.length ∧ (k ≠ 0 ∨ sms = true ∨ i = 0 ∨ i = l.length)
  | .insertRange i vs => i ≤ l.length ∧ (vs ≠ [] ∨ sms = true ∨ i = 0 ∨ i = l.length)
  | .erase i => i < l.length
  | .eraseRange i j => i ≤ j ∧ j ≤ l.length ∧ (i ≠ j ∨ sms = true ∨ i = 0 ∨ i = l.length)

def specRun (cap : Nat) (l : List α) : List (Op α) → List α × List Out
  | [] => (l, [])
  | o :: os =>
    let (l', e) := specStep cap l o
    let (l'', es) := specRun cap l' os
    (l'', e :: es)

def LegalRun (cap : Nat) (sms check : Bool) (l : List α) : List (Op α) → Prop
  | [] => True
  | o :: os => Legal cap sms check l o ∧ LegalRun cap sms check (specStep cap l o).1 os

/-! ## Every operation refines its specification -/

section Steps
variable {cap : Nat} {sms check : Bool} {s : St α} {l : List α}

theorem Good.full_iff (h : Good cap sms check s l) : full s = true ↔ l.length = cap := by
  simp [full, capacity, h.n, h.cap]
theorem Good.empty_iff (h : Good cap sms check s l) : empty s = true ↔ l = [] := by simp [empty, h.n]
theorem Good.not_full (h : Good cap sms check s l) (hc : l.length < cap) : ¬ (full s = true) := by rw [h.full_iff]; omega
theorem Good.cap' (h : Good cap sms check s l) : capacity s = cap := by simp [capacity, h.cap]
theorem Good.add_b (h : Good cap sms check s l) {i : Nat} (hi : i ≤ l.length) : add (bs s) s.b i = wr (cap+1) s.b i := by
  have := h.le; rw [bs, h.cap]; exact Deque.add_b h.b (by omega)
theorem Good.eq_b (h : Good cap sms check s l) {i : Nat} (hi : i ≤ l.length) : wr (cap+1) s.b i = s.b ↔ i = 0 := by
  have := h.le
  constructor
  · intro e; exact (wr_inj h.b (by omega) (by omega)).1 (e.trans (wr_zero h.b).symm)
  · rintro rfl; exact wr_zero h.b
theorem Good.eq_e (h : Good cap sms check s l) {i : Nat} (hi : i ≤ l.length) : wr (cap+1) s.b i = s.e ↔ i = l.length := by
  have := h.le
  rw [h.e, wr_inj h.b (by omega) (by omega)]
theorem Good.dist_e (h : Good cap sms check s l) {k : Nat} (hk : k ≤ l.length) : dist s (sub (bs s) s.e k) = l.length - k := by
  have := h.le
  rw [bs, h.cap, h.e, sub_wr h.b hk (by omega), h.dist_wr (by omega)]
theorem Good.dist_e0 (h : Good cap sms check s l) : dist s s.e = l.length := by
  have := h.le
  rw [h.e, h.dist_wr (by omega)]

theorem closer_iff (h : Good cap sms check s l) {i : Nat} (hi : i < l.length) : closer s (wr (cap+1) s.b i) = true ↔ 2 * i + 1 < l.length := by
  have := h.le
  have e := h.dist_e (k := 1) (by omega)
  have e2 := h.dist_wr (k := i) (by omega)
  simp [closer, dist2, e, e2, h.dist_b]; omega

theorem ins_zero (l : List α) (v : α) : l.take 0 ++ v :: l.drop 0 = v :: l := by simp
theorem ins_len (l : List α) (v : α) : l.take l.length ++ v :: l.drop l.length = l ++ [v] := by simp

theorem pushBack_ok (h : Good cap sms check s l) (v : α) (hl : check = true ∨ l.length < cap) :
    ∃ s', pushBack s v = .ok (s', (specStep cap l (.pushBack v)).2) ∧ Good cap sms check s' (specStep cap l (.pushBack v)).1 := by
  simp only [pushBack, specStep]
  by_cases hc : l.length < cap
  · obtain ⟨s1, e1, _, g1⟩ := createBack_ok h hc v
    have := h.not_full hc
    refine ⟨s1, ?_, by simpa only [hc, if_true] using g1⟩
    rw [if_neg (show ¬ ((s.check && full s) = true) by simp; intro _; simpa using this)]; simp [e1, hc, bind, Except.bind]
  · have hle := h.le
    refine ⟨s, ?_, by simpa only [hc, if_false] using h⟩
    rw [if_pos (show (s.check && full s) = true by rw [Bool.and_eq_true, h.full_iff, h.chk]; exact ⟨hl.resolve_right hc, by omega⟩)]; simp [hc]

theorem pushFront_ok (h : Good cap sms check s l) (v : α) (hl : check = true ∨ l.length < cap) :
    ∃ s', pushFront s v = .ok (s', (specStep cap l (.pushFront v)).2) ∧ Good cap sms check s' (specStep cap l (.pushFront v)).1 := by
  simp only [pushFront, specStep]
  by_cases hc : l.length < cap
  · obtain ⟨s1, e1, _, g1⟩ := createFront_ok h hc v
    have := h.not_full hc
    refine ⟨s1, ?_, by simpa only [hc, if_true] using g1⟩
    rw [if_neg (show ¬ ((s.check && full s) = true) by simp; intro _; simpa using this)]; simp [e1, hc, bind, Except.bind]
  · have hle := h.le
    refine ⟨s, ?_, by simpa only [hc, if_false] using h⟩
    rw [if_pos (show (s.check && full s) = true by rw [Bool.and_eq_true, h.full_iff, h.chk]; exact ⟨hl.resolve_right hc, by omega⟩)]; simp [hc]

theorem popBack_ok (h : Good cap sms check s l) (hl : check = true ∨ l ≠ []) :
    ∃ s', popBack s = .ok (s', (specStep cap l .popBack).2) ∧ Good cap sms check s' (specStep cap l .popBack).1 := by
  simp only [popBack, specStep]
  by_cases hc : l = []
  · refine ⟨s, ?_, by simp only [hc, if_true]; rw [hc] at h; exact h⟩
    rw [if_pos (show (s.check && empty s) = true by rw [Bool.and_eq_true, h.empty_iff, h.chk]; exact ⟨hl.resolve_right (by simp [hc]), hc⟩)]; simp [hc]
  · obtain ⟨s1, e1, _, g1⟩ := destroyBack_ok h hc
    refine ⟨s1, ?_, by simpa only [hc, if_false] using g1⟩
    have : ¬ (empty s = true) := by rw [h.empty_iff]; exact hc
    rw [if_neg (show ¬ ((s.check && empty s) = true) by rw [Bool.and_eq_true]; exact fun x => this x.2)]; simp [e1, hc, bind, Except.bind]

theorem popFront_ok (h : Good cap sms check s l) (hl : check = true ∨ l ≠ []) :
    ∃ s', popFront s = .ok (s', (specStep cap l .popFront).2) ∧ Good cap sms check s' (specStep cap l .popFront).1 := by
  simp only [popFront, specStep]
  by_cases hc : l = []
  · refine ⟨s, ?_, by simp only [hc, if_true]; rw [hc] at h; exact h⟩
    rw [if_pos (show (s.check && empty s) = true by rw [Bool.and_eq_true, h.empty_iff, h.chk]; exact ⟨hl.resolve_right (by simp [hc]), hc⟩)]; simp [hc]
  · obtain ⟨s1, e1, _, g1⟩ := destroyFront_ok h hc
    refine ⟨s1, ?_, by simpa only [hc, if_false] using g1⟩
    have : ¬ (empty s = true) := by rw [h.empty_iff]; exact hc
    rw [if_neg (show ¬ ((s.check && empty s) = true) by rw [Bool.and_eq_true]; exact fun x => this x.2)]; simp [e1, hc, bind, Except.bind]

theorem pushAll_ok (vs : List α) : ∀ {s : St α} {l : List α}, Good cap sms check s l → check = true ∨ l.length + vs.length ≤ cap →
    ∃ s', pushAll s vs = .ok (s', if l.length + vs.length ≤ cap then .ok else .err .full) ∧ Good cap sms check s' ((l ++ vs).take cap) := by
  induction vs with
  | nil =>
    intro s l h _
    have := h.le
    exact ⟨s, by simp [pushAll, this], by rw [List.append_nil, List.take_of_length_le this]; exact h⟩
  | cons v vs ih =>
    intro s l h hl
    simp only [List.length_cons] at hl ⊢
    obtain ⟨s1, e1, g1⟩ := pushBack_ok h v (by rcases hl with h1 | h1 <;> [exact Or.inl h1; exact Or.inr (by omega)])
    simp only [specStep] at e1 g1
    by_cases hc : l.length < cap
    · rw [if_pos hc] at e1 g1
      obtain ⟨s2, e2, g2⟩ := ih g1 (by rcases hl with h1 | h1 <;> [exact Or.inl h1; exact Or.inr (by simp; omega)])
      refine ⟨s2, ?_, by simpa using g2⟩
      simp only [pushAll, e1, bind, Except.bind, e2]
      congr 2
      simp only [List.length_append, List.length_singleton]
      split_ifs <;> first | rfl | omega
    · rw [if_neg hc] at e1 g1
      have hle := h.le
      refine ⟨s1, ?_, ?_⟩
      · simp only [pushAll, e1, bind, Except.bind]; rw [if_neg (by omega)]
      · rw [List.take_append_of_le_length (by omega), List.take_of_length_le (by omega)]; exact g1

theorem assignRange_ok (h : Good cap sms check s l) (vs : List α) (hl : check = true ∨ vs.length ≤ cap) :
    ∃ s', assignRange s vs = .ok (s', (specStep cap l (.assignRange vs)).2) ∧ Good cap sms check s' (specStep cap l (.assignRange vs)).1 := by
  obtain ⟨s1, e1, g1⟩ := initialise_ok h
  obtain ⟨s2, e2, g2⟩ := pushAll_ok vs g1 (by simpa using hl)
  simp only [List.length_nil, Nat.zero_add, List.nil_append] at e2 g2
  refine ⟨s2, ?_, ?_⟩
  · simp only [assignRange, e1, e2, bind, Except.bind, specStep]; congr 2; split_ifs <;> rfl
  · simp only [specStep]; split_ifs with hc
    · rw [List.take_of_length_le hc] at g2; exact g2
    · exact g2

theorem assignN_ok (h : Good cap sms check s l) (k : Nat) (v : α) :
    ∃ s', assignN s k v = .ok (s', (specStep cap l (.assignN k v)).2) ∧ Good cap sms check s' (specStep cap l (.assignN k v)).1 := by
  simp only [assignN, specStep, h.cap']
  by_cases hc : k ≤ cap
  · obtain ⟨s1, e1, g1⟩ := initialise_ok h
    obtain ⟨s2, e2, _, g2⟩ := createBackL_ok (List.replicate k v) g1 (by simpa using hc)
    exact ⟨s2, by simp [hc, e1, rep_createBack, e2, bind, Except.bind], by simpa [hc] using g2⟩
  · exact ⟨s, by simp [hc], by simpa [hc] using h⟩

theorem resize_ok (h : Good cap sms check s l) (k : Nat) (v : α) :
    ∃ s', resize s k v = .ok (s', (specStep cap l (.resize k v)).2) ∧ Good cap sms check s' (specStep cap l (.resize k v)).1 := by
  have hn := h.n
  simp only [resize, specStep, h.cap']
  by_cases hc : k ≤ cap
  · simp only [hc, if_true]
    by_cases h1 : k < s.n
    · obtain ⟨s1, e1, _, g1⟩ := repDestroyBack_ok h (s.n - k) (by omega)
      refine ⟨s1, by simp [h1, e1, bind, Except.bind], ?_⟩
      have e2 : l.length - (s.n - k) = k := by omega
      have e3 : k - l.length = 0 := by omega
      rw [e2] at g1; rw [e3]; simpa using g1
    · by_cases h2 : k > s.n
      · obtain ⟨s2, e2, _, g2⟩ := createBackL_ok (List.replicate (k - s.n) v) h (by simp; omega)
        refine ⟨s2, by simp [h1, h2, rep_createBack, e2, bind, Except.bind], ?_⟩
        rw [List.take_of_length_le (by omega), ← hn]; exact g2
      · refine ⟨s, by simp [h1, h2], ?_⟩
        have e3 : k - l.length = 0 := by omega
        rw [List.take_of_length_le (by omega), e3]; simpa using h
  · exact ⟨s, by simp [hc], by simpa [hc] using h⟩

theorem Hole.dist {i : Nat} (h : Hole cap sms check s l i) : Deque.dist s (wr (cap+1) s.b i) = i := by
  have hb := h.b; have hi := h.i; have hle := h.le
  unfold Deque.dist bs; rw [h.cap]; unfold wr; split_ifs <;> omega

theorem insert_ok (h : Good cap sms check s l) (i : Nat) (v : α) (hi : i ≤ l.length) :
    ∃ s', insert s (add (bs s) s.b i) v = .ok (s', (specStep cap l (.insert i v)).2) ∧ Good cap sms check s' (specStep cap l (.insert i v)).1 := by
  rw [h.add_b hi]
  simp only [insert, specStep]
  by_cases hc : l.length < cap
  · rw [if_neg (h.not_full hc)]
    simp only [hc, if_true]
    by_cases h0 : i = 0
    · subst h0
      obtain ⟨s1, e1, _, g1⟩ := createFront_ok h hc v
      refine ⟨s1, ?_, by rw [ins_zero]; exact g1⟩
      rw [if_pos ((h.eq_b hi).2 rfl)]; simp [e1, bind, Except.bind, g1.dist_b]
    · rw [if_neg (fun x => h0 ((h.eq_b hi).1 x))]
      by_cases h1 : i = l.length
      · subst h1
        obtain ⟨s1, e1, _, g1⟩ := createBack_ok h hc v
        refine ⟨s1, ?_, by rw [ins_len]; exact g1⟩
        have := g1.dist_e (k := 1) (by simp)
        rw [if_pos ((h.eq_e hi).2 rfl)]; simp [e1, bind, Except.bind, this]
      · rw [if_neg (fun x => h1 ((h.eq_e hi).1 x))]
        by_cases hcl : closer s (wr (cap+1) s.b i) = true
        · obtain ⟨s1, e1, g1⟩ := gapFront_ok h hc (i := i) (by omega)
          obtain ⟨m, e2, g2⟩ := g1.assign v
          exact ⟨{ s1 with mem := m }, by simp only [hcl, if_true, e1, e2, bind, Except.bind, g1.dist], g2⟩
        · obtain ⟨s1, e1, g1⟩ := gapBack_ok h hc (i := i) (by omega)
          obtain ⟨m, e2, g2⟩ := g1.assign v
          exact ⟨{ s1 with mem := m }, by rw [if_neg hcl]; simp only [e1, e2, bind, Except.bind, g1.dist], g2⟩
  · have hle := h.le
    exact ⟨s, by rw [if_pos (h.full_iff.2 (by omega))]; simp [hc], by simpa [hc] using h⟩

theorem emplace_ok (h : Good cap sms check s l) (i : Nat) (v : α) (hi : i ≤ l.length) :
    ∃ s', emplace s (add (bs s) s.b i) v = .ok (s', (specStep cap l (.insert i v)).2) ∧ Good cap sms check s' (specStep cap l (.insert i v)).1 := by
  rw [h.add_b hi]
  simp only [emplace, specStep]
  by_cases hc : l.length < cap
  · rw [if_neg (h.not_full hc)]
    simp only [hc, if_true]
    by_cases h0 : i = 0
    · subst h0
      obtain ⟨s1, e1, _, g1⟩ := createFront_ok h hc v
      refine ⟨s1, ?_, by rw [ins_zero]; exact g1⟩
      rw [if_pos ((h.eq_b hi).2 rfl)]; simp [e1, bind, Except.bind, g1.dist_b]
    · rw [if_neg (fun x => h0 ((h.eq_b hi).1 x))]
      by_cases h1 : i = l.length
      · subst h1
        obtain ⟨s1, e1, _, g1⟩ := createBack_ok h hc v
        refine ⟨s1, ?_, by rw [ins_len]; exact g1⟩
        have := g1.dist_e (k := 1) (by simp)
        rw [if_pos ((h.eq_e hi).2 rfl)]; simp [e1, bind, Except.bind, this]
      · rw [if_neg (fun x => h1 ((h.eq_e hi).1 x))]
        by_cases hcl : closer s (wr (cap+1) s.b i) = true
        · obtain ⟨s1, e1, g1⟩ := gapFront_ok h hc (i := i) (by omega)
          obtain ⟨m, m', e2, e3, g2⟩ := g1.emplace v
          exact ⟨{ s1 with mem := m' }, by simp only [hcl, if_true, e1, e2, e3, bind, Except.bind, g1.dist], g2⟩
        · obtain ⟨s1, e1, g1⟩ := gapBack_ok h hc (i := i) (by omega)
          obtain ⟨m, m', e2, e3, g2⟩ := g1.emplace v
          exact ⟨{ s1 with mem := m' }, by rw [if_neg hcl]; simp only [e1, e2, e3, bind, Except.bind, g1.dist], g2⟩
  · have hle := h.le
    exact ⟨s, by rw [if_pos (h.full_iff.2 (by omega))]; simp [hc], by simpa [hc] using h⟩

theorem insertMove_ok (h : Good cap sms check s l) (i : Nat) (v : α) (hi : i ≤ l.length) (hh : i = 0 ∨ i = l.length ∨ l.length ≤ 2 * i + 1) :
    ∃ s', insertMove s (add (bs s) s.b i) v = .ok (s', (specStep cap l (.insert i v)).2) ∧ Good cap sms check s' (specStep cap l (.insert i v)).1 := by
  rw [h.add_b hi]
  simp only [insertMove, specStep]
  by_cases hc : l.length < cap
  · rw [if_neg (h.not_full hc)]
    simp only [hc, if_true]
    by_cases h0 : i = 0
    · subst h0
      obtain ⟨s1, e1, _, g1⟩ := createFront_ok h hc v
      refine ⟨s1, ?_, by rw [ins_zero]; exact g1⟩
      rw [if_pos ((h.eq_b hi).2 rfl)]; simp [e1, bind, Except.bind, g1.dist_b]
    · rw [if_neg (fun x => h0 ((h.eq_b hi).1 x))]
      by_cases h1 : i = l.length
      · subst h1
        obtain ⟨s1, e1, _, g1⟩ := createBack_ok h hc v
        refine ⟨s1, ?_, by rw [ins_len]; exact g1⟩
        have := g1.dist_e (k := 1) (by simp)
        rw [if_pos ((h.eq_e hi).2 rfl)]; simp [e1, bind, Except.bind, this]
      · rw [if_neg (fun x => h1 ((h.eq_e hi).1 x))]
        have hnc : ¬ (closer s (wr (cap+1) s.b i) = true) := by rw [closer_iff h (by omega)]; omega
        obtain ⟨s1, e1, g1⟩ := gapBackMove_ok h hc (i := i) (by omega)
        obtain ⟨m, e2, g2⟩ := g1.assign v
        refine ⟨{ s1 with mem := m }, ?_, g2⟩
        rw [if_neg hnc]; simp [e1, e2, bind, Except.bind, g1.dist]
  · have hle := h.le
    exact ⟨s, by rw [if_pos (h.full_iff.2 (by omega))]; simp [hc], by simpa [hc] using h⟩

theorem constructFrom_eq {b : Nat} (k : Nat) : ∀ (m : Mem α) (i f : Nat) (w : List α), b < m.cap → w.length = k → i + k ≤ f → f + k ≤ m.cap →
    (∀ j, j < k → (rot b m).cell (f + j) = cellOf w j) →
    constructFrom m (wr m.cap b i) (wr m.cap b f) k = constructAll m (wr m.cap b i) w := by
  induction k with
  | zero => intro m i f w _ hw _ _ _; rw [List.eq_nil_of_length_eq_zero hw]; rfl
  | succ k ih =>
    intro m i f w hb hw hif hf hc
    cases w with
    | nil => simp at hw
    | cons v w =>
      have hr : m.read (wr m.cap b f) = .ok v := by
        rw [rot_read hb (by omega)]
        have := hc 0 (by omega)
        exact read_ok (by simp; omega) (by simpa [cellOf] using this)
      simp only [constructFrom, constructAll, hr, bind, Except.bind]
      cases hk : m.construct (wr m.cap b i) v with
      | error e => rfl
      | ok m' =>
        have hcap := construct_cap hk
        have hrot : rot b m' = (rot b m).set i (.live v) := by
          have h1 := rot_construct (k := i) hb (by omega) v
          rw [hk] at h1
          unfold construct at h1
          split_ifs at h1
          · split at h1
            · simpa [Except.map] using h1
            · simp [Except.map] at h1
          · simp [Except.map] at h1
        simp only [hcap]
        rw [inc_wr hb (by omega), inc_wr hb (by omega)]
        have := ih m' (i+1) (f+1) w (by omega) (by simpa using hw) (by omega) (by omega) (fun j hj => by
          have := hc (j+1) (by omega)
          rw [hrot, set_cell, if_neg (by omega)]
          rw [show f + 1 + j = f + (j + 1) by omega, this]; rfl)
        rw [hcap] at this; exact this

theorem createFrontFrom_ok (h : Good cap sms check s l) (k i : Nat) (hc : l.length + k ≤ cap) (hi : i + k ≤ l.length) :
    ∃ s', createFrontFrom s k (add (bs s) s.b i) = .ok s' ∧ s'.b = sub (cap+1) s.b k ∧ Good cap sms check s' ((l.drop i).take k ++ l) := by
  have hb := h.b; have hcap := h.cap
  have hw : ((l.drop i).take k).length = k := by simp; omega
  obtain ⟨s', e, b', g⟩ := createFrontL_ok h ((l.drop i).take k) (by omega)
  refine ⟨s', ?_, by rw [b', hw], g⟩
  rw [← e]
  unfold createFrontFrom createFrontL
  rw [hw]
  by_cases h0 : k = 0
  · simp [h0]
  · rw [if_neg h0, if_neg h0, h.add_b (by omega)]
    have hlt : sub (cap+1) s.b k < cap + 1 := sub_lt hb (by omega) (by omega)
    have := constructFrom_eq (b := sub (cap+1) s.b k) k s.mem 0 (i + k) ((l.drop i).take k) (by omega) hw (by omega) (by omega) (fun j hj => by
      rw [rot_sub h hc, if_neg (by omega), cellOf_take, if_pos hj, cellOf_drop]; congr 1; omega)
    rw [hcap, wr_zero hlt, ← wr_base hb (by omega)] at this
    simp only [bs, hcap, this]

/-- The quantities of the middle branches. -/
theorem counts (k n : Nat) (hkn : 0 < k ∨ True) : (if k > min k n then k - min k n else 0) = k - min k n ∧
    (if k > (k - min k n) then k - (k - min k n) else 0) = min k n := by
  constructor
  · split_ifs <;> omega
  · split_ifs <;> omega

theorem frontRest (vs : List α) {i : Nat} (hi : i ≤ l.length) {b0 : Nat} (hb0 : b0 < cap + 1) (hk : vs ≠ [] ∨ sms = true) (hfit : l.length + vs.length ≤ cap)
    (h : Good cap sms check s (l.take (min vs.length i) ++ vs.take (vs.length - min vs.length i) ++ l)) (hsb : s.b = sub (cap+1) b0 vs.length) :
    ∃ m1 m2, moveUpR s.mem (sub (bs s) (wr (cap+1) b0 i) (i - min vs.length i)) (steps (bs s) (sub (bs s) (wr (cap+1) b0 i) (i - min vs.length i)) (add (bs s) (sub (bs s) (wr (cap+1) b0 i) (i - min vs.length i)) (i - min vs.length i)))
        (add (bs s) s.b (min vs.length i)) = .ok m1 ∧
      copyToR m1 (sub (bs s) (wr (cap+1) b0 i) (min vs.length i)) (vs.drop (vs.length - min vs.length i)) = .ok m2 ∧
      Good cap sms check { s with mem := m2 } (l.take i ++ vs ++ l.drop i) := by
  obtain ⟨m1, m2, e1, e2, g⟩ := tailFront_ok vs i hi hk _ rfl h
  have hp : wr (cap+1) b0 i = wr (cap+1) s.b (i + vs.length) := by rw [hsb]; exact wr_base hb0 (by omega)
  have x1 : sub (bs s) (wr (cap+1) b0 i) (i - min vs.length i) = wr (cap+1) s.b (vs.length + min vs.length i) := by
    rw [hp, bs, h.cap, sub_wr h.b (by omega) (by omega)]; congr 1; omega
  have x2 : add (bs s) (wr (cap+1) s.b (vs.length + min vs.length i)) (i - min vs.length i) = wr (cap+1) s.b (vs.length + i) := by
    rw [bs, h.cap, add_wr h.b (by omega)]; congr 1; omega
  have x3 : steps (bs s) (wr (cap+1) s.b (vs.length + min vs.length i)) (wr (cap+1) s.b (vs.length + i)) = i - min vs.length i := by
    rw [bs, h.cap, steps_wr h.b (by omega) (by omega)]; omega
  have x4 : add (bs s) s.b (min vs.length i) = wr (cap+1) s.b (min vs.length i) := by rw [bs, h.cap, add_b h.b (by omega)]
  have x5 : sub (bs s) (wr (cap+1) b0 i) (min vs.length i) = wr (cap+1) s.b (i + vs.length - min vs.length i) := by
    rw [hp, bs, h.cap, sub_wr h.b (by omega) (by omega)]
  refine ⟨m1, m2, ?_, ?_, g⟩
  · rw [x1, x2, x3, x4]; exact e1
  · rw [x5]; exact e2

theorem dist_mem (h : Good cap sms check s l) {i : Nat} (hi : i ≤ l.length) : dist s (add (bs s) s.b i) = i := by
  rw [h.add_b hi, h.dist_wr (by have := h.le; omega)]

theorem insertNFront_ok (h : Good cap sms check s l) (i k : Nat) (v : α) (hi : i < l.length) (h0 : 0 < i) (hk : k ≠ 0 ∨ sms = true) (hfit : l.length + k ≤ cap) :
    ∃ s', insertNFront s (wr (cap+1) s.b i) k v = .ok (s', .at i) ∧ Good cap sms check s' (l.take i ++ List.replicate k v ++ l.drop i) := by
  have hle := h.le
  have hd : (dist2 s s.b (wr (cap+1) s.b i)).toNat = i := by simp [dist2, h.dist_b, h.dist_wr (show i ≤ cap by omega)]
  obtain ⟨c1, c2⟩ := counts k i (Or.inr trivial)
  obtain ⟨s1, e1, b1, g1⟩ := rep_createFront_ok v (k - min k i) h (by omega)
  have hfrom : 0 < min k i → sub (bs s) (add (bs s) s.b (min k i)) 1 = wr (cap+1) s1.b (k - min k i + min k i - 1) := by
    intro hp
    rw [h.add_b (by omega), bs, h.cap, sub_wr h.b (by omega) (by omega), b1, wr_base (n := k - min k i) h.b (by omega)]; congr 1; omega
  obtain ⟨s2, e2, b2, g2⟩ := createFrontDown_ok (min k i) (k - min k i + min k i) (sub (bs s) (add (bs s) s.b (min k i)) 1) g1 (by simp; omega) (by simp; omega) (by omega) hfrom
  have hcopy : ((List.replicate (k - min k i) v ++ l).drop (k - min k i + min k i - min k i)).take (min k i) = l.take (min k i) := by
    rw [Nat.add_sub_cancel, List.drop_left' (by simp)]
  rw [hcopy] at g2
  have hrep : (List.replicate k v).take (k - min k i) = List.replicate (k - min k i) v := by rw [List.take_replicate]; congr 1; omega
  have hrepd : (List.replicate k v).drop (k - min k i) = List.replicate (min k i) v := by rw [List.drop_replicate]; congr 1; omega
  have hb2 : s2.b = sub (cap+1) s.b k := by
    rw [b2, b1]; have := h.b; unfold sub; split_ifs <;> omega
  obtain ⟨m1, m2, f1, f2, g⟩ := frontRest (s := s2) (List.replicate k v) (Nat.le_of_lt hi) h.b (by rcases hk with x | x <;> [exact Or.inl (by simp [x]); exact Or.inr x]) (by simpa using hfit)
    (by simpa only [List.length_replicate, hrep, List.append_assoc] using g2) (by simpa using hb2)
  simp only [List.length_replicate, hrepd] at f1 f2
  refine ⟨{ s2 with mem := m2 }, ?_, g⟩
  have hdist := dist_mem g (i := i) (by simp; omega)
  have hbs : bs { s2 with mem := m2 } = bs s2 := by simp only [bs, g2.cap]; exact g.cap
  simp only [insertNFront, hd, c1, c2, e1, e2, fillNR_eq, f1, f2, bind, Except.bind]
  rw [hbs] at hdist ⊢
  rw [hdist]

theorem insertRangeFront_ok (h : Good cap sms check s l) (i : Nat) (vs : List α) (hi : i < l.length) (h0 : 0 < i) (hk : vs ≠ [] ∨ sms = true) (hfit : l.length + vs.length ≤ cap) :
    ∃ s', insertRangeFront s (wr (cap+1) s.b i) vs = .ok (s', .at i) ∧ Good cap sms check s' (l.take i ++ vs ++ l.drop i) := by
  have hle := h.le
  have hd : (dist2 s s.b (wr (cap+1) s.b i)).toNat = i := by simp [dist2, h.dist_b, h.dist_wr (show i ≤ cap by omega)]
  obtain ⟨c1, c2⟩ := counts vs.length i (Or.inr trivial)
  have hln : (vs.take (vs.length - min vs.length i)).length = vs.length - min vs.length i := by simp
  obtain ⟨s1, e1, b1, g1⟩ := createFrontL_ok h (vs.take (vs.length - min vs.length i)) (by omega)
  obtain ⟨s2, e2, b2, g2⟩ := createFrontFrom_ok g1 (min vs.length i) (vs.length - min vs.length i) (by simp; omega) (by simp; omega)
  have hcopy : ((vs.take (vs.length - min vs.length i) ++ l).drop (vs.length - min vs.length i)).take (min vs.length i) = l.take (min vs.length i) := by
    rw [List.drop_left' hln]
  rw [hcopy] at g2
  rw [hln] at b1
  have hb2 : s2.b = sub (cap+1) s.b vs.length := by
    rw [b2, b1]; have := h.b; unfold sub; split_ifs <;> omega
  obtain ⟨m1, m2, f1, f2, g⟩ := frontRest (s := s2) vs (Nat.le_of_lt hi) h.b hk hfit (by simpa only [List.append_assoc] using g2) hb2
  refine ⟨{ s2 with mem := m2 }, ?_, g⟩
  have hdist := dist_mem g (i := i) (by simp; omega)
  have hbs : bs { s2 with mem := m2 } = bs s2 := by simp only [bs, g2.cap]; exact g.cap
  have htk : (vs.drop (vs.length - min vs.length i)).take (min vs.length i) = vs.drop (vs.length - min vs.length i) := List.take_of_length_le (by simp; omega)
  simp only [insertRangeFront, hd, c1, c2, e1, e2, f1, htk, f2, bind, Except.bind]
  rw [hbs] at hdist ⊢
  rw [hdist]

theorem insertRangeBack_ok (h : Good cap sms check s l) (i : Nat) (vs : List α) (hi : i < l.length) (hk : vs ≠ [] ∨ sms = true) (hfit : l.length + vs.length ≤ cap) :
    ∃ s', insertRangeBack s (wr (cap+1) s.b i) vs = .ok (s', .at i) ∧ Good cap sms check s' (l.take i ++ vs ++ l.drop i) := by
  have hle := h.le
  have hd : (dist2 s (wr (cap+1) s.b i) s.e).toNat = l.length - i := by
    simp only [dist2, h.dist_e0, h.dist_wr (show i ≤ cap by omega)]; omega
  obtain ⟨c1, c2⟩ := counts vs.length (l.length - i) (Or.inr trivial)
  have hcc : min vs.length (l.length - i) ≤ vs.length := by omega
  generalize hcdef : min vs.length (l.length - i) = cc at *
  have hnew : (vs.drop (vs.length - (vs.length - cc))).take (vs.length - cc) = vs.drop cc := by
    rw [show vs.length - (vs.length - cc) = cc by omega]; exact List.take_of_length_le (by simp)
  obtain ⟨s1, e1, b1, g1⟩ := createBackL_ok (vs.drop cc) h (by simp; omega)
  obtain ⟨s2, e2, b2, g2⟩ := createBackFrom_ok cc (l.length - cc) g1 (by simp; omega) (by simp; omega)
  have hcopy : ((l ++ vs.drop cc).drop (l.length - cc)).take cc = l.drop (l.length - cc) := by
    rw [List.drop_append_of_le_length (by omega), List.take_append_of_le_length (by simp; omega)]
    exact List.take_of_length_le (by simp; omega)
  rw [hcopy] at g2
  obtain ⟨m1, m2, f1, f2, g⟩ := tailBack_ok vs i (Nat.le_of_lt hi) hk cc hcdef.symm g2
  refine ⟨{ s2 with mem := m2 }, ?_, g⟩
  have hb12 : s2.b = s.b := b2.trans b1
  have x1 : add (bs s1) (wr (cap+1) s.b i) (l.length - i - cc) = wr (cap+1) s1.b (l.length - cc) := by
    rw [bs, g1.cap, b1, add_wr h.b (by omega)]; congr 1; omega
  have x2 : add (bs s2) (wr (cap+1) s.b i) (l.length - i - cc) = wr (cap+1) s2.b (l.length - cc) := by
    rw [bs, g2.cap, hb12, add_wr h.b (by omega)]; congr 1; omega
  have x3 : steps (bs s2) (wr (cap+1) s.b i) (wr (cap+1) s2.b (l.length - cc)) = l.length - i - cc := by
    rw [bs, g2.cap, hb12, steps_wr h.b (by omega) (by omega)]; omega
  have x4 : add (bs s2) (add (bs s2) (wr (cap+1) s.b i) vs.length) (l.length - i - cc) = wr (cap+1) s2.b (l.length - cc + vs.length) := by
    rw [bs, g2.cap, hb12, add_wr h.b (by omega), add_wr h.b (by omega)]; congr 1; omega
  have hdist : dist { s2 with mem := m2 } (wr (cap+1) s.b i) = i := by
    have := g.dist_wr (k := i) (by omega)
    simp only [hb12] at this ⊢; exact this
  rw [hb12] at f2
  simp only [insertRangeBack, hd, hcdef, c1, c2, hnew, e1, x1, e2, x2, x3, x4, f1, f2, hdist, bind, Except.bind]

theorem insertNBack_eq (s : St α) (p k : Nat) (v : α) : insertNBack s p k v = insertRangeBack s p (List.replicate k v) := by
  simp only [insertNBack, insertRangeBack, List.length_replicate, rep_createBack, fillNR_eq]
  obtain ⟨c1, c2⟩ := counts k (dist2 s p s.e).toNat (Or.inr trivial)
  have h1 : ((List.replicate k v).drop (k - (k - min k (dist2 s p s.e).toNat))).take (k - min k (dist2 s p s.e).toNat) = List.replicate (k - min k (dist2 s p s.e).toNat) v := by
    rw [List.drop_replicate, List.take_replicate]; congr 1; omega
  have h2 : (List.replicate k v).take (min k (dist2 s p s.e).toNat) = List.replicate (min k (dist2 s p s.e).toNat) v := by
    rw [List.take_replicate]; congr 1; omega
  rw [c1, c2, h1, h2]

theorem insertN_ok (h : Good cap sms check s l) (i k : Nat) (v : α) (hi : i ≤ l.length) (hk : k ≠ 0 ∨ sms = true ∨ i = 0 ∨ i = l.length) :
    ∃ s', insertN s (add (bs s) s.b i) k v = .ok (s', (specStep cap l (.insertN i k v)).2) ∧ Good cap sms check s' (specStep cap l (.insertN i k v)).1 := by
  have hle := h.le
  rw [h.add_b hi]
  simp only [insertN, specStep, h.cap', h.n]
  by_cases hc : l.length + k ≤ cap
  · simp only [hc, if_true]
    by_cases h0 : i = 0
    · subst h0
      obtain ⟨s1, e1, _, g1⟩ := rep_createFront_ok v k h hc
      refine ⟨s1, ?_, by simpa using g1⟩
      rw [if_pos ((h.eq_b hi).2 rfl)]; simp [e1, bind, Except.bind, g1.dist_b]
    · rw [if_neg (fun x => h0 ((h.eq_b hi).1 x))]
      by_cases h1 : i = l.length
      · subst h1
        obtain ⟨s1, e1, _, g1⟩ := createBackL_ok (List.replicate k v) h (by simpa using hc)
        refine ⟨s1, ?_, by simpa using g1⟩
        have := g1.dist_e (k := k) (by simp)
        rw [if_pos ((h.eq_e hi).2 rfl)]; simp [rep_createBack, e1, bind, Except.bind, this]
      · rw [if_neg (fun x => h1 ((h.eq_e hi).1 x))]
        have hk' : k ≠ 0 ∨ sms = true := by rcases hk with x | x | x | x <;> [exact Or.inl x; exact Or.inr x; omega; omega]
        split_ifs
        · exact insertNFront_ok h i k v (by omega) (by omega) hk' hc
        · rw [insertNBack_eq]
          exact insertRangeBack_ok h i _ (by omega) (by rcases hk' with x | x <;> [exact Or.inl (by simp [x]); exact Or.inr x]) (by simpa using hc)
  · exact ⟨s, by simp [hc], by simpa [hc] using h⟩

theorem insertRange_ok (h : Good cap sms check s l) (i : Nat) (vs : List α) (hi : i ≤ l.length) (hk : vs ≠ [] ∨ sms = true ∨ i = 0 ∨ i = l.length) :
    ∃ s', insertRange s (add (bs s) s.b i) vs = .ok (s', (specStep cap l (.insertRange i vs)).2) ∧ Good cap sms check s' (specStep cap l (.insertRange i vs)).1 := by
  have hle := h.le
  rw [h.add_b hi]
  simp only [insertRange, specStep, h.cap', h.n]
  by_cases hc : l.length + vs.length ≤ cap
  · simp only [hc, if_true]
    by_cases h0 : i = 0
    · subst h0
      obtain ⟨s1, e1, _, g1⟩ := createFrontL_ok h vs hc
      refine ⟨s1, ?_, by simpa using g1⟩
      rw [if_pos ((h.eq_b hi).2 rfl)]; simp [e1, bind, Except.bind, g1.dist_b]
    · rw [if_neg (fun x => h0 ((h.eq_b hi).1 x))]
      by_cases h1 : i = l.length
      · subst h1
        obtain ⟨s1, e1, _, g1⟩ := createBackL_ok vs h hc
        refine ⟨s1, ?_, by simpa using g1⟩
        have := g1.dist_e (k := vs.length) (by simp)
        rw [if_pos ((h.eq_e hi).2 rfl)]; simp [e1, bind, Except.bind, this]
      · rw [if_neg (fun x => h1 ((h.eq_e hi).1 x))]
        have hk' : vs ≠ [] ∨ sms = true := by
          rcases hk with x | x | x | x <;> [exact Or.inl x; exact Or.inr x; omega; omega]
        split_ifs
        · exact insertRangeFront_ok h i vs (by omega) (by omega) hk' hc
        · exact insertRangeBack_ok h i _ (by omega) hk' hc
  · exact ⟨s, by simp [hc], by simpa [hc] using h⟩

/-- Moving `[0, i)` up by `k` and dropping `k` objects at the front. -/
theorem eraseFront_ok (h : Good cap sms check s l) (i k : Nat) (hik : i + k ≤ l.length) (hk : k ≠ 0 ∨ sms = true) :
    ∃ m s', moveDownR s.mem (steps (bs s) s.b (wr (cap+1) s.b i)) (wr (cap+1) s.b i) (add (bs s) (wr (cap+1) s.b i) k) = .ok m ∧
      rep destroyFront { s with mem := m } k = .ok s' ∧ s'.b = wr (cap+1) s.b k ∧ Good cap sms check s' (l.take i ++ l.drop (i + k)) := by
  have hle := h.le; have hb := h.b; have hcap := h.cap
  have hst : steps (bs s) s.b (wr (cap+1) s.b i) = i := by
    have := steps_wr (c := cap+1) (i := 0) (j := i) hb (by omega) (by omega)
    rw [wr_zero hb] at this; rw [bs, hcap, this]; rfl
  have hdst : add (bs s) (wr (cap+1) s.b i) k = wr (cap+1) s.b (i + k) := by rw [bs, hcap, add_wr hb (by omega)]
  obtain ⟨m2, e2, s2, c2⟩ : ∃ m', (rot s.b s.mem).moveDown i i (i + k) = .ok m' ∧ Same (rot s.b s.mem) m' ∧
      ∀ j, (j < k → m'.cell j ≠ .raw) ∧ (k ≤ j → j < i + k → m'.cell j = cellOf l (j - k)) ∧ (i + k ≤ j → m'.cell j = cellOf l j) := by
    by_cases h0 : k = 0
    · subst h0
      obtain ⟨m', e, s', c⟩ := moveDown_self i (rot s.b s.mem) i (by simp [h.sms]; exact hk.resolve_left (by simp)) (by omega) (by simp; omega)
        (fun j _ h2 => by rw [h.cells]; exact cellOf_live (by omega))
      exact ⟨m', e, s', fun j => ⟨fun x => by omega, fun _ _ => by rw [c, h.cells]; rfl, fun _ => by rw [c, h.cells]⟩⟩
    · obtain ⟨m', e, s', c⟩ := moveDown_ok i (rot s.b s.mem) i (i + k) (by omega) (by omega) (by simp; omega)
        (fun j _ h2 => by rw [h.cells]; exact cellOf_live (by omega)) (fun j _ h2 => by rw [h.cells]; exact cellOf_ne_raw.2 (by omega))
      refine ⟨m', e, s', fun j => ⟨fun x => ?_, fun x y => ?_, fun x => ?_⟩⟩
      · rw [c, if_neg (by omega)]
        split_ifs
        · simp
        · rw [h.cells]; exact cellOf_ne_raw.2 (by omega)
      · rw [c, if_pos (by omega), h.cells]; congr 1; omega
      · rw [c, if_neg (by omega), if_neg (by omega), h.cells]
  rw [← rot_moveDownR _ s.mem _ _ (by omega) (by omega) (by omega) (by omega) (by omega), hcap] at e2
  obtain ⟨m, e, hm⟩ := map_ok e2
  have hj : Junk cap sms check { s with mem := m } (0 + k) (l.take i ++ l.drop (i + k)) 0 := by
    have hlen : (l.take i ++ l.drop (i + k)).length = l.length - k := by simp; omega
    refine { cap := ?_, sms := ?_, chk := h.chk, n := by rw [hlen]; simp [h.n]; omega, le := by rw [hlen]; omega, b := hb, e := ?_, front := ?_, mid := ?_, back := fun j h1 h2 => by omega, raw := ?_ }
    · have := s2.1; rw [← hm] at this; simpa [hcap] using this
    · have := s2.2; rw [← hm] at this; simpa [h.sms] using this
    · simp only [h.e]; congr 1; rw [hlen]; omega
    · intro j hj; simp only [hm]; exact (c2 j).1 (by omega)
    · intro j h1 h2
      rw [hlen] at h2
      simp only [hm, cellOf_append, cellOf_take, cellOf_drop, List.length_take]
      by_cases hx : j < i + k
      · rw [(c2 j).2.1 (by omega) hx, if_pos (by omega), if_pos (by omega)]; congr 1; omega
      · rw [(c2 j).2.2 (by omega), if_neg (by omega)]; congr 1; omega
    · intro j h1; rw [hlen] at h1; simp only [hm]; rw [(c2 j).2.2 (by omega), cellOf_ge (by omega)]
  obtain ⟨s', e', b', g'⟩ := Junk.repFront k hj
  exact ⟨m, s', by rw [hst, hdst]; exact e, e', b', g'.good⟩

/-- Moving `[i + k, n)` down by `k` and dropping `k` objects at the back. -/
theorem eraseBack_ok (h : Good cap sms check s l) (i k : Nat) (hik : i + k ≤ l.length) (hk : k ≠ 0 ∨ sms = true) :
    ∃ m s', moveUpR s.mem (add (bs s) (wr (cap+1) s.b i) k) (steps (bs s) (add (bs s) (wr (cap+1) s.b i) k) s.e) (wr (cap+1) s.b i) = .ok m ∧
      rep destroyBack { s with mem := m } k = .ok s' ∧ s'.b = s.b ∧ Good cap sms check s' (l.take i ++ l.drop (i + k)) := by
  have hle := h.le; have hb := h.b; have hcap := h.cap
  have hsrc : add (bs s) (wr (cap+1) s.b i) k = wr (cap+1) s.b (i + k) := by rw [bs, hcap, add_wr hb (by omega)]
  have hst : steps (bs s) (wr (cap+1) s.b (i + k)) s.e = l.length - (i + k) := by
    rw [bs, hcap, h.e, steps_wr hb (by omega) (by omega)]
  obtain ⟨m2, e2, s2, c2⟩ : ∃ m', (rot s.b s.mem).moveUp (i + k) (l.length - (i + k)) i = .ok m' ∧ Same (rot s.b s.mem) m' ∧
      ∀ j, (j < i → m'.cell j = cellOf l j) ∧ (i ≤ j → j < l.length - k → m'.cell j = cellOf l (j + k)) ∧ (l.length - k ≤ j → j < l.length → m'.cell j ≠ .raw) ∧
        (l.length ≤ j → m'.cell j = .raw) := by
    by_cases h0 : k = 0
    · subst h0
      obtain ⟨m', e, s', c⟩ := moveUp_self (l.length - i) (rot s.b s.mem) i (by simp [h.sms]; exact hk.resolve_left (by simp)) (by simp; omega)
        (fun j _ h2 => by rw [h.cells]; exact cellOf_live (by omega))
      exact ⟨m', e, s', fun j => ⟨fun x => by rw [c, h.cells], fun _ _ => by rw [c, h.cells]; rfl, fun _ _ => by omega, fun _ => by rw [c, h.cells, cellOf_ge (by omega)]⟩⟩
    · obtain ⟨m', e, s', c⟩ := moveUp_ok (l.length - (i + k)) (rot s.b s.mem) (i + k) i (by omega) (by simp; omega)
        (fun j _ h2 => by rw [h.cells]; exact cellOf_live (by omega)) (fun j _ h2 => by rw [h.cells]; exact cellOf_ne_raw.2 (by omega))
      refine ⟨m', e, s', fun j => ⟨fun x => ?_, fun x y => ?_, fun x y => ?_, fun x => ?_⟩⟩
      · rw [c, if_neg (by omega), if_neg (by omega), h.cells]
      · rw [c, if_pos (by omega), h.cells]; congr 1; omega
      · rw [c, if_neg (by omega)]
        split_ifs
        · simp
        · rw [h.cells]; exact cellOf_ne_raw.2 (by omega)
      · rw [c, if_neg (by omega), if_neg (by omega), h.cells, cellOf_ge (by omega)]
  rw [← rot_moveUpR _ s.mem _ _ (by omega) (by omega) (by omega), hcap] at e2
  obtain ⟨m, e, hm⟩ := map_ok e2
  have hj : Junk cap sms check { s with mem := m } 0 (l.take i ++ l.drop (i + k)) (0 + k) := by
    have hlen : (l.take i ++ l.drop (i + k)).length = l.length - k := by simp; omega
    refine { cap := ?_, sms := ?_, chk := h.chk, n := by rw [hlen]; simp [h.n]; omega, le := by rw [hlen]; omega, b := hb, e := ?_, front := fun j hj => by omega, mid := ?_, back := ?_, raw := ?_ }
    · have := s2.1; rw [← hm] at this; simpa [hcap] using this
    · have := s2.2; rw [← hm] at this; simpa [h.sms] using this
    · simp only [h.e]; congr 1; rw [hlen]; omega
    · intro j h1 h2
      rw [hlen] at h2
      simp only [hm, cellOf_append, cellOf_take, cellOf_drop, List.length_take]
      by_cases hx : j < i
      · rw [(c2 j).1 hx, if_pos (by omega), if_pos (by omega)]; rfl
      · rw [(c2 j).2.1 (by omega) (by omega), if_neg (by omega)]; congr 1; omega
    · intro j h1 h2; rw [hlen] at h1 h2; simp only [hm]; exact (c2 j).2.2.1 (by omega) (by omega)
    · intro j h1; rw [hlen] at h1; simp only [hm]; exact (c2 j).2.2.2 (by omega)
  obtain ⟨s', e', b', g'⟩ := Junk.repBack k hj
  exact ⟨m, s', by rw [hsrc, hst]; exact e, e', b', g'.good⟩

theorem rep_one (f : St α → Res (St α)) (s : St α) : rep f s 1 = f s := by
  simp only [rep, bind, Except.bind]; cases f s <;> rfl

theorem eraseRange_ok (h : Good cap sms check s l) (i j : Nat) (hij : i ≤ j) (hj : j ≤ l.length) (hk : i ≠ j ∨ sms = true ∨ i = 0 ∨ i = l.length) :
    ∃ s', eraseRange s (add (bs s) s.b i) (add (bs s) s.b j) = .ok (s', .at i) ∧ Good cap sms check s' (l.take i ++ l.drop j) := by
  have hle := h.le
  rw [h.add_b (show i ≤ l.length by omega), h.add_b hj]
  simp only [eraseRange, h.dist_wr (show i ≤ cap by omega), h.dist_wr (show j ≤ cap by omega), h.n]
  rw [if_pos (by omega)]
  have hlen : (dist2 s (wr (cap+1) s.b i) (wr (cap+1) s.b j)).toNat = j - i := by
    simp only [dist2, h.dist_wr (show i ≤ cap by omega), h.dist_wr (show j ≤ cap by omega)]; omega
  simp only [hlen]
  by_cases h0 : i = 0
  · subst h0
    obtain ⟨s1, e1, _, g1⟩ := repDestroyFront_ok h j (by omega)
    refine ⟨s1, ?_, by simpa using g1⟩
    rw [if_pos ((h.eq_b (by omega)).2 rfl)]; simp [e1, bind, Except.bind, g1.dist_b]
  · rw [if_neg (fun x => h0 ((h.eq_b (by omega)).1 x))]
    have hee : wr (cap+1) s.b i = sub (bs s) s.e (j - i) ↔ j = l.length := by
      rw [bs, h.cap, h.e, sub_wr h.b (by omega) (by omega), wr_inj h.b (by omega) (by omega)]; omega
    by_cases h1 : j = l.length
    · obtain ⟨s1, e1, _, g1⟩ := repDestroyBack_ok h (j - i) (by omega)
      have hx : l.length - (j - i) = i := by omega
      rw [hx] at g1
      refine ⟨s1, ?_, by subst h1; simpa using g1⟩
      have := g1.dist_e0
      rw [if_pos (hee.2 h1)]; simp [e1, bind, Except.bind, this]; omega
    · rw [if_neg (fun x => h1 (hee.1 x))]
      have hk' : j - i ≠ 0 ∨ sms = true := by
        rcases hk with x | x | x | x <;> [exact Or.inl (by omega); exact Or.inr x; omega; omega]
      have hji : i + (j - i) = j := by omega
      split_ifs
      · obtain ⟨m, s1, e1, e2, b1, g1⟩ := eraseFront_ok h i (j - i) (by omega) hk'
        rw [hji] at g1
        rw [h.n] at e2
        refine ⟨s1, ?_, g1⟩
        have : dist s1 (add (bs s1) (wr (cap+1) s.b i) (j - i)) = i := by
          rw [bs, g1.cap, add_wr h.b (by omega)]
          have e3 : wr (cap+1) s.b (i + (j - i)) = wr (cap+1) s1.b i := by rw [b1, wr_add h.b (by omega)]; congr 1; omega
          rw [e3, g1.dist_wr (by omega)]
        simp [e1, e2, bind, Except.bind, this]
      · obtain ⟨m, s1, e1, e2, b1, g1⟩ := eraseBack_ok h i (j - i) (by omega) hk'
        rw [hji] at g1
        rw [h.n] at e2
        refine ⟨s1, ?_, g1⟩
        have : dist s1 (wr (cap+1) s.b i) = i := by rw [← b1, g1.dist_wr (by omega)]
        simp [e1, e2, bind, Except.bind, this]

theorem erase_ok (h : Good cap sms check s l) (i : Nat) (hi : i < l.length) :
    ∃ s', erase s (add (bs s) s.b i) = .ok (s', .at i) ∧ Good cap sms check s' (l.eraseIdx i) := by
  have hle := h.le
  have hspec : l.eraseIdx i = l.take i ++ l.drop (i + 1) := List.eraseIdx_eq_take_drop_succ ..
  rw [hspec, h.add_b (show i ≤ l.length by omega)]
  simp only [erase, h.dist_wr (show i ≤ cap by omega), h.n]
  rw [if_pos (by omega)]
  by_cases h0 : i = 0
  · subst h0
    obtain ⟨s1, e1, _, g1⟩ := destroyFront_ok h (by intro x; simp [x] at hi)
    refine ⟨s1, ?_, by simpa using g1⟩
    rw [if_pos ((h.eq_b (by omega)).2 rfl)]; simp [e1, bind, Except.bind, g1.dist_b]
  · rw [if_neg (fun x => h0 ((h.eq_b (by omega)).1 x))]
    have hee : wr (cap+1) s.b i = sub (bs s) s.e 1 ↔ i + 1 = l.length := by
      rw [bs, h.cap, h.e, sub_wr h.b (by omega) (by omega), wr_inj h.b (by omega) (by omega)]; omega
    by_cases h1 : i + 1 = l.length
    · obtain ⟨s1, e1, _, g1⟩ := destroyBack_ok h (by intro x; simp [x] at hi)
      refine ⟨s1, ?_, ?_⟩
      · have := g1.dist_e0
        rw [List.length_dropLast] at this
        rw [if_pos (hee.2 h1)]; simp [e1, bind, Except.bind, this]; omega
      · rw [List.drop_of_length_le (by omega), List.append_nil, show i = l.length - 1 by omega, dropLast_eq]; exact g1
    · rw [if_neg (fun x => h1 (hee.1 x))]
      split_ifs
      · obtain ⟨m, s1, e1, e2, b1, g1⟩ := eraseFront_ok h i 1 (by omega) (by omega)
        rw [rep_one] at e2
        rw [h.n] at e2
        refine ⟨s1, ?_, g1⟩
        have : dist s1 (inc (bs s1) (wr (cap+1) s.b i)) = i := by
          rw [bs, g1.cap, inc_wr h.b (by omega)]
          have e3 : wr (cap+1) s.b (i + 1) = wr (cap+1) s1.b i := by rw [b1, wr_add h.b (by omega)]; congr 1; omega
          rw [e3, g1.dist_wr (by omega)]
        simp [e1, e2, bind, Except.bind, this]
      · obtain ⟨m, s1, e1, e2, b1, g1⟩ := eraseBack_ok h i 1 (by omega) (by omega)
        rw [rep_one] at e2
        rw [h.n] at e2
        refine ⟨s1, ?_, g1⟩
        have : dist s1 (wr (cap+1) s.b i) = i := by rw [← b1, g1.dist_wr (by omega)]
        simp [e1, e2, bind, Except.bind, this]

theorem step_ok (h : Good cap sms check s l) (o : Op α) (hl : Legal cap sms check l o) :
    ∃ s', step s o = .ok (s', (specStep cap l o).2) ∧ Good cap sms check s' (specStep cap l o).1 := by
  cases o with
  | assignRange vs => exact assignRange_ok h vs hl
  | assignN k v => exact assignN_ok h k v
  | clear =>
    obtain ⟨s1, e1, g1⟩ := initialise_ok h
    exact ⟨s1, by simp [step, clear, e1, specStep, bind, Except.bind], g1⟩
  | resize k v => exact resize_ok h k v
  | pushBack v => exact pushBack_ok h v hl
  | pushFront v => exact pushFront_ok h v hl
  | popBack => exact popBack_ok h hl
  | popFront => exact popFront_ok h hl
  | insert i v => exact insert_ok h i v hl
  | insertMove i v => exact insertMove_ok h i v hl.1 hl.2
  | emplace i v => exact emplace_ok h i v hl
  | insertN i k v => exact insertN_ok h i k v hl.1 hl.2
  | insertRange i vs => exact insertRange_ok h i vs hl.1 hl.2
  | erase i => exact erase_ok h i hl
  | eraseRange i j => exact eraseRange_ok h i j hl.1 hl.2.1 hl.2.2

end Steps

theorem run_ok {cap : Nat} {sms check : Bool} (os : List (Op α)) : ∀ {s : St α} {l : List α}, Good cap sms check s l →
    LegalRun cap sms check l os →
    ∃ s', run s os = .ok (s', (specRun cap l os).2) ∧ Good cap sms check s' (specRun cap l os).1 := by
  induction os with
  | nil => intro s l h _; exact ⟨s, rfl, h⟩
  | cons o os ih =>
    intro s l h hl
    obtain ⟨s1, e1, h1⟩ := step_ok h o hl.1
    obtain ⟨s2, e2, h2⟩ := ih h1 hl.2
    exact ⟨s2, by simp [run, e1, e2, specRun, bind, Except.bind], h2⟩

/-! ## C11 -/

/-- What can be observed of a deque with contents `l`. -/
structure Shows (cap : Nat) (s : St α) (l : List α) : Prop where
  size : size s = l.length
  bound : l.length ≤ cap
  empty : empty s = true ↔ l = []
  full : full s = true ↔ l.length = cap
  avail : available s = cap - l.length
  contents : contents s = .ok l
  index : ∀ (i : Nat) (v : α), l[i]? = some v → index s i = .ok v ∧ atIdx s i = .ok (.ok v)
  atBad : ∀ i, l.length ≤ i → atIdx s i = .ok (.error .outOfBounds)
  front : ∀ v, l.head? = some v → front s = .ok v
  back : ∀ v, l.getLast? = some v → back s = .ok v
  /-- iterators: `begin() + i` and `begin() + j` are ordered and spaced like `i` and `j`, `end()` is `begin() + size()` -/
  iters : ∀ i j, i ≤ l.length → j ≤ l.length →
    dist2 s (add (bs s) s.b i) (add (bs s) s.b j) = (j : Int) - i ∧ (lt s (add (bs s) s.b i) (add (bs s) s.b j) = true ↔ i < j)
  iterEnd : add (bs s) s.b l.length = s.e
  iterStep : ∀ i, i < l.length → inc (bs s) (add (bs s) s.b i) = add (bs s) s.b (i + 1) ∧ dec (bs s) (add (bs s) s.b (i + 1)) = add (bs s) s.b i

theorem walk_ok {cap : Nat} {sms check : Bool} {s : St α} {l : List α} (h : Good cap sms check s l) (k : Nat) : ∀ i, i + k = cap + 1 → i ≤ l.length →
    walk s (wr (cap+1) s.b i) k = .ok (l.drop i) := by
  have hle := h.le
  induction k with
  | zero => intro i hi hil; omega
  | succ k ih =>
    intro i hi hil
    unfold walk
    by_cases he : i = l.length
    · rw [if_pos ((h.eq_e hil).2 he), he]; simp
    · rw [if_neg (fun x => he ((h.eq_e hil).1 x)), h.read (show i < l.length by omega)]
      simp only [bind, Except.bind, bs, h.cap, inc_wr h.b (show i < cap + 1 by omega), ih (i+1) (by omega) (by omega)]
      rw [← List.drop_eq_getElem_cons]

theorem shows_of_good {cap : Nat} {sms check : Bool} {s : St α} {l : List α} (h : Good cap sms check s l) : Shows cap s l := by
  have hn := h.n; have hle := h.le
  have hidx : ∀ i (hi : i < l.length), index s i = .ok l[i] := fun i hi => by rw [Deque.index, h.add_b (by omega), h.read hi]
  refine { size := hn, bound := hle, empty := h.empty_iff, full := h.full_iff, avail := by simp [available, h.cap', hn], contents := ?_, index := ?_, atBad := ?_, front := ?_, back := ?_, iters := ?_, iterEnd := ?_, iterStep := ?_ }
  · have := walk_ok h (cap+1) 0 (by omega) (by omega)
    rw [wr_zero h.b] at this
    simp only [Deque.contents, bs, h.cap, this, List.drop_zero]
  · intro i v hv
    obtain ⟨hi, rfl⟩ := List.getElem?_eq_some_iff.1 hv
    exact ⟨hidx i hi, by simp [atIdx, hn, hi, hidx i hi, bind, Except.bind]⟩
  · intro i hi; simp [atIdx, hn]; omega
  · intro v hv
    rw [List.head?_eq_getElem?] at hv
    obtain ⟨hi, rfl⟩ := List.getElem?_eq_some_iff.1 hv
    have := h.read hi; rw [wr_zero h.b] at this; exact this
  · intro v hv
    rw [List.getLast?_eq_getElem?] at hv
    obtain ⟨hi, rfl⟩ := List.getElem?_eq_some_iff.1 hv
    rw [Deque.back, bs, h.cap, h.e, sub_wr h.b (by omega) (by omega), h.read hi]
  · intro i j hi hj
    rw [h.add_b hi, h.add_b hj]
    simp [dist2, lt, h.dist_wr (show i ≤ cap by omega), h.dist_wr (show j ≤ cap by omega)]
  · rw [h.add_b (by omega), h.e]
  · intro i hi
    rw [h.add_b (by omega), h.add_b (by omega), bs, h.cap]
    exact ⟨inc_wr h.b (by omega), dec_wr h.b (by omega)⟩

/-- **C11.**  Every history of legal calls on a deque of any capacity runs without undefined behaviour, reports exactly the specified errors and
returned iterators, and leaves a deque that shows the contents of the ideal sequence - wherever in the ring it happens to lie. -/
theorem C11_refines (cap : Nat) (sms check : Bool) (os : List (Op α)) (hl : LegalRun cap sms check [] os) :
    ∃ s, run (init cap sms check) os = .ok (s, (specRun cap [] os).2) ∧ Shows cap s (specRun cap [] os).1 := by
  obtain ⟨s, e, h⟩ := run_ok os (good_init (α := α) cap sms check) hl
  exact ⟨s, e, shows_of_good h⟩

/-- **C11**, lifetimes: after every legal history the ring holds exactly `size()` live, not moved-from objects, at `begin(), begin()+1, ...`, every
other slot is raw, and the destructor leaves no object. -/
theorem C11_lifetimes (cap : Nat) (sms check : Bool) (os : List (Op α)) (hl : LegalRun cap sms check [] os) :
    ∃ s, run (init cap sms check) os = .ok s ∧ s.1.mem.cap = cap + 1 ∧
      (∀ k, k < size s.1 → ∃ v, s.1.mem.cell ((s.1.b + k) % (cap + 1)) = .live v) ∧
      (∀ k, size s.1 ≤ k → k < cap + 1 → s.1.mem.cell ((s.1.b + k) % (cap + 1)) = .raw) ∧
      ∃ s', clear s.1 = .ok (s', .ok) ∧ ∀ j, j < cap + 1 → s'.mem.cell j = .raw := by
  obtain ⟨s, e, h⟩ := run_ok os (good_init (α := α) cap sms check) hl
  have hn := h.n; have hle := h.le; have hb := h.b
  have hw : ∀ k, k < cap + 1 → (s.b + k) % (cap + 1) = wr (cap+1) s.b k := by
    intro k hk; unfold wr
    split_ifs with h1
    · exact Nat.mod_eq_of_lt h1
    · rw [Nat.mod_eq_sub_mod (by omega), Nat.mod_eq_of_lt (by omega)]
  have hcell : ∀ k, k < cap + 1 → s.mem.cell (wr (cap+1) s.b k) = cellOf (specRun cap [] os).1 k := by
    intro k hk
    rw [← h.cells, rot_cell (by rw [h.cap]; exact hk), h.cap]
  obtain ⟨s', e', g'⟩ := initialise_ok h
  refine ⟨_, e, h.cap, ?_, ?_, s', by simp [clear, e', bind, Except.bind], ?_⟩
  · intro k hk
    simp only [size] at hk
    rw [hw k (by omega), hcell k (by omega)]; exact cellOf_live (by omega)
  · intro k hk hk2
    simp only [size] at hk
    rw [hw k hk2, hcell k hk2]; exact cellOf_ge (by omega)
  · intro j hj
    have hb' := g'.b
    obtain ⟨k, hk, hk2⟩ : ∃ k, k < cap + 1 ∧ wr (cap+1) s'.b k = j := by
      by_cases hx : s'.b ≤ j
      · exact ⟨j - s'.b, by omega, by unfold wr; split_ifs <;> omega⟩
      · exact ⟨j + (cap + 1) - s'.b, by omega, by unfold wr; split_ifs <;> omega⟩
    have := g'.cells k
    rw [rot_cell (by rw [g'.cap]; exact hk), g'.cap, hk2] at this
    rw [this]; simp [cellOf]

/-! ## A bug: `insert(position, T&&)` in the front half

`create_element_front(etl::move(*_begin))` moves the first element into the new front slot; the following
`etl::move(_begin + 1, position, _begin)` starts with exactly the element that was just moved from (l.1075-1078) and assigns it over the value that
was saved: the first element of the deque is lost.  In the model, moving from a moved-from object is the error `deadAccess`. -/
theorem insertMove_front_broken (cap : Nat) (sms check : Bool) (s : St α) (l : List α) (h : Good cap sms check s l) (hc : l.length < cap)
    (i : Nat) (h0 : 0 < i) (hi : 2 * i + 1 < l.length) (v : α) :
    insertMove s (add (bs s) s.b i) v = .error .deadAccess := by
  have hb := h.b; have hcap := h.cap; have hle := h.le
  rw [h.add_b (by omega)]
  unfold insertMove
  rw [if_neg (h.not_full hc), if_neg (fun x => absurd ((h.eq_b (by omega)).1 x) (by omega)), if_neg (fun x => absurd ((h.eq_e (by omega)).1 x) (by omega)),
    if_pos ((closer_iff h (by omega)).2 hi)]
  have hr := h.read (k := 0) (by omega)
  rw [wr_zero hb] at hr
  have hb1 : sub (cap+1) s.b 1 < cap + 1 := sub_lt hb (by omega) (by omega)
  have hbb : s.b = wr (cap+1) (sub (cap+1) s.b 1) 1 := by
    have := wr_base (k := 0) (n := 1) hb (by omega); rwa [wr_zero hb] at this
  have hraw : s.mem.cell (sub (cap+1) s.b 1) = .raw := by
    have := rot_sub h (n := 1) (by omega) 0
    rw [rot_cell (by omega), hcap, wr_zero hb1, if_pos (by omega)] at this
    exact this
  have hne : sub (cap+1) s.b 1 ≠ s.b := by unfold sub; split_ifs <;> omega
  have hcon := construct_ok (m := s.mem.set s.b .moved) (i := sub (cap+1) s.b 1) (l[0]'(by omega)) (by simp; omega) (by rw [set_cell, if_neg hne, hraw])
  have hcf : createFront { s with mem := s.mem.set s.b .moved } (l[0]'(by omega)) =
      .ok { s with mem := (s.mem.set s.b .moved).set (sub (cap+1) s.b 1) (.live (l[0]'(by omega))), b := sub (cap+1) s.b 1, n := s.n + 1 } := by
    simp only [createFront, bs, set_cap, hcap, dec_eq_sub, hcon, bind, Except.bind]
  have hsrc : add (cap+1) (sub (cap+1) s.b 1) 1 = s.b := by rw [add_b hb1 (by omega), ← hbb]
  have hst : steps (cap+1) s.b (wr (cap+1) s.b i) = (i - 1) + 1 := by
    have := steps_wr (c := cap+1) (i := 0) (j := i) hb (by omega) (by omega)
    rw [wr_zero hb] at this; rw [this]; omega
  have hrd : ((s.mem.set s.b .moved).set (sub (cap+1) s.b 1) (.live (l[0]'(by omega)))).read s.b = .error .deadAccess := by
    unfold Mem.read
    rw [if_pos (by simp; omega), set_cell, if_neg (Ne.symm hne), set_cell, if_pos rfl]
  simp only [gapFrontMove, take, hr, hcf, bind, Except.bind]
  simp only [bs, set_cap, hcap, hsrc, hst, moveUpR, Mem.moveAssign, take, hrd, bind, Except.bind]
  rw [if_neg (Ne.symm hne)]

/-! ## The hypotheses are met -/

example : LegalRun 5 false true ([] : List Nat)
    [.pushBack 1, .pushFront 2, .insert 1 7, .insertN 1 2 9, .pushBack 4, .erase 1, .eraseRange 1 3, .insertRange 1 [5, 6], .popFront, .insertMove 2 3, .resize 4 0] := by
  simp [LegalRun, Legal, specStep]
example : (specRun 5 ([] : List Nat)
    [.pushBack 1, .pushFront 2, .insert 1 7, .insertN 1 2 9, .pushBack 4, .erase 1, .eraseRange 1 3, .insertRange 1 [5, 6], .popFront, .insertMove 2 3, .resize 4 0]) =
    ([5, 6, 3, 1], [.ok, .ok, .at 1, .at 1, .err .full, .at 1, .at 1, .at 1, .ok, .at 2, .ok]) := by decide
/-- a history on the model whose contents straddle the wrap point -/
example : ((run (init 5 false true) [.pushFront 1, .pushFront 2, .pushBack 3, .insert 1 (8 : Nat)]).map
    (fun p => (p.1.b, p.1.e, p.1.n, (contents p.1).toOption))) = .ok (4, 2, 4, some [2, 8, 1, 3]) := by rfl
/-- the broken insert on a concrete deque of 4 elements -/
example : (run (init 5 false true) [.pushBack 1, .pushBack 2, .pushBack 3, .pushBack 4, Op.insertMove 1 (9 : Nat)]).map (fun p => p.1.n) = .error .deadAccess := by rfl

/-- Finding: `erase(end())` passes the check, whose comparison is `<=`, and moves from elements that do not exist; one position further is refused. -/
theorem erase_end_unchecked : (((run (init 5 false true) [.pushBack 1, .pushBack 2, .pushBack (3 : Nat)]).bind fun p => erase p.1 p.1.e).map fun r => r.1.n) = .error .deadAccess ∧
    (((run (init 5 false true) [.pushBack 1, .pushBack 2, .pushBack (3 : Nat)]).bind fun p => erase p.1 (p.1.e + 1)).map fun r => r.2) = .ok (.err .outOfBounds) := by
  constructor <;> rfl

end Etl.Deque
