import Verif.PVec.Model
import Mathlib.Tactic.SplitIfs

/-!
# Properties of vectors of pointers (C71)
-/
namespace Etl.PVec

variable {α : Type}

/-! ## Specification: a list of at most `cap` pointers -/

def specStep (cap : Nat) (l : List α) : Op α → List α × Option Err
  | .resize k v => if k ≤ cap then (l.take k ++ List.replicate (k - l.length) v, none) else (l, some .full)
  | .assignRange vs | .assignPtr vs => if vs.length ≤ cap then (vs, none) else (l, some .full)
  | .assignN k v => if k ≤ cap then (List.replicate k v, none) else (l, some .full)
  | .clear => ([], none)
  | .pushBack v => if l.length < cap then (l ++ [v], none) else (l, some .full)
  | .popBack => if l = [] then (l, some .empty) else (l.dropLast, none)
  | .insert p v | .emplace p v => if l.length < cap then (l.take p ++ v :: l.drop p, none) else (l, some .full)
  | .insertN p k v => if l.length + k ≤ cap then (l.take p ++ List.replicate k v ++ l.drop p, none) else (l, some .full)
  | .insertRange p vs => if l.length + vs.length ≤ cap then (l.take p ++ vs ++ l.drop p, none) else (l, some .full)
  | .erase p => (l.eraseIdx p, none)
  | .eraseRange a b => (l.take a ++ l.drop b, none)
  | .setAt i v => (l.set i v, none)

/-- The documented preconditions: iterators are valid; where no check is compiled in (or, for `emplace`, a failed check does not throw) the caller respects the
capacity. -/
def Legal (cap : Nat) (check debug thr : Bool) (l : List α) : Op α → Prop
  | .resize _ _ | .assignN _ _ | .clear => True
  | .assignRange vs | .assignPtr vs => debug = true ∨ vs.length ≤ cap
  | .pushBack _ => check = true ∨ l.length < cap
  | .popBack => check = true ∨ l ≠ []
  | .insert p _ => p ≤ l.length
  | .emplace p _ => p ≤ l.length ∧ (thr = true ∨ l.length < cap)
  | .insertN p _ _ | .insertRange p _ => p ≤ l.length
  | .erase p => p < l.length
  | .eraseRange a b => a ≤ b ∧ b ≤ l.length
  | .setAt i _ => i < l.length

/-- The states a vector can reach, with what its user has put into it. -/
inductive Reach (cap : Nat) (check debug thr : Bool) : St α → List α → Prop where
  | init (junk : Nat → α) : Reach cap check debug thr (init junk cap check debug thr) []
  | step {s s' : St α} {l : List α} {o : Op α} {e : Option Err} (r : Reach cap check debug thr s l) (hl : Legal cap check debug thr l o)
      (h : step s o = .ok (s', e)) : Reach cap check debug thr s' (specStep cap l o).1

/-! ## Loops over the buffer -/

theorem rd_ok {s : St α} {i : Nat} (h : i < s.cap) : rd s i = .ok (s.buf i) := if_pos h
theorem wr_ok {s : St α} {i : Nat} (v : α) (h : i < s.cap) : wr s i v = .ok { s with buf := upd s.buf i v } := if_pos h

theorem copyFwd_ok (k : Nat) : ∀ (s : St α) (src dst : Nat), src + k ≤ s.cap → dst ≤ src →
    copyFwd s src dst k = .ok { s with buf := fun i => if dst ≤ i ∧ i < dst + k then s.buf (i - dst + src) else s.buf i } := by
  induction k with
  | zero =>
    intro s src dst _ _
    have : (fun i => if dst ≤ i ∧ i < dst + 0 then s.buf (i - dst + src) else s.buf i) = s.buf := by
      funext i; rw [if_neg]; omega
    show (Except.ok s : Res (St α)) = _
    rw [this]
  | succ k ih =>
    intro s src dst h1 h2
    unfold copyFwd
    rw [rd_ok (by omega)]
    simp only [bind, Except.bind]
    rw [wr_ok _ (by omega)]
    simp only []
    rw [ih _ _ _ (by show _ ≤ s.cap; omega) (by omega)]
    congr 2
    funext i
    simp only []
    unfold upd
    split_ifs <;> first | rfl | (exfalso; omega) | (congr 1; omega)

theorem copyBwd_ok (k : Nat) : ∀ (s : St α) (se de : Nat), de ≤ s.cap → se ≤ de → k ≤ se →
    copyBwd s se de k = .ok { s with buf := fun i => if de - k ≤ i ∧ i < de then s.buf (i + se - de) else s.buf i } := by
  induction k with
  | zero =>
    intro s se de _ _ _
    have : (fun i => if de - 0 ≤ i ∧ i < de then s.buf (i + se - de) else s.buf i) = s.buf := by
      funext i; rw [if_neg]; omega
    show (Except.ok s : Res (St α)) = _
    rw [this]
  | succ k ih =>
    intro s se de h1 h2 h3
    unfold copyBwd
    rw [rd_ok (by omega)]
    simp only [bind, Except.bind]
    rw [wr_ok _ (by omega)]
    simp only []
    rw [ih _ _ _ (by show _ ≤ s.cap; omega) (by omega) (by omega)]
    congr 2
    funext i
    simp only []
    unfold upd
    split_ifs <;> first | rfl | (exfalso; omega) | (congr 1; omega)

theorem fillN_ok (v : α) (k : Nat) : ∀ (s : St α) (dst : Nat), dst + k ≤ s.cap →
    fillN s dst v k = .ok { s with buf := fun i => if dst ≤ i ∧ i < dst + k then v else s.buf i } := by
  induction k with
  | zero =>
    intro s dst _
    have : (fun i => if dst ≤ i ∧ i < dst + 0 then v else s.buf i) = s.buf := by
      funext i; rw [if_neg]; omega
    show (Except.ok s : Res (St α)) = _
    rw [this]
  | succ k ih =>
    intro s dst h1
    unfold fillN
    rw [wr_ok _ (by omega)]
    simp only [bind, Except.bind]
    rw [ih _ _ (by show _ ≤ s.cap; omega)]
    congr 2
    funext i
    simp only []
    unfold upd
    split_ifs <;> first | rfl | (exfalso; omega) | (congr 1; omega)

theorem copyIn_ok (vs : List α) : ∀ (s : St α) (dst : Nat), dst + vs.length ≤ s.cap →
    copyIn s dst vs = .ok { s with buf := fun i => if dst ≤ i then (vs[i - dst]?).getD (s.buf i) else s.buf i } := by
  induction vs with
  | nil =>
    intro s dst _
    have : (fun i => if dst ≤ i then (([] : List α)[i - dst]?).getD (s.buf i) else s.buf i) = s.buf := by
      funext i; simp
    show (Except.ok s : Res (St α)) = _
    rw [this]
  | cons v vs ih =>
    intro s dst h1
    rw [List.length_cons] at h1
    unfold copyIn
    rw [wr_ok _ (by omega)]
    simp only [bind, Except.bind]
    rw [ih _ _ (by show _ ≤ s.cap; omega)]
    congr 2
    funext i
    simp only []
    unfold upd
    by_cases hi : dst + 1 ≤ i
    · rw [if_pos hi, if_neg (show ¬ i = dst by omega), if_pos (show dst ≤ i by omega)]
      rw [show i - dst = (i - (dst + 1)) + 1 by omega, List.getElem?_cons_succ]
    · rw [if_neg hi]
      by_cases hd : i = dst
      · subst hd; simp
      · rw [if_neg hd, if_neg (by omega)]

/-! ## Refinement -/

structure Holds (cap : Nat) (check debug thr : Bool) (s : St α) (l : List α) : Prop where
  hcap : s.cap = cap
  chk : s.check = check
  dbg : s.debug = debug
  hthr : s.thr = thr
  len : s.n = l.length
  le : l.length ≤ cap
  cell : ∀ i, i < l.length → l[i]? = some (s.buf i)

theorem readN_ok {s : St α} (k : Nat) : ∀ (i : Nat), i + k ≤ s.cap → ∃ vs, readN s i k = .ok vs ∧ vs.length = k ∧ ∀ j, j < k → vs[j]? = some (s.buf (i + j)) := by
  induction k with
  | zero => intro i _; exact ⟨[], rfl, rfl, fun j h => by omega⟩
  | succ k ih =>
    intro i h
    obtain ⟨vs, h1, h2, h3⟩ := ih (i + 1) (by omega)
    refine ⟨s.buf i :: vs, ?_, by simp [h2], ?_⟩
    · unfold readN; rw [rd_ok (by omega)]; simp only [bind, Except.bind]; rw [h1]
    · intro j hj
      cases j with
      | zero => simp
      | succ j => rw [List.getElem?_cons_succ, h3 j (by omega)]; congr 2; omega

variable {cap : Nat} {check debug thr : Bool} {s : St α} {l : List α}

theorem contents_ok (h : Holds cap check debug thr s l) : contents s = .ok l := by
  obtain ⟨vs, h1, h2, h3⟩ := readN_ok (s := s) s.n 0 (by have := h.hcap; have := h.len; have := h.le; omega)
  unfold contents
  rw [h1]
  congr 1
  have hn := h.len
  apply List.ext_getElem?
  intro j
  by_cases hj : j < s.n
  · rw [h3 j hj, h.cell j (by omega), Nat.zero_add]
  · rw [List.getElem?_eq_none (by omega), List.getElem?_eq_none (by omega)]

theorem pushLoop_ok (vs : List α) : ∀ (s : St α), s.n + vs.length ≤ s.cap →
    pushLoop s vs = .ok { s with buf := fun i => if s.n ≤ i then (vs[i - s.n]?).getD (s.buf i) else s.buf i, n := s.n + vs.length } := by
  induction vs with
  | nil =>
    intro s _
    have : (fun i => if s.n ≤ i then (([] : List α)[i - s.n]?).getD (s.buf i) else s.buf i) = s.buf := by
      funext i; simp
    show (Except.ok s : Res (St α)) = _
    rw [this]; rfl
  | cons v vs ih =>
    intro s h1
    rw [List.length_cons] at h1
    unfold pushLoop
    rw [wr_ok _ (by omega)]
    simp only [bind, Except.bind]
    rw [ih _ (by show s.n + 1 + _ ≤ s.cap; omega)]
    simp only [List.length_cons]
    congr 2
    · funext i
      unfold upd
      by_cases hi : s.n + 1 ≤ i
      · rw [if_pos hi, if_neg (show ¬ i = s.n by omega), if_pos (show s.n ≤ i by omega)]
        rw [show i - s.n = (i - (s.n + 1)) + 1 by omega, List.getElem?_cons_succ]
      · rw [if_neg hi]
        by_cases hd : i = s.n
        · subst hd; simp
        · rw [if_neg hd, if_neg (by omega)]
    · omega

/-- One element into the middle. -/
theorem insertOne_ok (h : Holds cap check debug thr s l) {p : Nat} (v : α) (hp : p ≤ l.length) (hc : l.length < cap) :
    ∃ s', insertOne s p v = .ok s' ∧ Holds cap check debug thr s' (l.take p ++ v :: l.drop p) := by
  have e0 := h.hcap
  have e1 := h.len
  unfold insertOne
  by_cases hpn : p = s.n
  · rw [if_neg (by simpa using hpn), wr_ok _ (by omega)]
    refine ⟨{ s with buf := upd s.buf s.n v, n := s.n + 1 }, rfl, ⟨h.hcap, h.chk, h.dbg, h.hthr, ?_, ?_, ?_⟩⟩
    · show s.n + 1 = _; simp; omega
    · simp; omega
    · intro i hi
      show _ = some (upd s.buf s.n v i)
      rw [List.take_of_length_le (by omega), List.drop_of_length_le (by omega)]
      by_cases hi' : i = s.n
      · rw [hi', upd_same, List.getElem?_append_right (by omega), e1, Nat.sub_self]; rfl
      · simp only [List.length_append, List.length_take, List.length_cons, List.length_drop] at hi
        rw [upd_other _ _ hi', List.getElem?_append_left (by omega)]
        exact h.cell i (by omega)
  · rw [if_pos (by simpa using hpn)]
    simp only [Nat.add_sub_cancel]
    rw [copyBwd_ok _ _ _ _ (by show _ ≤ s.cap; omega) (by omega) (by omega)]
    simp only [bind, Except.bind]
    rw [wr_ok _ (by show p < s.cap; omega)]
    refine ⟨_, rfl, ⟨h.hcap, h.chk, h.dbg, h.hthr, ?_, ?_, ?_⟩⟩
    · show s.n + 1 = _; simp; omega
    · simp; omega
    · intro i hi
      simp only [List.length_append, List.length_take, List.length_cons, List.length_drop] at hi
      show _ = some (upd _ p v i)
      by_cases hi' : i = p
      · subst hi'; rw [upd_same, List.getElem?_append_right (by simp; omega)]; simp [Nat.min_eq_left hp]
      · rw [upd_other _ _ hi']
        simp only []
        by_cases hlt : i < p
        · rw [if_neg (by omega), List.getElem?_append_left (by simp; omega), List.getElem?_take_of_lt hlt]
          exact h.cell i (by omega)
        · rw [if_pos (by omega), List.getElem?_append_right (by simp; omega)]
          simp only [List.length_take, Nat.min_eq_left hp]
          rw [show i - p = (i - p - 1) + 1 by omega, List.getElem?_cons_succ, List.getElem?_drop]
          rw [show p + (i - p - 1) = i + s.n - (s.n + 1) by omega]
          exact h.cell _ (by omega)

/-- A gap of `k` cells, filled by whatever `f` says. -/
theorem gap_cell {p k : Nat} {vs : List α} (h : Holds cap check debug thr s l) (hp : p ≤ l.length) (hk : vs.length = k) (b : Nat → α)
    (h1 : ∀ i, i < p → b i = s.buf i) (h2 : ∀ i, p ≤ i → i < p + k → vs[i - p]? = some (b i)) (h3 : ∀ i, p + k ≤ i → i < l.length + k → b i = s.buf (i - k))
    (i : Nat) (hi : i < (l.take p ++ vs ++ l.drop p).length) : (l.take p ++ vs ++ l.drop p)[i]? = some (b i) := by
  simp only [List.length_append, List.length_take, List.length_drop] at hi
  rw [List.append_assoc]
  by_cases a1 : i < p
  · rw [List.getElem?_append_left (by simp; omega), List.getElem?_take_of_lt a1, h1 i a1]
    exact h.cell i (by omega)
  · rw [List.getElem?_append_right (by simp; omega)]
    simp only [List.length_take, Nat.min_eq_left hp]
    by_cases a2 : i < p + k
    · rw [List.getElem?_append_left (by omega), h2 i (by omega) a2]
    · rw [List.getElem?_append_right (by omega), h3 i (by omega) (by omega), List.getElem?_drop]
      rw [show p + (i - p - vs.length) = i - k by omega]
      exact h.cell _ (by omega)

theorem step_ok (h : Holds cap check debug thr s l) {o : Op α} (hl : Legal cap check debug thr l o) :
    ∃ s', step s o = .ok (s', (specStep cap l o).2) ∧ Holds cap check debug thr s' (specStep cap l o).1 := by
  obtain ⟨rfl, rfl, rfl, rfl, e1, e2, hcell⟩ := h
  have h : Holds s.cap s.check s.debug s.thr s l := ⟨rfl, rfl, rfl, rfl, e1, e2, hcell⟩
  cases o with
  | resize k v =>
    simp only [step, specStep]
    unfold resize
    by_cases hk : k ≤ s.cap
    · rw [if_pos hk, if_pos hk]
      by_cases hn : s.n < k
      · rw [if_pos hn, fillN_ok _ _ _ _ (by omega)]
        refine ⟨_, rfl, ⟨rfl, rfl, rfl, rfl, ?_, ?_, ?_⟩⟩
        · show k = _; simp; omega
        · simp; omega
        · intro i hi
          show _ = some (if _ then _ else _)
          rw [List.take_of_length_le (by omega)]
          by_cases hi' : i < s.n
          · rw [if_neg (by omega), List.getElem?_append_left (by omega)]; exact h.cell i (by omega)
          · simp only [List.length_append, List.length_take, List.length_replicate] at hi
            rw [if_pos (by omega), List.getElem?_append_right (by omega), List.getElem?_replicate, if_pos (by omega)]
      · rw [if_neg hn]
        refine ⟨_, rfl, ⟨rfl, rfl, rfl, rfl, ?_, ?_, ?_⟩⟩
        · show k = _; simp; omega
        · simp; omega
        · intro i hi
          rw [show k - l.length = 0 by omega]
          rw [show k - l.length = 0 by omega] at hi
          simp only [List.replicate_zero, List.append_nil, List.length_take] at hi ⊢
          rw [List.getElem?_take_of_lt (by omega)]; exact h.cell i (by omega)
    · rw [if_neg hk, if_neg hk]; exact ⟨s, rfl, h⟩
  | assignRange vs =>
    simp only [step, specStep]
    unfold assignRange
    by_cases hk : vs.length ≤ s.cap
    · rw [if_pos hk, if_neg (by simp [hk]), pushLoop_ok _ _ (by show 0 + _ ≤ s.cap; omega)]
      refine ⟨_, rfl, ⟨rfl, rfl, rfl, rfl, ?_, hk, ?_⟩⟩
      · show 0 + vs.length = vs.length; omega
      · intro i hi
        show _ = some (if 0 ≤ i then (vs[i - 0]?).getD (s.buf i) else s.buf i)
        rw [if_pos (by omega), Nat.sub_zero, List.getElem?_eq_getElem hi]; rfl
    · rcases hl with hl | hl
      · rw [if_neg hk, if_pos (by simp [hl, hk])]; exact ⟨s, rfl, h⟩
      · exact absurd hl hk
  | assignPtr vs =>
    simp only [step, specStep]
    unfold assignPtr
    by_cases hk : vs.length ≤ s.cap
    · rw [if_pos hk, if_neg (by simp [hk])]
      simp only [bind, Except.bind]
      rw [copyIn_ok _ _ _ (by show 0 + _ ≤ s.cap; omega)]
      refine ⟨_, rfl, ⟨rfl, rfl, rfl, rfl, rfl, hk, ?_⟩⟩
      intro i hi
      show _ = some (if 0 ≤ i then (vs[i - 0]?).getD (s.buf i) else s.buf i)
      rw [if_pos (by omega), Nat.sub_zero, List.getElem?_eq_getElem hi]; rfl
    · rcases hl with hl | hl
      · rw [if_neg hk, if_pos (by simp [hl, hk])]; exact ⟨s, rfl, h⟩
      · exact absurd hl hk
  | assignN k v =>
    simp only [step, specStep]
    unfold assignN
    by_cases hk : k ≤ s.cap
    · rw [if_pos hk, if_pos hk]
      simp only [bind, Except.bind]
      rw [fillN_ok _ _ _ _ (by show 0 + _ ≤ s.cap; omega)]
      refine ⟨_, rfl, ⟨rfl, rfl, rfl, rfl, ?_, ?_, ?_⟩⟩
      · show k = _; simp
      · simp; exact hk
      · intro i hi
        rw [List.length_replicate] at hi
        show _ = some (if _ then _ else _)
        rw [if_pos (by omega), List.getElem?_replicate, if_pos hi]
    · rw [if_neg hk, if_neg hk]; exact ⟨s, rfl, h⟩
  | clear => exact ⟨initialise s, rfl, ⟨rfl, rfl, rfl, rfl, rfl, Nat.zero_le _, fun i hi => by cases hi⟩⟩
  | pushBack v =>
    simp only [step, specStep]
    unfold pushBack
    by_cases hk : l.length < s.cap
    · rw [if_pos hk, if_neg (by simp; omega), wr_ok _ (by omega)]
      refine ⟨_, rfl, ⟨rfl, rfl, rfl, rfl, ?_, ?_, ?_⟩⟩
      · show s.n + 1 = _; simp; omega
      · simp; omega
      · intro i hi
        show _ = some (upd s.buf s.n v i)
        by_cases hi' : i = s.n
        · rw [hi', upd_same, List.getElem?_append_right (by omega), e1, Nat.sub_self]; rfl
        · simp only [List.length_append, List.length_cons, List.length_nil] at hi
          rw [upd_other _ _ hi', List.getElem?_append_left (by omega)]
          exact h.cell i (by omega)
    · rcases hl with hl | hl
      · rw [if_neg hk, if_pos (by simp [hl]; omega)]; exact ⟨s, rfl, h⟩
      · exact absurd hl hk
  | popBack =>
    simp only [step, specStep]
    unfold popBack
    by_cases hk : l = []
    · rcases hl with hl | hl
      · rw [if_pos hk, if_pos (by simp [hl, e1, hk])]; exact ⟨s, rfl, h⟩
      · exact absurd hk hl
    · have : 0 < l.length := List.length_pos_iff.mpr hk
      rw [if_neg hk, if_neg (by simp; omega), if_neg (by omega)]
      refine ⟨_, rfl, ⟨rfl, rfl, rfl, rfl, ?_, ?_, ?_⟩⟩
      · show s.n - 1 = _; simp; omega
      · simp; omega
      · intro i hi
        rw [List.length_dropLast] at hi
        rw [List.dropLast_eq_take, List.getElem?_take_of_lt hi]
        exact h.cell i (by omega)
  | insert p v =>
    simp only [step, specStep]
    unfold insert
    by_cases hk : l.length < s.cap
    · rw [if_pos hk, if_neg (by omega)]
      obtain ⟨s', h1, h2⟩ := insertOne_ok h v hl hk
      rw [h1]; exact ⟨s', rfl, h2⟩
    · rw [if_neg hk, if_pos (by omega)]; exact ⟨s, rfl, h⟩
  | emplace p v =>
    simp only [step, specStep]
    unfold emplace
    by_cases hk : l.length < s.cap
    · rw [if_pos hk, if_neg (by omega)]
      obtain ⟨s', h1, h2⟩ := insertOne_ok h v hl.1 hk
      rw [h1]; exact ⟨s', rfl, h2⟩
    · rcases hl.2 with hl | hl
      · rw [if_neg hk, if_pos (by omega), if_pos hl]; exact ⟨s, rfl, h⟩
      · exact absurd hl hk
  | insertN p k v =>
    have hp : p ≤ l.length := hl
    simp only [step, specStep]
    unfold insertN
    by_cases hk : s.n + k ≤ s.cap
    · rw [if_pos hk, if_pos (by omega), copyBwd_ok _ _ _ _ (by omega) (by omega) (by omega)]
      simp only [bind, Except.bind]
      rw [fillN_ok _ _ _ _ (by show p + k ≤ s.cap; omega)]
      refine ⟨_, rfl, ⟨rfl, rfl, rfl, rfl, ?_, ?_, ?_⟩⟩
      · show s.n + k = _; simp; omega
      · simp; omega
      · refine gap_cell (k := k) h hp (by simp) _ ?_ ?_ ?_
        · intro i hi
          simp only []
          rw [if_neg (by omega), if_neg (by omega)]
        · intro i hi hi'
          simp only []
          rw [if_pos ⟨hi, hi'⟩, List.getElem?_replicate, if_pos (by omega)]
        · intro i hi hi'
          simp only []
          rw [if_neg (by omega), if_pos (by omega)]
          congr 1; omega
    · rw [if_neg hk, if_neg (by omega)]; exact ⟨s, rfl, h⟩
  | insertRange p vs =>
    have hp : p ≤ l.length := hl
    simp only [step, specStep]
    unfold insertRange
    by_cases hk : s.n + vs.length ≤ s.cap
    · rw [if_pos hk, if_pos (by omega), copyBwd_ok _ _ _ _ (by omega) (by omega) (by omega)]
      simp only [bind, Except.bind]
      rw [copyIn_ok _ _ _ (by show p + _ ≤ s.cap; omega)]
      refine ⟨_, rfl, ⟨rfl, rfl, rfl, rfl, ?_, ?_, ?_⟩⟩
      · show s.n + _ = _; simp; omega
      · simp; omega
      · refine gap_cell h hp rfl _ ?_ ?_ ?_
        · intro i hi
          simp only []
          rw [if_neg (by omega), if_neg (by omega)]
        · intro i hi hi'
          simp only []
          rw [if_pos hi, List.getElem?_eq_getElem (by omega)]; rfl
        · intro i hi hi'
          simp only []
          rw [if_pos (by omega), List.getElem?_eq_none (by omega), Option.getD_none, if_pos (by omega)]
          congr 1; omega
    · rw [if_neg hk, if_neg (by omega)]; exact ⟨s, rfl, h⟩
  | erase p =>
    have hp : p < l.length := hl
    simp only [step, specStep]
    unfold erase
    rw [copyFwd_ok _ _ _ _ (by omega) (by omega)]
    simp only [bind, Except.bind]
    rw [if_neg (by omega)]
    refine ⟨_, rfl, ⟨rfl, rfl, rfl, rfl, ?_, ?_, ?_⟩⟩
    · show s.n - 1 = _; rw [List.length_eraseIdx, if_pos hp]; omega
    · rw [List.length_eraseIdx, if_pos hp]; omega
    · intro i hi
      rw [List.length_eraseIdx, if_pos hp] at hi
      simp only []
      rw [List.getElem?_eraseIdx]
      by_cases hi' : i < p
      · rw [if_pos hi', if_neg (by omega)]; exact h.cell i (by omega)
      · rw [if_neg hi', if_pos (by omega), show i - p + (p + 1) = i + 1 by omega]; exact h.cell _ (by omega)
  | eraseRange a b =>
    have hp : a ≤ b ∧ b ≤ l.length := hl
    simp only [step, specStep]
    unfold eraseRange
    rw [copyFwd_ok _ _ _ _ (by omega) (by omega)]
    simp only [bind, Except.bind]
    rw [if_neg (by omega)]
    refine ⟨_, rfl, ⟨rfl, rfl, rfl, rfl, ?_, ?_, ?_⟩⟩
    · show s.n - (b - a) = _; simp; omega
    · simp; omega
    · intro i hi
      simp only [List.length_append, List.length_take, List.length_drop] at hi
      simp only []
      by_cases hi' : i < a
      · rw [if_neg (by omega), List.getElem?_append_left (by simp; omega), List.getElem?_take_of_lt hi']; exact h.cell i (by omega)
      · rw [if_pos (by omega), List.getElem?_append_right (by simp; omega), List.getElem?_drop]
        simp only [List.length_take]
        rw [show b + (i - min a l.length) = i - a + b by omega]; exact h.cell _ (by omega)
  | setAt i v =>
    have hp : i < l.length := hl
    simp only [step, specStep]
    unfold setAt
    rw [wr_ok _ (by omega)]
    refine ⟨_, rfl, ⟨rfl, rfl, rfl, rfl, ?_, ?_, ?_⟩⟩
    · show s.n = _; simp; omega
    · simp; omega
    · intro j hj
      rw [List.length_set] at hj
      show _ = some (upd s.buf i v j)
      by_cases hj' : j = i
      · subst hj'; rw [upd_same, List.getElem?_set_self hj]
      · rw [upd_other _ _ hj', List.getElem?_set_ne (Ne.symm hj')]; exact h.cell j hj

theorem reach_holds (r : Reach cap check debug thr s l) : Holds cap check debug thr s l := by
  induction r with
  | init junk => exact ⟨rfl, rfl, rfl, rfl, rfl, Nat.zero_le _, fun i hi => by cases hi⟩
  | step r hl h ih =>
    obtain ⟨s', h1, h2⟩ := step_ok ih hl
    rw [h1] at h; cases h; exact h2

/-- **C71** (every history): whatever the buffer held before, whatever the build options and the history of calls: the vector shows exactly the pointers of the
bounded list, in order; the next call that respects its preconditions does nothing undefined, has exactly the list's effect and reports exactly the list's error
(and changes nothing then). -/
theorem C71_refines (r : Reach cap check debug thr s l) :
    (contents s = .ok l ∧ size s = l.length ∧ (empty s = true ↔ l = []) ∧ (full s = true ↔ l.length = cap) ∧ available s = cap - l.length ∧ l.length ≤ cap) ∧
    (∀ i, (hi : i < l.length) → index s i = .ok l[i] ∧ atIdx s i = .ok (.ok l[i])) ∧
    (∀ i, l.length ≤ i → atIdx s i = .ok (.error .outOfBounds)) ∧
    (∀ a, l.head? = some a → front s = .ok a) ∧ (∀ a, l.getLast? = some a → back s = .ok a) ∧
    (∀ o, Legal cap check debug thr l o → ∃ s', step s o = .ok (s', (specStep cap l o).2) ∧ contents s' = .ok (specStep cap l o).1) := by
  have h := reach_holds r
  have e0 := h.hcap
  have e1 := h.len
  have e2 := h.le
  have hidx : ∀ i, (hi : i < l.length) → rd s i = .ok l[i] := by
    intro i hi
    rw [rd_ok (by omega)]
    have := h.cell i hi
    rw [List.getElem?_eq_getElem hi] at this
    rw [Option.some.inj this]
  refine ⟨⟨contents_ok h, e1, ?_, ?_, ?_, e2⟩, ?_, ?_, ?_, ?_, ?_⟩
  · unfold empty; rw [e1]; simp
  · unfold full; rw [e1, e0]; simp
  · unfold available; rw [e1, e0]
  · intro i hi
    refine ⟨hidx i hi, ?_⟩
    unfold atIdx; rw [if_pos (by omega), hidx i hi]; rfl
  · intro i hi
    unfold atIdx; rw [if_neg (by omega)]
  · intro a ha
    cases l with
    | nil => cases ha
    | cons b l => cases ha; exact hidx 0 (by simp)
  · intro a ha
    have hne : l ≠ [] := by intro e; rw [e] at ha; cases ha
    have hp : 0 < l.length := List.length_pos_iff.mpr hne
    unfold back
    rw [if_neg (by omega), e1, hidx (l.length - 1) (by omega)]
    rw [List.getLast?_eq_getElem?, List.getElem?_eq_getElem (by omega)] at ha
    cases ha; rfl
  · intro o hl
    obtain ⟨s', h1, h2⟩ := step_ok h hl
    exact ⟨s', h1, contents_ok h2⟩

/-- **C71** (copy and move): assigning another vector that fits copies it, and a moved-from vector is empty; one that does not fit is refused and leaves the target empty
(where a failed check throws). -/
theorem C71_assign {cap2 : Nat} {c2 d2 t2 : Bool} {rhs : St α} {r' : List α} (h : Reach cap check debug thr s l) (h2 : Reach cap2 c2 d2 t2 rhs r')
    (hl : r'.length ≤ cap ∨ thr = true) :
    (∃ s', copyAssign s rhs = .ok (s', if r'.length ≤ cap then none else some .full) ∧ contents s' = .ok (if r'.length ≤ cap then r' else [])) ∧
    (∃ s' rhs', moveAssign s rhs = .ok (s', rhs', if r'.length ≤ cap then none else some .full) ∧ contents s' = .ok (if r'.length ≤ cap then r' else []) ∧
      contents rhs' = .ok (if r'.length ≤ cap then [] else r')) := by
  have h := reach_holds h
  have h2 := reach_holds h2
  have e0 := h.hcap
  have k1 := h2.len
  have hr : (initialise s).cap = cap := e0
  have hrz : resizeU (initialise s) rhs.n = .ok (if r'.length ≤ cap then ({ s with n := rhs.n }, none) else (initialise s, some .full)) := by
    unfold resizeU
    rw [hr, k1]
    split_ifs
    · rw [← e0]; rfl
    · rfl
  by_cases hk : r'.length ≤ cap
  · have hc : copyIn { s with n := rhs.n } 0 r' = .ok { s with buf := fun i => if 0 ≤ i then (r'[i - 0]?).getD (s.buf i) else s.buf i, n := rhs.n } := by
      rw [copyIn_ok _ _ _ (by show 0 + _ ≤ s.cap; omega)]
    have hh : Holds cap check debug thr { s with buf := fun i => if 0 ≤ i then (r'[i - 0]?).getD (s.buf i) else s.buf i, n := rhs.n } r' := by
      refine ⟨h.hcap, h.chk, h.dbg, h.hthr, k1, hk, ?_⟩
      intro i hi
      show _ = some (if 0 ≤ i then (r'[i - 0]?).getD (s.buf i) else s.buf i)
      rw [if_pos (by omega), Nat.sub_zero, List.getElem?_eq_getElem hi]; rfl
    rw [if_pos hk] at hrz
    rw [if_pos hk, if_pos hk, if_pos hk]
    refine ⟨⟨_, ?_, contents_ok hh⟩, ⟨_, initialise rhs, ?_, contents_ok hh, rfl⟩⟩
    · unfold copyAssign; simp only [bind, Except.bind]; rw [hrz]; simp only []; rw [contents_ok h2]; simp only []; rw [hc]
    · unfold moveAssign; simp only [bind, Except.bind]; rw [hrz]; simp only []; rw [contents_ok h2]; simp only []; rw [hc]
  · have ht : thr = true := hl.resolve_left hk
    rw [if_neg hk] at hrz
    rw [if_neg hk, if_neg hk, if_neg hk]
    have ht' : (initialise s).thr = true := by show s.thr = true; rw [h.hthr, ht]
    refine ⟨⟨initialise s, ?_, rfl⟩, ⟨initialise s, rhs, ?_, rfl, contents_ok h2⟩⟩
    · unfold copyAssign; simp only [bind, Except.bind]; rw [hrz]; simp only [ht', if_true]
    · unfold moveAssign; simp only [bind, Except.bind]; rw [hrz]; simp only [ht', if_true]

/-! ## Concrete cases -/

def runOps (s : St Nat) : List (Op Nat) → Res (St Nat × List (Option Err))
  | [] => .ok (s, [])
  | o :: os => do
    let (s, e) ← step s o
    let (s, es) ← runOps s os
    .ok (s, e :: es)

example : (do
    let (s, es) ← runOps (init (fun _ => 99) 5 true true true) [.pushBack 1, .pushBack 2, .insert 1 3, .insertN 0 2 7, .pushBack 8, .erase 1, .eraseRange 1 3, .insertRange 1 [4, 5]]
    let l ← contents s
    .ok (l, es)) = .ok ([7, 4, 5, 2], [none, none, none, none, some .full, none, none, none]) := by rfl

/-- Finding: `resize(n)` and the constructor `vector<T*>(n)` (vector.h l.1566-1571) do not initialise the new elements (other vectors value-initialise them): after
shrinking and growing again the pointers removed before are back; in a fresh vector the elements are indeterminate. -/
theorem resize_exposes_stale_pointers : ∀ junk : Nat → Nat, (do
    let (s, _) ← runOps (init junk 4 true true true) [.pushBack 11, .pushBack 12, .clear]
    let (s, e) ← resizeU s 3
    let l ← contents s
    .ok (l, e)) = .ok ([11, 12, junk 2], none) := by
  intro junk; rfl

/-- Finding: where a failed check does not throw, assigning a larger vector overruns the buffer: only `resize` returns early, the copy goes on, l.629-639. -/
theorem assign_overruns_without_throw :
    (do
      let (s, _) ← runOps (init (fun _ => 0) 1 true true false) [.pushBack 11]
      let (r, _) ← runOps (init (fun _ => 0) 2 true true false) [.pushBack 21, .pushBack 22]
      copyAssign s r).toOption.isNone = true := by decide +kernel

/-- Finding: where a failed check does not throw, `emplace` into a full vector writes past the end (`insert` does not), l.506-524. -/
theorem emplace_overruns_without_throw :
    (do
      let (s, _) ← runOps (init (fun _ => 0) 1 true true false) [.pushBack 11]
      emplace s 0 5).toOption.isNone = true ∧
    (do
      let (s, _) ← runOps (init (fun _ => 0) 1 true true false) [.pushBack 11]
      let (s, e) ← insert s 0 5
      let l ← contents s
      .ok (l, e)) = (.ok ([11], some .full) : Res (List Nat × Option Err)) := ⟨by decide +kernel, rfl⟩

end Etl.PVec
