import Verif.Deque.Model

namespace Etl.Deque
open Mem
variable {α : Type}

/-- Physical index of the `k`-th slot counted from `b`. -/
def wr (c b k : Nat) : Nat := if b + k < c then b + k else b + k - c

theorem wr_lt {c b k : Nat} (hb : b < c) (hk : k < c) : wr c b k < c := by unfold wr; split_ifs <;> omega
theorem wr_zero {c b : Nat} (hb : b < c) : wr c b 0 = b := by unfold wr; split_ifs <;> omega
theorem wr_inj {c b k j : Nat} (hb : b < c) (hk : k < c) (hj : j < c) : wr c b k = wr c b j ↔ k = j := by
  unfold wr; split_ifs <;> omega
theorem inc_wr {c b k : Nat} (hb : b < c) (hk : k < c) : inc c (wr c b k) = wr c b (k + 1) := by
  unfold inc wr
  by_cases h1 : b + k < c
  · rw [if_pos h1]
    by_cases h2 : b + k = c - 1
    · rw [if_pos h2, if_neg (by omega)]; omega
    · rw [if_neg h2, if_pos (by omega)]; omega
  · rw [if_neg h1, if_neg (show ¬ (b + k - c = c - 1) by omega), if_neg (show ¬ (b + (k + 1) < c) by omega)]; omega
theorem dec_wr' {c b k : Nat} (hb : b < c) (h0 : 0 < k) (hk : k ≤ c) : dec c (wr c b k) = wr c b (k - 1) := by
  unfold dec wr
  by_cases h1 : b + k < c
  · rw [if_pos h1, if_neg (by omega), if_pos (by omega)]; omega
  · rw [if_neg h1]
    by_cases h2 : b + k - c = 0
    · rw [if_pos h2, if_pos (by omega)]; omega
    · rw [if_neg h2, if_neg (by omega)]; omega
theorem dec_wr {c b k : Nat} (hb : b < c) (hk : k < c) : dec c (wr c b (k + 1)) = wr c b k := by
  rw [dec_wr' hb (by omega) (by omega)]; rfl
theorem add_wr {c b k j : Nat} (hb : b < c) (hk : k + j < c) : add c (wr c b k) j = wr c b (k + j) := by
  unfold wr; split_ifs <;> unfold add <;> split_ifs <;> omega
theorem add_b {c b j : Nat} (hb : b < c) (hk : j < c) : add c b j = wr c b j := by
  unfold wr; split_ifs <;> unfold add <;> split_ifs <;> omega
theorem sub_wr {c b k j : Nat} (hb : b < c) (hj : j ≤ k) (hk : k < c) : sub c (wr c b k) j = wr c b (k - j) := by
  unfold wr; split_ifs <;> unfold sub <;> split_ifs <;> omega
theorem steps_wr {c b i j : Nat} (hb : b < c) (hij : i ≤ j) (hk : j < c) : steps c (wr c b i) (wr c b j) = j - i := by
  unfold wr; split_ifs <;> unfold steps <;> split_ifs <;> omega
theorem sub_lt {c b k : Nat} (hb : b < c) (hk : k ≤ c) (h0 : 0 < c): sub c b k < c := by unfold sub; split_ifs <;> omega
theorem sub_succ {c b k : Nat} (hb : b < c) (hk : k < c) : dec c (sub c b k) = sub c b (k+1) := by
  unfold sub; split_ifs <;> unfold dec <;> split_ifs <;> omega
theorem wr_base {c b n k : Nat} (hb : b < c) (hk : k + n < c) : wr c b k = wr c (sub c b n) (k + n) := by
  unfold sub; split_ifs <;> unfold wr <;> split_ifs <;> omega
theorem dec_eq_sub {c b : Nat} : dec c b = sub c b 1 := by
  unfold dec sub; split_ifs <;> omega

/-- The memory seen from slot `b`. -/
def rot (b : Nat) (m : Mem α) : Mem α := { cap := m.cap, sms := m.sms, cell := fun k => if k < m.cap then m.cell (wr m.cap b k) else .raw }

@[simp] theorem rot_cap (b : Nat) (m : Mem α) : (rot b m).cap = m.cap := rfl
@[simp] theorem rot_sms (b : Nat) (m : Mem α) : (rot b m).sms = m.sms := rfl
theorem rot_cell {b k : Nat} {m : Mem α} (hk : k < m.cap) : (rot b m).cell k = m.cell (wr m.cap b k) := by simp [rot, hk]

theorem rot_set {b k : Nat} {m : Mem α} (hb : b < m.cap) (hk : k < m.cap) (c : Cell α) :
    rot b (m.set (wr m.cap b k) c) = (rot b m).set k c := by
  unfold rot Mem.set
  simp only [Mem.mk.injEq, true_and]
  funext j
  by_cases hj : j < m.cap
  · simp only [hj, if_true, upd, wr_inj hb hj hk]
  · simp [hj, upd]; intro h; omega

section
variable {b : Nat} {m : Mem α} (hb : b < m.cap)
include hb

theorem rot_construct {k : Nat} (hk : k < m.cap) (v : α) : (m.construct (wr m.cap b k) v).map (rot b) = (rot b m).construct k v := by
  unfold construct
  rw [if_pos (wr_lt hb hk), if_pos (show k < (rot b m).cap from hk), rot_cell hk]
  split
  · simp [Except.map, rot_set hb hk]
  · rfl

theorem rot_destroy {k : Nat} (hk : k < m.cap) : (m.destroy (wr m.cap b k)).map (rot b) = (rot b m).destroy k := by
  unfold destroy
  rw [if_pos (wr_lt hb hk), if_pos (show k < (rot b m).cap from hk), rot_cell hk]
  split
  · rfl
  · simp [Except.map, rot_set hb hk]

theorem rot_assign {k : Nat} (hk : k < m.cap) (v : α) : (m.assign (wr m.cap b k) v).map (rot b) = (rot b m).assign k v := by
  unfold assign
  rw [if_pos (wr_lt hb hk), if_pos (show k < (rot b m).cap from hk), rot_cell hk]
  split
  · rfl
  · simp [Except.map, rot_set hb hk]

theorem rot_read {k : Nat} (hk : k < m.cap) : m.read (wr m.cap b k) = (rot b m).read k := by
  unfold Mem.read
  rw [if_pos (wr_lt hb hk), if_pos (show k < (rot b m).cap from hk), rot_cell hk]

theorem rot_moveAssign {k j : Nat} (hk : k < m.cap) (hj : j < m.cap) :
    (m.moveAssign (wr m.cap b k) (wr m.cap b j)).map (rot b) = (rot b m).moveAssign k j := by
  unfold Mem.moveAssign take
  simp only [wr_inj hb hk hj, rot_read hb hk]
  split
  · cases h : (rot b m).read k with
    | error e => rfl
    | ok v => simp only [bind, Except.bind, Except.map, rot_set hb hk]; rfl
  · cases h : (rot b m).read k with
    | error e => rfl
    | ok v =>
      simp only [bind, Except.bind]
      have := rot_assign (m := m.set (wr m.cap b k) .moved) (b := b) hb (k := j) (show j < (m.set _ _).cap from hj) v
      rw [set_cap] at this
      rw [this, rot_set hb hk]
end

theorem construct_cap {m m' : Mem α} {i : Nat} {v : α} (h : m.construct i v = .ok m') : m'.cap = m.cap := by
  unfold construct at h; split_ifs at h; split at h <;> simp at h; rw [← h]; rfl
theorem assign_cap {m m' : Mem α} {i : Nat} {v : α} (h : m.assign i v = .ok m') : m'.cap = m.cap := by
  unfold assign at h; split_ifs at h; split at h <;> simp at h; rw [← h]; rfl
theorem moveAssign_cap {m m' : Mem α} {i j : Nat} (h : m.moveAssign i j = .ok m') : m'.cap = m.cap := by
  unfold Mem.moveAssign take at h
  split at h
  · cases hr : m.read i with
    | error e => simp [hr, bind, Except.bind] at h
    | ok v => simp only [hr, bind, Except.bind, Except.ok.injEq] at h; rw [← h]; rfl
  · cases hr : m.read i with
    | error e => simp [hr, bind, Except.bind] at h
    | ok v => simp only [hr, bind, Except.bind] at h; rw [assign_cap h]; rfl
  

theorem rot_moveUpR {b : Nat} (n : Nat) : ∀ (m : Mem α) (s d : Nat), b < m.cap → s + n ≤ m.cap → d + n ≤ m.cap →
    (moveUpR m (wr m.cap b s) n (wr m.cap b d)).map (rot b) = (rot b m).moveUp s n d := by
  induction n with
  | zero => intro m s d _ _ _; rfl
  | succ n ih =>
    intro m s d hb hs hd
    have h := rot_moveAssign hb (show s < m.cap by omega) (show d < m.cap by omega)
    simp only [moveUpR, Mem.moveUp]
    rw [← h]
    cases hm : m.moveAssign (wr m.cap b s) (wr m.cap b d) with
    | error e => rfl
    | ok m' =>
      have hc := moveAssign_cap hm
      simp only [bind, Except.bind, Except.map]
      rw [hc, inc_wr hb (by omega), inc_wr hb (by omega)]
      have := ih m' (s+1) (d+1) (by omega) (by omega) (by omega)
      rw [hc] at this
      rw [← this]; rfl

theorem rot_moveDownR {b : Nat} (n : Nat) : ∀ (m : Mem α) (last dlast : Nat), b < m.cap → n ≤ last → n ≤ dlast → last ≤ m.cap → dlast ≤ m.cap →
    (moveDownR m n (wr m.cap b last) (wr m.cap b dlast)).map (rot b) = (rot b m).moveDown n last dlast := by
  induction n with
  | zero => intro m s d _ _ _ _ _; rfl
  | succ n ih =>
    intro m s d hb h1 h2 hs hd
    have h := rot_moveAssign hb (show s - 1 < m.cap by omega) (show d - 1 < m.cap by omega)
    simp only [moveDownR, Mem.moveDown]
    rw [← h, dec_wr' hb (by omega) hs, dec_wr' hb (by omega) hd]
    cases hm : m.moveAssign (wr m.cap b (s-1)) (wr m.cap b (d-1)) with
    | error e => rfl
    | ok m' =>
      have hc := moveAssign_cap hm
      simp only [bind, Except.bind, Except.map]
      rw [hc, dec_wr' hb (by omega) hs, dec_wr' hb (by omega) hd]
      have := ih m' (s-1) (d-1) (by omega) (by omega) (by omega) (by omega) (by omega)
      rw [hc] at this
      rw [← this]; rfl

theorem rot_fillNR {b : Nat} (v : α) (n : Nat) : ∀ (m : Mem α) (i : Nat), b < m.cap → i + n ≤ m.cap →
    (fillNR m (wr m.cap b i) n v).map (rot b) = (rot b m).fillN i n v := by
  induction n with
  | zero => intro m s _ _; rfl
  | succ n ih =>
    intro m i hb hs
    have h := rot_assign hb (show i < m.cap by omega) v
    simp only [fillNR, Mem.fillN]
    rw [← h]
    cases hm : m.assign (wr m.cap b i) v with
    | error e => rfl
    | ok m' =>
      have hc := assign_cap hm
      simp only [bind, Except.bind, Except.map]
      rw [hc, inc_wr hb (by omega)]
      have := ih m' (i+1) (by omega) (by omega)
      rw [hc] at this
      rw [← this]; rfl

theorem rot_copyToR {b : Nat} (vs : List α) : ∀ (m : Mem α) (i : Nat), b < m.cap → i + vs.length ≤ m.cap →
    (copyToR m (wr m.cap b i) vs).map (rot b) = (rot b m).copyTo i vs := by
  induction vs with
  | nil => intro m s _ _; rfl
  | cons v vs ih =>
    intro m i hb hs
    simp only [List.length_cons] at hs
    have h := rot_assign hb (show i < m.cap by omega) v
    simp only [copyToR, Mem.copyTo]
    rw [← h]
    cases hm : m.assign (wr m.cap b i) v with
    | error e => rfl
    | ok m' =>
      have hc := assign_cap hm
      simp only [bind, Except.bind, Except.map]
      rw [hc, inc_wr hb (by omega)]
      have := ih m' (i+1) (by omega) (by omega)
      rw [hc] at this
      rw [← this]; rfl

theorem rot_constructAll {b : Nat} (vs : List α) : ∀ (m : Mem α) (i : Nat), b < m.cap → i + vs.length ≤ m.cap →
    (constructAll m (wr m.cap b i) vs).map (rot b) = (rot b m).copyNew i vs := by
  induction vs with
  | nil => intro m s _ _; rfl
  | cons v vs ih =>
    intro m i hb hs
    simp only [List.length_cons] at hs
    have h := rot_construct hb (show i < m.cap by omega) v
    simp only [constructAll, Mem.copyNew]
    rw [← h]
    cases hm : m.construct (wr m.cap b i) v with
    | error e => rfl
    | ok m' =>
      have hc := construct_cap hm
      simp only [bind, Except.bind, Except.map]
      rw [hc, inc_wr hb (by omega)]
      have := ih m' (i+1) (by omega) (by omega)
      rw [hc] at this
      rw [← this]; rfl

theorem map_ok {β γ : Type} {x : Res β} {f : β → γ} {y : γ} (h : x.map f = .ok y) : ∃ z, x = .ok z ∧ f z = y := by
  cases x with
  | error e => simp [Except.map] at h
  | ok z => exact ⟨z, rfl, by simpa [Except.map] using h⟩

/-! ## Invariant -/

structure Good (N : Nat) (sm check : Bool) (s : St α) (l : List α) : Prop where
  cap : s.mem.cap = N + 1
  sms : s.mem.sms = sm
  chk : s.check = check
  n : s.n = l.length
  le : l.length ≤ N
  b : s.b < N + 1
  e : s.e = wr (N + 1) s.b l.length
  cells : ∀ j, (rot s.b s.mem).cell j = cellOf l j

variable {cap : Nat} {sms check : Bool} {s : St α} {l : List α}

theorem good_init (cap : Nat) (sms check : Bool) : Good cap sms check (init (α := α) cap sms check) [] :=
  ⟨rfl, rfl, rfl, rfl, by simp, by simp [init], by simp [init, wr], fun j => by
    show (if j < cap + 1 then Cell.raw else Cell.raw) = cellOf [] j
    simp [cellOf]⟩

theorem Good.hb (h : Good cap sms check s l) : s.b < s.mem.cap := by rw [h.cap]; exact h.b

/-- Replacing the memory, seen from the same `begin`. -/
theorem Good.remem (h : Good cap sms check s l) {m : Mem α} {l' : List α} (hc : (rot s.b m).cap = cap + 1) (hsm : (rot s.b m).sms = sms)
    (hl : l'.length = l.length) (hcell : ∀ j, (rot s.b m).cell j = cellOf l' j) : Good cap sms check { s with mem := m } l' :=
  { cap := hc, sms := hsm, chk := h.chk, n := by rw [hl]; exact h.n, le := by rw [hl]; exact h.le, b := h.b, e := by rw [hl]; exact h.e, cells := hcell }

theorem Good.dist_wr (h : Good cap sms check s l) {k : Nat} (hk : k ≤ cap) : dist s (wr (cap+1) s.b k) = k := by
  have hb := h.b
  unfold dist bs; rw [h.cap]; unfold wr; split_ifs <;> (try split_ifs) <;> omega
theorem Good.dist_b (_h : Good cap sms check s l) : dist s s.b = 0 := by simp [dist]

theorem Good.read (h : Good cap sms check s l) {k : Nat} (hk : k < l.length) : s.mem.read (wr (cap+1) s.b k) = .ok l[k] := by
  have hle := h.le; have hcap := h.cap
  have := rot_read (k := k) h.hb (by omega)
  rw [hcap] at this
  rw [this]; exact read_ok (by simp; omega) (by rw [h.cells, cellOf_lt hk])

theorem createBack_ok (h : Good cap sms check s l) (hc : l.length < cap) (v : α) :
    ∃ s', createBack s v = .ok s' ∧ s'.b = s.b ∧ Good cap sms check s' (l ++ [v]) := by
  have hcap := h.cap
  have hr : (rot s.b s.mem).construct l.length v = .ok ((rot s.b s.mem).set l.length (.live v)) :=
    construct_ok v (by simp; omega) (by rw [h.cells, cellOf_ge (by omega)])
  rw [← rot_construct h.hb (by omega), hcap] at hr
  obtain ⟨m, e, hm⟩ := map_ok hr
  have hm1 : m.cap = cap + 1 := by have := congrArg Mem.cap hm; simpa [hcap] using this
  refine ⟨{ s with mem := m, e := inc (bs s) s.e, n := s.n + 1 }, by simp [createBack, h.e, e, bind, Except.bind], rfl, hm1, ?_, h.chk, by simp [h.n], by simp; omega, h.b, ?_, fun j => ?_⟩
  · have := congrArg Mem.sms hm; simpa [h.sms] using this
  · simp only [bs, hcap, h.e, List.length_append, List.length_singleton]; exact inc_wr h.b (by omega)
  · simp only [hm]; rw [set_cell, h.cells, cellOf_snoc]

theorem cellOf_cons (v : α) (l : List α) (j : Nat) : cellOf (v :: l) j = if j = 0 then .live v else cellOf l (j - 1) := by
  cases j <;> simp [cellOf]

/-- Cells seen from `begin - n`. -/
theorem rot_sub (h : Good cap sms check s l) {n : Nat} (hn : l.length + n ≤ cap) (j : Nat) :
    (rot (sub (cap+1) s.b n) s.mem).cell j = if j < n then .raw else cellOf l (j - n) := by
  have hcap := h.cap; have hb := h.b
  by_cases hj : j < cap + 1
  · rw [rot_cell (by omega), hcap]
    by_cases hjn : j < n
    · have e : wr (cap+1) (sub (cap+1) s.b n) j = wr (cap+1) s.b (j + (cap + 1) - n) := by
        unfold sub; split_ifs <;> unfold wr <;> split_ifs <;> omega
      have := h.cells (j + (cap+1) - n)
      rw [rot_cell (by omega), hcap] at this
      rw [e, this, if_pos hjn, cellOf_ge (by omega)]
    · have e : wr (cap+1) (sub (cap+1) s.b n) j = wr (cap+1) s.b (j - n) := by
        unfold sub; split_ifs <;> unfold wr <;> split_ifs <;> omega
      have := h.cells (j - n)
      rw [rot_cell (by omega), hcap] at this
      rw [e, this, if_neg hjn]
  · simp only [rot, hcap, if_neg hj]
    split_ifs
    · rfl
    · rw [cellOf_ge (by omega)]

theorem createFrontL_ok (h : Good cap sms check s l) (vs : List α) (hc : l.length + vs.length ≤ cap) :
    ∃ s', createFrontL s vs = .ok s' ∧ s'.b = sub (cap+1) s.b vs.length ∧ Good cap sms check s' (vs ++ l) := by
  have hcap := h.cap; have hb := h.b
  unfold createFrontL
  by_cases h0 : vs.length = 0
  · have : vs = [] := List.eq_nil_of_length_eq_zero h0
    subst this
    exact ⟨s, by simp, by simp [sub], by simpa using h⟩
  · rw [if_neg h0]
    have hlt : sub (cap+1) s.b vs.length < cap + 1 := sub_lt hb (by omega) (by omega)
    have hcell := rot_sub h hc
    obtain ⟨m2, e2, s2, c2⟩ := copyNew_ok vs (rot (sub (cap+1) s.b vs.length) s.mem) 0 (by simp; omega) (fun j _ hj => by
      rw [hcell, if_pos (by omega)])
    rw [← rot_constructAll vs s.mem 0 (by omega) (by omega), hcap, wr_zero hlt] at e2
    obtain ⟨m, e, hm⟩ := map_ok e2
    refine ⟨{ s with mem := m, b := sub (cap+1) s.b vs.length, n := s.n + vs.length }, by simp [bs, hcap, e, bind, Except.bind], rfl, ?_, ?_, h.chk, by simp [h.n]; omega, by simp; omega, hlt, ?_, fun j => ?_⟩
    · have := s2.1; rw [← hm] at this; simpa [hcap] using this
    · have := s2.2; rw [← hm] at this; simpa [h.sms] using this
    · simp only [h.e, List.length_append]; rw [wr_base (n := vs.length) hb (by omega), Nat.add_comm l.length]
    · simp only [hm, c2, hcell]
      unfold cellOf
      by_cases hj : j < vs.length
      · rw [List.getElem?_append_left hj]; simp [hj]
      · rw [List.getElem?_append_right (by omega)]; simp [hj]

theorem createFront_eq (s : St α) (v : α) : createFront s v = createFrontL s [v] := by
  simp only [createFront, createFrontL, List.length_singleton, if_neg (show ¬ (1 = 0) by omega), constructAll, dec_eq_sub]
  cases s.mem.construct (sub (bs s) s.b 1) v <;> rfl

theorem createFront_ok (h : Good cap sms check s l) (hc : l.length < cap) (v : α) :
    ∃ s', createFront s v = .ok s' ∧ s'.b = sub (cap+1) s.b 1 ∧ Good cap sms check s' (v :: l) := by
  rw [createFront_eq]; exact createFrontL_ok h [v] (by simp; omega)

theorem destroyBack_ok (h : Good cap sms check s l) (hc : l ≠ []) :
    ∃ s', destroyBack s = .ok s' ∧ s'.b = s.b ∧ Good cap sms check s' l.dropLast := by
  have hcap := h.cap; have hle := h.le
  have hpos := List.length_pos_iff.2 hc
  have hr : (rot s.b s.mem).destroy (l.length - 1) = .ok ((rot s.b s.mem).set (l.length - 1) .raw) :=
    destroy_ok (by simp; omega) (by rw [h.cells, cellOf_lt (by omega)]; simp)
  rw [← rot_destroy h.hb (by omega), hcap] at hr
  obtain ⟨m, e, hm⟩ := map_ok hr
  have hm1 : m.cap = cap + 1 := by have := congrArg Mem.cap hm; simpa [hcap] using this
  have he : dec (bs s) s.e = wr (cap+1) s.b (l.length - 1) := by rw [bs, hcap, h.e, dec_wr' h.b hpos (by omega)]
  refine ⟨{ s with mem := m, n := s.n - 1, e := wr (cap+1) s.b (l.length - 1) }, by simp [destroyBack, he, e, bind, Except.bind], rfl, hm1, ?_, h.chk, by simp [h.n], by simp; omega, h.b, ?_, fun j => ?_⟩
  · have := congrArg Mem.sms hm; simpa [h.sms] using this
  · simp
  · simp only [hm]; rw [set_cell, h.cells, cellOf_dropLast]

theorem destroyFront_ok' (h : Good cap sms check s l) {m0 : Mem α} (hm0 : Same s.mem m0) {l' : List α} (hl : l'.length + 1 = l.length)
    (h0 : (rot s.b m0).cell 0 ≠ .raw) (hcs : ∀ j, 0 < j → (rot s.b m0).cell j = cellOf l' (j - 1)) :
    ∃ s', destroyFront { s with mem := m0 } = .ok s' ∧ s'.b = wr (cap+1) s.b 1 ∧ Good cap sms check s' l' := by
  have hcap := h.cap; have hle := h.le; have hb := h.b
  have hcap0 : m0.cap = cap + 1 := hm0.1.trans hcap
  have hr : (rot s.b m0).destroy 0 = .ok ((rot s.b m0).set 0 .raw) :=
    destroy_ok (by simp; omega) h0
  rw [← rot_destroy (by rw [hcap0]; exact hb) (by omega), hcap0, wr_zero hb] at hr
  obtain ⟨m, e, hm⟩ := map_ok hr
  have hm1 : m.cap = cap + 1 := by have := congrArg Mem.cap hm; simpa [hcap0] using this
  have he : inc (bs { s with mem := m0 }) s.b = wr (cap+1) s.b 1 := by
    have := inc_wr (k := 0) hb (by omega)
    rw [wr_zero hb] at this; simp only [bs, hcap0]; exact this
  have hlt : wr (cap+1) s.b 1 < cap + 1 := wr_lt hb (by omega)
  have hrc : ∀ j, j < cap + 1 → m.cell (wr (cap+1) s.b j) = if j = 0 then .raw else cellOf l' (j - 1) := by
    intro j hj
    have := congrArg (fun x => x.cell j) hm
    simp only [set_cell] at this
    rw [rot_cell (by omega), hm1] at this
    rw [this]
    split_ifs with h1
    · rfl
    · exact hcs j (by omega)
  refine ⟨{ s with mem := m, n := s.n - 1, b := wr (cap+1) s.b 1 }, ?_, rfl, hm1, ?_, h.chk, by simp [h.n]; omega, by omega, hlt, ?_, fun j => ?_⟩
  · simp only [destroyFront, he, e, bind, Except.bind]
  · have := congrArg Mem.sms hm; simpa [hm0.2, h.sms] using this
  · simp only [h.e, ← hl]; unfold wr; split_ifs <;> omega
  · simp only
    by_cases hj : j < cap + 1
    · rw [rot_cell (by omega), hm1]
      by_cases hj2 : j = cap
      · have e1 : wr (cap+1) (wr (cap+1) s.b 1) j = wr (cap+1) s.b 0 := by unfold wr; split_ifs <;> omega
        rw [e1, hrc 0 (by omega), if_pos rfl, cellOf_ge (by omega)]
      · have e1 : wr (cap+1) (wr (cap+1) s.b 1) j = wr (cap+1) s.b (j+1) := by unfold wr; split_ifs <;> omega
        rw [e1, hrc (j+1) (by omega), if_neg (by omega)]; rfl
    · simp only [rot, hm1, if_neg hj]; rw [cellOf_ge (by omega)]

theorem destroyFront_ok (h : Good cap sms check s l) (hc : l ≠ []) :
    ∃ s', destroyFront s = .ok s' ∧ s'.b = wr (cap+1) s.b 1 ∧ Good cap sms check s' l.tail := by
  cases l with
  | nil => exact absurd rfl hc
  | cons a t =>
    exact destroyFront_ok' (m0 := s.mem) (l' := t) h .rfl (by simp) (by rw [h.cells]; simp [cellOf]) (fun j hj => by
      rw [h.cells, cellOf_cons, if_neg (by omega)])

theorem createBackL_ok (vs : List α) : ∀ {s : St α} {l : List α}, Good cap sms check s l → l.length + vs.length ≤ cap →
    ∃ s', createBackL s vs = .ok s' ∧ s'.b = s.b ∧ Good cap sms check s' (l ++ vs) := by
  induction vs with
  | nil => intro s l h _; exact ⟨s, rfl, rfl, by simpa using h⟩
  | cons v vs ih =>
    intro s l h hc
    simp only [List.length_cons] at hc
    obtain ⟨s1, e1, b1, g1⟩ := createBack_ok h (by omega) v
    obtain ⟨s2, e2, b2, g2⟩ := ih g1 (by simp; omega)
    exact ⟨s2, by simp [createBackL, e1, e2, bind, Except.bind], b2.trans b1, by simpa using g2⟩

theorem rep_createBack (v : α) (k : Nat) : ∀ (s : St α), rep (createBack · v) s k = createBackL s (List.replicate k v) := by
  induction k with
  | zero => intro s; rfl
  | succ k ih =>
    intro s
    simp only [rep, List.replicate_succ, createBackL]
    cases createBack s v with
    | error e => rfl
    | ok s' => simp only [bind, Except.bind]; exact ih s'

theorem rep_createFront_ok (v : α) (k : Nat) : ∀ {s : St α} {l : List α}, Good cap sms check s l → l.length + k ≤ cap →
    ∃ s', rep (createFront · v) s k = .ok s' ∧ s'.b = sub (cap+1) s.b k ∧ Good cap sms check s' (List.replicate k v ++ l) := by
  induction k with
  | zero => intro s l h _; exact ⟨s, rfl, by simp [sub], by simpa using h⟩
  | succ k ih =>
    intro s l h hc
    obtain ⟨s1, e1, b1, g1⟩ := createFront_ok h (by omega) v
    obtain ⟨s2, e2, b2, g2⟩ := ih g1 (by simp; omega)
    refine ⟨s2, by simp only [rep, e1, bind, Except.bind]; exact e2, ?_, ?_⟩
    · rw [b2, b1]; have := h.b; unfold sub; split_ifs <;> omega
    · have : List.replicate (k+1) v ++ l = List.replicate k v ++ v :: l := by
        rw [List.replicate_succ', List.append_assoc]; rfl
      rw [this]; exact g2

/-- `create_element_back(*from)` loop: appends a copy of `l[i], l[i+1], ...`. -/
theorem createBackFrom_ok (k : Nat) : ∀ {s : St α} {l : List α} (i : Nat), Good cap sms check s l → l.length + k ≤ cap → i + k ≤ l.length →
    ∃ s', createBackFrom s (wr (cap+1) s.b i) k = .ok s' ∧ s'.b = s.b ∧ Good cap sms check s' (l ++ (l.drop i).take k) := by
  induction k with
  | zero => intro s l i h _ _; exact ⟨s, rfl, rfl, by simpa using h⟩
  | succ k ih =>
    intro s l i h hc hi
    obtain ⟨s1, e1, b1, g1⟩ := createBack_ok h (by omega) (l[i]'(by omega))
    obtain ⟨s2, e2, b2, g2⟩ := ih (i+1) g1 (by simp; omega) (by simp; omega)
    rw [b1] at e2
    refine ⟨s2, ?_, b2.trans b1, ?_⟩
    · simp [createBackFrom, h.read (show i < l.length by omega), e1, bind, Except.bind, bs, g1.cap, inc_wr h.b (show i < cap + 1 by omega), e2]
    · have : l ++ (l.drop i).take (k+1) = l ++ [l[i]'(by omega)] ++ ((l ++ [l[i]'(by omega)]).drop (i+1)).take k := by
        rw [List.drop_eq_getElem_cons (show i < l.length by omega), List.take_succ_cons, List.drop_append_of_le_length (by omega), List.take_append_of_le_length (by simp; omega)]
        simp
      rw [this]; exact g2

/-- `create_element_front(*from)` loop with `--from`: the copies of `l[i-k+1..i]` end up in front in their order. -/
theorem createFrontDown_ok (k : Nat) : ∀ {s : St α} {l : List α} (i : Nat) (f : Nat), Good cap sms check s l → l.length + k ≤ cap → i ≤ l.length → k ≤ i →
    (0 < k → f = wr (cap+1) s.b (i - 1)) →
    ∃ s', createFrontDown s f k = .ok s' ∧ s'.b = sub (cap+1) s.b k ∧ Good cap sms check s' ((l.drop (i - k)).take k ++ l) := by
  induction k with
  | zero => intro s l i f h _ _ _ _; exact ⟨s, rfl, by simp [sub], by simpa using h⟩
  | succ k ih =>
    intro s l i f h hc hi hk hf
    have hf := hf (by omega)
    subst hf
    have hle := h.le
    obtain ⟨s1, e1, b1, g1⟩ := createFront_ok h (by omega) (l[i-1]'(by omega))
    have hb1 : s1.b < cap + 1 := g1.b
    have hfrom : 0 < k → dec (cap+1) (wr (cap+1) s.b (i-1)) = wr (cap+1) s1.b (i - 1) := by
      intro hk0
      rw [b1, dec_wr' h.b (by omega) (by omega), wr_base (n := 1) h.b (by omega)]
      congr 1; omega
    obtain ⟨s2, e2, b2, g2⟩ := ih (s := s1) i (dec (cap+1) (wr (cap+1) s.b (i-1))) g1 (by simp; omega) (by simp; omega) (by omega) hfrom
    refine ⟨s2, ?_, ?_, ?_⟩
    · simp [createFrontDown, h.read (show i - 1 < l.length by omega), e1, bind, Except.bind, bs, g1.cap, e2]
    · rw [b2, b1]; have := h.b; unfold sub; split_ifs <;> omega
    · have e3 : (List.drop (i - k) (l[i-1]'(by omega) :: l)).take k = (l.drop (i - (k+1))).take k := by
        have : i - k = (i - (k+1)) + 1 := by omega
        rw [this, List.drop_succ_cons]
      rw [e3] at g2
      have e4 : (l.drop (i - (k+1))).take (k+1) = (l.drop (i - (k+1))).take k ++ [l[i-1]'(by omega)] := by
        rw [List.take_succ_eq_append_getElem (by simp; omega)]
        congr 2
        rw [List.getElem_drop]
        congr 1; omega
      rw [e4, List.append_assoc]; exact g2

end Etl.Deque
