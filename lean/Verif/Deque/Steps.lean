import Verif.Deque.Lemmas
import Mathlib.Tactic.ByContra

namespace Etl.Deque
open Mem
variable {α : Type} {cap : Nat} {sms check : Bool} {s : St α} {l : List α}

/-! ## Cells of lists -/

theorem cellOf_append (a b : List α) (j : Nat) : cellOf (a ++ b) j = if j < a.length then cellOf a j else cellOf b (j - a.length) := by
  unfold cellOf
  by_cases h : j < a.length
  · rw [if_pos h, List.getElem?_append_left h]
  · rw [if_neg h, List.getElem?_append_right (by omega)]
theorem cellOf_drop (l : List α) (i j : Nat) : cellOf (l.drop i) j = cellOf l (i + j) := by
  unfold cellOf; rw [List.getElem?_drop]
theorem cellOf_take (l : List α) (i j : Nat) : cellOf (l.take i) j = if j < i then cellOf l j else .raw := by
  unfold cellOf
  by_cases h : j < i
  · rw [if_pos h, List.getElem?_take_of_lt h]
  · rw [if_neg h, List.getElem?_eq_none (by simp; omega)]
theorem cellOf_ne_raw {l : List α} {j : Nat} : cellOf l j ≠ .raw ↔ j < l.length := by
  constructor
  · intro h; by_contra hc; exact h (cellOf_ge (by omega))
  · intro h; rw [cellOf_lt h]; simp
theorem cellOf_live {l : List α} {j : Nat} (h : j < l.length) : ∃ v, cellOf l j = .live v := ⟨_, cellOf_lt h⟩

theorem copyTo_ok' (vs : List α) (m : Mem α) (i : Nat) (h1 : i + vs.length ≤ m.cap) (h2 : ∀ j, i ≤ j → j < i + vs.length → m.cell j ≠ .raw) :
    ∃ m', m.copyTo i vs = .ok m' ∧ Same m m' ∧ ∀ j, m'.cell j = if i ≤ j ∧ j < i + vs.length then cellOf vs (j - i) else m.cell j := by
  obtain ⟨m', e, s, c⟩ := copyTo_ok vs m i h1 h2
  refine ⟨m', e, s, fun j => ?_⟩
  rw [c]
  by_cases hij : i ≤ j
  · rw [if_pos hij]
    by_cases hj : j < i + vs.length
    · rw [if_pos ⟨hij, hj⟩, List.getElem?_eq_getElem (by omega), cellOf_lt (by omega)]
    · rw [if_neg (by omega), List.getElem?_eq_none (by omega)]
  · rw [if_neg hij, if_neg (by omega)]

theorem fillNR_eq (v : α) (n : Nat) : ∀ (m : Mem α) (i : Nat), fillNR m i n v = copyToR m i (List.replicate n v) := by
  induction n with
  | zero => intro m i; rfl
  | succ n ih =>
    intro m i
    simp only [fillNR, List.replicate_succ, copyToR]
    cases m.assign i v with
    | error e => rfl
    | ok m' => simp only [bind, Except.bind]; exact ih _ _

/-! ## Objects to be destroyed at either end -/

/-- `f` objects (possibly moved-from), then the elements of `l`, then `r` objects (possibly moved-from). -/
structure Junk (N : Nat) (sm chk : Bool) (s : St α) (f : Nat) (l : List α) (r : Nat) : Prop where
  cap : s.mem.cap = N + 1
  sms : s.mem.sms = sm
  chk : s.check = chk
  n : s.n = f + l.length + r
  le : f + l.length + r ≤ N
  b : s.b < N + 1
  e : s.e = wr (N + 1) s.b (f + l.length + r)
  front : ∀ j, j < f → (rot s.b s.mem).cell j ≠ .raw
  mid : ∀ j, f ≤ j → j < f + l.length → (rot s.b s.mem).cell j = cellOf l (j - f)
  back : ∀ j, f + l.length ≤ j → j < f + l.length + r → (rot s.b s.mem).cell j ≠ .raw
  raw : ∀ j, f + l.length + r ≤ j → (rot s.b s.mem).cell j = .raw

theorem Junk.good (h : Junk cap sms check s 0 l 0) : Good cap sms check s l :=
  { cap := h.cap, sms := h.sms, chk := h.chk, n := by simpa using h.n, le := by simpa using h.le, b := h.b, e := by simpa using h.e,
    cells := fun j => by
      by_cases hj : j < l.length
      · exact h.mid j (by omega) (by omega)
      · rw [h.raw j (by omega), cellOf_ge (by omega)] }

theorem Junk.destroyBack {f r : Nat} (h : Junk cap sms check s f l (r + 1)) :
    ∃ s', destroyBack s = .ok s' ∧ s'.b = s.b ∧ Junk cap sms check s' f l r := by
  have hcap := h.cap; have hle := h.le; have hb := h.b
  have hr : (rot s.b s.mem).destroy (f + l.length + r) = .ok ((rot s.b s.mem).set (f + l.length + r) .raw) :=
    destroy_ok (by simp; omega) (h.back _ (by omega) (by omega))
  rw [← rot_destroy (by omega) (by omega), hcap] at hr
  obtain ⟨m, e, hm⟩ := map_ok hr
  have hm1 : m.cap = cap + 1 := by have := congrArg Mem.cap hm; simpa [hcap] using this
  have he : dec (bs s) s.e = wr (cap+1) s.b (f + l.length + r) := by rw [bs, hcap, h.e, dec_wr' hb (by omega) (by omega)]; simp only [Nat.add_succ_sub_one, ← Nat.add_assoc, Nat.add_sub_cancel]
  refine ⟨{ s with mem := m, n := s.n - 1, e := wr (cap+1) s.b (f + l.length + r) }, by simp [Deque.destroyBack, he, e, bind, Except.bind], rfl, hm1, ?_, h.chk, by simp [h.n], by omega, hb, rfl, ?_, ?_, ?_, ?_⟩
  · have := congrArg Mem.sms hm; simpa [h.sms] using this
  · intro j hj; simp only [hm]; rw [set_cell, if_neg (by omega)]; exact h.front j hj
  · intro j h1 h2; simp only [hm]; rw [set_cell, if_neg (by omega)]; exact h.mid j h1 h2
  · intro j h1 h2; simp only [hm]; rw [set_cell, if_neg (by omega)]; exact h.back j h1 (by omega)
  · intro j h1; simp only [hm]; rw [set_cell]
    split_ifs with h2
    · rfl
    · exact h.raw j (by omega)

theorem Junk.repBack {f : Nat} (k : Nat) : ∀ {s : St α} {r : Nat}, Junk cap sms check s f l (r + k) →
    ∃ s', rep Deque.destroyBack s k = .ok s' ∧ s'.b = s.b ∧ Junk cap sms check s' f l r := by
  induction k with
  | zero => intro s r h; exact ⟨s, rfl, rfl, h⟩
  | succ k ih =>
    intro s r h
    obtain ⟨s1, e1, b1, h1⟩ := Junk.destroyBack (r := r + k) h
    obtain ⟨s2, e2, b2, h2⟩ := ih h1
    exact ⟨s2, by simp [rep, e1, e2, bind, Except.bind], b2.trans b1, h2⟩

theorem Junk.destroyFront {f r : Nat} (h : Junk cap sms check s (f + 1) l r) :
    ∃ s', destroyFront s = .ok s' ∧ s'.b = wr (cap+1) s.b 1 ∧ Junk cap sms check s' f l r := by
  have hcap := h.cap; have hle := h.le; have hb := h.b
  have hr : (rot s.b s.mem).destroy 0 = .ok ((rot s.b s.mem).set 0 .raw) :=
    destroy_ok (by simp; omega) (h.front _ (by omega))
  rw [← rot_destroy (by omega) (by omega), hcap, wr_zero hb] at hr
  obtain ⟨m, e, hm⟩ := map_ok hr
  have hm1 : m.cap = cap + 1 := by have := congrArg Mem.cap hm; simpa [hcap] using this
  have he : inc (bs s) s.b = wr (cap+1) s.b 1 := by
    have := inc_wr (k := 0) hb (by omega)
    rw [wr_zero hb] at this; simp only [bs, hcap]; exact this
  have hlt : wr (cap+1) s.b 1 < cap + 1 := wr_lt hb (by omega)
  have hrc : ∀ j, (rot (wr (cap+1) s.b 1) m).cell j = if j < cap then (rot s.b s.mem).cell (j + 1) else .raw := by
    intro j
    by_cases hj : j < cap + 1
    · rw [rot_cell (by omega), hm1]
      have hc0 : ∀ k, k < cap + 1 → m.cell (wr (cap+1) s.b k) = if k = 0 then .raw else (rot s.b s.mem).cell k := by
        intro k hk
        have := congrArg (fun x => x.cell k) hm
        simp only [set_cell] at this
        rw [rot_cell (by omega), hm1] at this
        exact this
      by_cases hj2 : j < cap
      · have e1 : wr (cap+1) (wr (cap+1) s.b 1) j = wr (cap+1) s.b (j+1) := by unfold wr; split_ifs <;> omega
        rw [e1, hc0 _ (by omega), if_neg (by omega), if_pos hj2]
      · have e1 : wr (cap+1) (wr (cap+1) s.b 1) j = wr (cap+1) s.b 0 := by unfold wr; split_ifs <;> omega
        rw [e1, hc0 0 (by omega), if_pos rfl, if_neg hj2]
    · rw [if_neg (by omega)]
      simp only [rot, hm1, if_neg hj]
  refine ⟨{ s with mem := m, n := s.n - 1, b := wr (cap+1) s.b 1 }, by simp only [Deque.destroyFront, he, e, bind, Except.bind], rfl, hm1, ?_, h.chk, by simp [h.n]; omega, by omega, hlt, ?_, ?_, ?_, ?_, ?_⟩
  · have := congrArg Mem.sms hm; simpa [h.sms] using this
  · simp only [h.e]; unfold wr; split_ifs <;> omega
  · intro j hj; simp only [hrc]; rw [if_pos (by omega)]; exact h.front _ (by omega)
  · intro j h1 h2; simp only [hrc]; rw [if_pos (by omega), h.mid _ (by omega) (by omega)]; congr 1; omega
  · intro j h1 h2; simp only [hrc]; rw [if_pos (by omega)]; exact h.back _ (by omega) (by omega)
  · intro j h1; simp only [hrc]
    split_ifs
    · exact h.raw _ (by omega)
    · rfl

theorem wr_add {c b i j : Nat} (hb : b < c) (h : i + j < c) : wr c (wr c b i) j = wr c b (i + j) := by
  unfold wr; split_ifs <;> omega

theorem Junk.repFront {r : Nat} (k : Nat) : ∀ {s : St α} {f : Nat}, Junk cap sms check s (f + k) l r →
    ∃ s', rep Deque.destroyFront s k = .ok s' ∧ s'.b = wr (cap+1) s.b k ∧ Junk cap sms check s' f l r := by
  induction k with
  | zero => intro s f h; exact ⟨s, rfl, (wr_zero h.b).symm, h⟩
  | succ k ih =>
    intro s f h
    obtain ⟨s1, e1, b1, h1⟩ := Junk.destroyFront (f := f + k) h
    obtain ⟨s2, e2, b2, h2⟩ := ih h1
    refine ⟨s2, by simp [rep, e1, e2, bind, Except.bind], ?_, h2⟩
    have := h.le
    rw [b2, b1, wr_add h.b (by omega)]; congr 1; omega

theorem Good.junk (h : Good cap sms check s l) (f r : Nat) (hfr : f + r ≤ l.length) :
    Junk cap sms check s f ((l.drop f).take (l.length - f - r)) r := by
  have hlen : ((l.drop f).take (l.length - f - r)).length = l.length - f - r := by simp
  have hle := h.le
  refine { cap := h.cap, sms := h.sms, chk := h.chk, n := by rw [hlen, h.n]; omega, le := by rw [hlen]; omega, b := h.b, e := ?_, front := ?_, mid := ?_, back := ?_, raw := ?_ }
  · rw [hlen, h.e]; congr 1; omega
  · intro j hj; rw [h.cells]; exact cellOf_ne_raw.2 (by omega)
  · intro j h1 h2; rw [h.cells, cellOf_take, if_pos (by omega), cellOf_drop]; congr 1; omega
  · intro j h1 h2; rw [h.cells]; exact cellOf_ne_raw.2 (by omega)
  · intro j h1; rw [h.cells, cellOf_ge (by omega)]

theorem repDestroyBack_ok (h : Good cap sms check s l) (k : Nat) (hk : k ≤ l.length) :
    ∃ s', rep destroyBack s k = .ok s' ∧ s'.b = s.b ∧ Good cap sms check s' (l.take (l.length - k)) := by
  have := h.junk 0 k (by omega)
  simp only [List.drop_zero, Nat.sub_zero] at this
  obtain ⟨s', e, b, g⟩ := Junk.repBack (r := 0) k (by simpa using this)
  exact ⟨s', e, b, g.good⟩

theorem repDestroyFront_ok (h : Good cap sms check s l) (k : Nat) (hk : k ≤ l.length) :
    ∃ s', rep destroyFront s k = .ok s' ∧ s'.b = wr (cap+1) s.b k ∧ Good cap sms check s' (l.drop k) := by
  have := h.junk k 0 (by omega)
  rw [List.take_of_length_le (by simp)] at this
  obtain ⟨s', e, b, g⟩ := Junk.repFront (f := 0) k (by simpa using this)
  exact ⟨s', e, b, g.good⟩

theorem initialise_ok (h : Good cap sms check s l) : ∃ s', initialise s = .ok s' ∧ Good cap sms check s' [] := by
  obtain ⟨s1, e1, b1, g1⟩ := repDestroyBack_ok h l.length (by omega)
  simp only [Nat.sub_self, List.take_zero] at g1
  refine ⟨{ s1 with b := 0, e := 0 }, by simp [initialise, h.n, e1, bind, Except.bind], g1.cap, g1.sms, g1.chk, g1.n, by simp, by simp, by simp [wr], fun j => ?_⟩
  have hc := g1.cells
  have hcap := g1.cap; have hb := g1.b
  by_cases hj : j < cap + 1
  · rw [rot_cell (by simp; omega)]
    simp only [hcap]
    obtain ⟨k, hk, hk2⟩ : ∃ k, k < cap + 1 ∧ wr (cap+1) s1.b k = wr (cap+1) 0 j := by
      by_cases hx : s1.b ≤ j
      · exact ⟨j - s1.b, by omega, by unfold wr; split_ifs <;> omega⟩
      · exact ⟨j + (cap + 1) - s1.b, by omega, by unfold wr; split_ifs <;> omega⟩
    have := hc k
    rw [rot_cell (by omega), hcap, hk2] at this
    rw [this]; simp [cellOf]
  · simp only [rot, hcap, if_neg hj]; simp [cellOf]

theorem dropLast_eq (l : List α) : l.take (l.length - 1) = l.dropLast := by rw [List.dropLast_eq_take]

/-! ## One-element gaps -/

structure Hole (N : Nat) (sm chk : Bool) (s : St α) (l : List α) (i0 : Nat) : Prop where
  cap : s.mem.cap = N + 1
  sms : s.mem.sms = sm
  chk : s.check = chk
  n : s.n = l.length + 1
  le : l.length + 1 ≤ N
  b : s.b < N + 1
  e : s.e = wr (N + 1) s.b (l.length + 1)
  i : i0 ≤ l.length
  hole : (rot s.b s.mem).cell i0 ≠ .raw
  cells : ∀ j, j ≠ i0 → (rot s.b s.mem).cell j = if j < i0 then cellOf l j else cellOf l (j - 1)

theorem Hole.fill {i : Nat} (h : Hole cap sms check s l i) (v : α) {m : Mem α} (hm : rot s.b m = (rot s.b s.mem).set i (.live v)) :
    Good cap sms check { s with mem := m } (l.take i ++ v :: l.drop i) := by
  have hi := h.i
  refine { cap := ?_, sms := ?_, chk := h.chk, n := by simp [h.n]; omega, le := by simp; have := h.le; omega, b := h.b, e := ?_, cells := fun j => ?_ }
  · have := congrArg Mem.cap hm; simpa [h.cap] using this
  · have := congrArg Mem.sms hm; simpa [h.sms] using this
  · simp only [h.e]; congr 1; simp; omega
  · simp only [hm]
    rw [set_cell, cellOf_ins1 _ _ _ hi]
    by_cases hj : j = i
    · simp [hj]
    · rw [if_neg hj, h.cells j hj, if_neg hj]

theorem Hole.assign {i : Nat} (h : Hole cap sms check s l i) (v : α) :
    ∃ m, s.mem.assign (wr (cap+1) s.b i) v = .ok m ∧ Good cap sms check { s with mem := m } (l.take i ++ v :: l.drop i) := by
  have hcap := h.cap; have hi := h.i; have hle := h.le; have hb := h.b
  have hr : (rot s.b s.mem).assign i v = .ok ((rot s.b s.mem).set i (.live v)) := assign_ok v (by simp; omega) h.hole
  rw [← rot_assign (by omega) (by omega), hcap] at hr
  obtain ⟨m, e, hm⟩ := map_ok hr
  exact ⟨m, e, h.fill v hm⟩

theorem Hole.emplace {i : Nat} (h : Hole cap sms check s l i) (v : α) :
    ∃ m m', s.mem.destroy (wr (cap+1) s.b i) = .ok m ∧ m.construct (wr (cap+1) s.b i) v = .ok m' ∧
      Good cap sms check { s with mem := m' } (l.take i ++ v :: l.drop i) := by
  have hcap := h.cap; have hi := h.i; have hle := h.le; have hb := h.b
  have hr : (rot s.b s.mem).destroy i = .ok ((rot s.b s.mem).set i .raw) := destroy_ok (by simp; omega) h.hole
  rw [← rot_destroy (by omega) (by omega), hcap] at hr
  obtain ⟨m, e, hm⟩ := map_ok hr
  have hm1 : m.cap = cap + 1 := by have := congrArg Mem.cap hm; simpa [hcap] using this
  have hr2 : (rot s.b m).construct i v = .ok ((rot s.b m).set i (.live v)) := construct_ok v (by simp; omega) (by rw [hm, set_cell, if_pos rfl])
  rw [← rot_construct (by omega) (by omega), hm1] at hr2
  obtain ⟨m', e', hm'⟩ := map_ok hr2
  refine ⟨m, m', e, e', h.fill v ?_⟩
  rw [hm', hm]
  unfold Mem.set
  simp only [Mem.mk.injEq, true_and]
  funext j
  simp only [upd]; split_ifs <;> rfl

theorem gapFront_core {i : Nat} (v : α) (h : Good cap sms check s (v :: l)) (hv : l.head? = some v) (hle : l.length + 1 ≤ cap) (hi : i < l.length) :
    ∃ m, moveUpR s.mem (wr (cap+1) s.b 1) i s.b = .ok m ∧ Hole cap sms check { s with mem := m } l i := by
  have hb := h.b; have hc0 := h.cap
  have hcs := h.cells
  have hl0 : cellOf l 0 = .live v := by
    cases l with
    | nil => simp at hv
    | cons a t => simp at hv; simp [cellOf, hv]
  obtain ⟨m2, e2, s2, c2⟩ := moveUp_ok i (rot s.b s.mem) 1 0 (by omega) (by simp; omega)
    (fun j h1 h2 => by rw [hcs]; exact cellOf_live (by simp; omega)) (fun j h1 h2 => by rw [hcs]; exact cellOf_ne_raw.2 (by simp; omega))
  rw [← rot_moveUpR i s.mem 1 0 (by omega) (by omega) (by omega), hc0, wr_zero hb] at e2
  obtain ⟨m, e, hmm⟩ := map_ok e2
  refine ⟨m, e, { cap := ?_, sms := ?_, chk := h.chk, n := by simpa using h.n, le := hle, b := hb, e := by simpa using h.e, i := by omega, hole := ?_, cells := ?_ }⟩
  · have := s2.1; rw [← hmm] at this; simpa [hc0] using this
  · have := s2.2; rw [← hmm] at this; simpa [h.sms] using this
  · simp only [hmm]; rw [c2, if_neg (by omega)]
    split_ifs
    · simp
    · rw [hcs]; exact cellOf_ne_raw.2 (by simp; omega)
  · intro j hj
    simp only [hmm, c2, hcs, cellOf_cons]
    split_ifs
    all_goals first
      | rfl
      | (exfalso; omega)
      | (congr 1; omega)

theorem gapFront_ok (h : Good cap sms check s l) (hle : l.length + 1 ≤ cap) {i : Nat} (hi : i < l.length) :
    ∃ s', gapFront s (wr (cap+1) s.b i) = .ok (s', wr (cap+1) s'.b i) ∧ Hole cap sms check s' l i := by
  have hb := h.b
  have hr := h.read (k := 0) (by omega)
  rw [wr_zero hb] at hr
  obtain ⟨s1, e1, b1, g1⟩ := createFront_ok h (by omega) (l[0]'(by omega))
  obtain ⟨m, e, hh⟩ := gapFront_core (i := i) _ g1 (by rw [List.head?_eq_getElem?, List.getElem?_eq_getElem (by omega)]) hle hi
  have hp : wr (cap+1) s.b i = wr (cap+1) s1.b (i+1) := by rw [b1]; exact wr_base hb (by omega)
  refine ⟨{ s1 with mem := m }, ?_, hh⟩
  have hsrc : add (bs s1) s1.b 1 = wr (cap+1) s1.b 1 := by rw [bs, g1.cap]; exact add_b g1.b (by omega)
  have hst : steps (bs s1) (wr (cap+1) s1.b 1) (wr (cap+1) s1.b (i+1)) = i := by
    rw [bs, g1.cap, steps_wr g1.b (by omega) (by omega)]; omega
  have hmc : m.cap = cap + 1 := hh.cap
  simp only [gapFront, hr, e1, hsrc, hp, hst, e, bind, Except.bind]
  simp only [bs, hmc, g1.cap, dec_wr g1.b (show i < cap + 1 by omega)]

/-- Common part of `gapBack` and `gapBackMove`: the tail is moved up by one. -/
theorem gapBack_core {i : Nat} {v : α} (h : Good cap sms check s (l ++ [v])) (hv : l.getLast? = some v) (hle : l.length + 1 ≤ cap) (hi : i < l.length)
    {m0 : Mem α} (hc0 : m0.cap = cap + 1) (hs0 : m0.sms = sms)
    (hm0 : ∀ j, j ≠ l.length - 1 → (rot s.b m0).cell j = cellOf (l ++ [v]) j) (hm1 : (rot s.b m0).cell (l.length - 1) ≠ .raw) :
    ∃ m, moveDownR m0 (l.length - 1 - i) (wr (cap+1) s.b (l.length - 1)) (wr (cap+1) s.b l.length) = .ok m ∧ Hole cap sms check { s with mem := m } l i := by
  have hb := h.b
  have hl0 : l[l.length - 1]'(by omega) = v := by
    rw [List.getLast?_eq_getElem?, List.getElem?_eq_getElem (by omega)] at hv; simpa using hv
  obtain ⟨m2, e2, s2, c2⟩ := moveDown_ok (l.length - 1 - i) (rot s.b m0) (l.length - 1) l.length (by omega) (by omega) (by simp; omega)
    (fun j h1 h2 => by rw [hm0 j (by omega)]; exact cellOf_live (by simp; omega)) (fun j h1 h2 => by
      have : j = l.length - 1 := by omega
      rw [this]; exact hm1)
  rw [← rot_moveDownR _ m0 _ _ (by omega) (by omega) (by omega) (by omega) (by omega), hc0] at e2
  obtain ⟨m, e, hmm⟩ := map_ok e2
  refine ⟨m, e, { cap := ?_, sms := ?_, chk := h.chk, n := by simpa using h.n, le := hle, b := hb, e := by simpa using h.e, i := by omega, hole := ?_, cells := ?_ }⟩
  · have := s2.1; rw [← hmm] at this; simpa [hc0] using this
  · have := s2.2; rw [← hmm] at this; simpa [hs0] using this
  · simp only [hmm]; rw [c2, if_neg (by omega)]
    split_ifs
    · simp
    · have : i = l.length - 1 := by omega
      rw [this]; exact hm1
  · intro j hj
    simp only [hmm, c2]
    by_cases h1 : l.length - (l.length - 1 - i) ≤ j ∧ j < l.length
    · rw [if_pos h1, hm0 _ (by omega), if_neg (by omega), cellOf_append, if_pos (by omega)]; congr 1; omega
    · rw [if_neg h1]
      by_cases h2 : j < i
      · rw [if_neg (by omega), if_pos h2, hm0 _ (by omega), cellOf_append, if_pos (by omega)]
      · rw [if_neg (by omega), if_neg h2, hm0 _ (by omega), cellOf_append, if_neg (by omega)]
        by_cases h3 : j = l.length
        · subst h3
          rw [cellOf_lt (show l.length - 1 < l.length by omega), hl0]; simp [cellOf]
        · rw [cellOf_ge (by simp; omega), cellOf_ge (by omega)]

theorem gapBack_ok (h : Good cap sms check s l) (hle : l.length + 1 ≤ cap) {i : Nat} (hi : i < l.length) :
    ∃ s', gapBack s (wr (cap+1) s.b i) = .ok (s', wr (cap+1) s'.b i) ∧ Hole cap sms check s' l i := by
  have hb := h.b
  have hr := h.read (k := l.length - 1) (by omega)
  obtain ⟨s1, e1, b1, g1⟩ := createBack_ok h (by omega) (l[l.length - 1]'(by omega))
  obtain ⟨m, e, hh⟩ := gapBack_core (i := i) g1 (by rw [List.getLast?_eq_getElem?, List.getElem?_eq_getElem (by omega)]) hle hi (m0 := s1.mem) g1.cap g1.sms
    (fun j _ => g1.cells j) (by rw [g1.cells]; exact cellOf_ne_raw.2 (by simp; omega))
  have hx0 : sub (bs s) s.e 1 = wr (cap+1) s.b (l.length - 1) := by rw [bs, h.cap, h.e, sub_wr hb (by omega) (by omega)]
  have he1 := g1.e
  rw [List.length_append, List.length_singleton] at he1
  have hx1 : sub (bs s1) s1.e 2 = wr (cap+1) s1.b (l.length - 1) := by rw [bs, g1.cap, he1, sub_wr g1.b (by omega) (by omega)]; congr 1
  have hx2 : sub (bs s1) s1.e 1 = wr (cap+1) s1.b l.length := by rw [bs, g1.cap, he1, sub_wr g1.b (by omega) (by omega)]; congr 1
  have hst : steps (bs s1) (wr (cap+1) s1.b i) (wr (cap+1) s1.b (l.length - 1)) = l.length - 1 - i := by
    rw [bs, g1.cap, steps_wr g1.b (by omega) (by omega)]
  refine ⟨{ s1 with mem := m }, ?_, hh⟩
  simp only [gapBack, hx0, hr, e1, hx1, hx2, bind, Except.bind]
  rw [← b1, hst, e]

theorem gapBackMove_ok (h : Good cap sms check s l) (hle : l.length + 1 ≤ cap) {i : Nat} (hi : i < l.length) :
    ∃ s', gapBackMove s (wr (cap+1) s.b i) = .ok (s', wr (cap+1) s'.b i) ∧ Hole cap sms check s' l i := by
  have hb := h.b; have hcap := h.cap
  have hr := h.read (k := l.length - 1) (by omega)
  have hx0 : sub (bs s) s.e 1 = wr (cap+1) s.b (l.length - 1) := by rw [bs, h.cap, h.e, sub_wr hb (by omega) (by omega)]
  -- with and without the take, createBack acts on the slot at `_end`
  obtain ⟨s1, e1, b1, g1⟩ := createBack_ok h (by omega) (l[l.length - 1]'(by omega))
  have hms := rot_set (m := s.mem) (b := s.b) (k := l.length - 1) (by omega) (by omega) .moved
  rw [hcap] at hms
  have hcon : (rot s.b (s.mem.set (wr (cap+1) s.b (l.length - 1)) .moved)).construct l.length (l[l.length - 1]'(by omega)) =
      .ok ((rot s.b (s.mem.set (wr (cap+1) s.b (l.length - 1)) .moved)).set l.length (.live (l[l.length - 1]'(by omega)))) :=
    construct_ok _ (by simp; omega) (by rw [hms, set_cell, if_neg (by omega), h.cells, cellOf_ge (by omega)])
  rw [← rot_construct (by simp; omega) (by simp; omega)] at hcon
  obtain ⟨m0, e0, hm0⟩ := map_ok hcon
  simp only [set_cap, hcap] at e0
  have hc0 : m0.cap = cap + 1 := by have := congrArg Mem.cap hm0; simpa [hcap] using this
  have hs0 : m0.sms = sms := by have := congrArg Mem.sms hm0; simpa [h.sms] using this
  have hcs : ∀ j, (rot s.b m0).cell j = if j = l.length then .live (l[l.length - 1]'(by omega)) else if j = l.length - 1 then .moved else cellOf l j := by
    intro j; rw [hm0, set_cell, hms, set_cell, h.cells]
  obtain ⟨m, e, hh⟩ := gapBack_core (i := i) g1 (by rw [List.getLast?_eq_getElem?, List.getElem?_eq_getElem (by omega)]) hle hi (m0 := m0) hc0 hs0
    (fun j hj => by
      rw [b1, hcs, cellOf_snoc]
      split_ifs
      · rfl
      · rfl) (by rw [b1, hcs, if_neg (by omega), if_pos rfl]; simp)
  have hs1 : s1.n = s.n + 1 ∧ s1.e = inc (bs s) s.e ∧ s1.check = s.check := by
    unfold createBack at e1
    cases hx : s.mem.construct s.e (l[l.length - 1]'(by omega)) with
    | error u => simp [hx, bind, Except.bind] at e1
    | ok y => simp only [hx, bind, Except.bind, Except.ok.injEq] at e1; rw [← e1]; exact ⟨rfl, rfl, rfl⟩
  have he1 := g1.e
  rw [List.length_append, List.length_singleton] at he1
  have hcb : createBack { s with mem := s.mem.set (wr (cap+1) s.b (l.length - 1)) .moved } (l[l.length - 1]'(by omega)) = .ok { s1 with mem := m0 } := by
    simp only [createBack, h.e, e0, bind, Except.bind, bs, set_cap]
    obtain ⟨q1, q2, q3⟩ := hs1
    rw [h.e] at q2
    cases s1; simp_all [bs]
  have hx1 : sub (cap+1) s1.e 2 = wr (cap+1) s1.b (l.length - 1) := by rw [he1, sub_wr g1.b (by omega) (by omega)]; congr 1
  have hx2 : sub (cap+1) s1.e 1 = wr (cap+1) s1.b l.length := by rw [he1, sub_wr g1.b (by omega) (by omega)]; congr 1
  have hst : steps (cap+1) (wr (cap+1) s1.b i) (wr (cap+1) s1.b (l.length - 1)) = l.length - 1 - i := by
    rw [steps_wr g1.b (by omega) (by omega)]
  refine ⟨{ s1 with mem := m }, ?_, hh⟩
  simp only [gapBackMove, take, hx0, hr, hcb, bind, Except.bind]
  simp only [bs, hc0, hx1, hx2]
  rw [← b1, hst, e]

/-! ## Ranges in the middle -/

/-- Front side: after the creates the deque holds `l.take cc ++ vs.take kn ++ l`; the rest of the old front is moved down, the rest of the
new elements is assigned. -/
theorem tailFront_ok (vs : List α) (i : Nat) (hi : i ≤ l.length) (hk : vs ≠ [] ∨ sms = true)
    (cc : Nat) (hcc : cc = min vs.length i) (h : Good cap sms check s (l.take cc ++ vs.take (vs.length - cc) ++ l)) :
    ∃ m1 m2, moveUpR s.mem (wr (cap+1) s.b (vs.length + cc)) (i - cc) (wr (cap+1) s.b cc) = .ok m1 ∧
      copyToR m1 (wr (cap+1) s.b (i + vs.length - cc)) (vs.drop (vs.length - cc)) = .ok m2 ∧
      Good cap sms check { s with mem := m2 } (l.take i ++ vs ++ l.drop i) := by
  have hb := h.b; have hc0 := h.cap; have hle := h.le
  simp only [List.length_append, List.length_take] at hle
  have hcs := h.cells
  have hlen : (l.take cc ++ vs.take (vs.length - cc) ++ l).length = vs.length + l.length := by simp; omega
  have hmove : ∃ m', (rot s.b s.mem).moveUp (vs.length + cc) (i - cc) cc = .ok m' ∧ Same (rot s.b s.mem) m' ∧
      ∀ j, (j < i → m'.cell j = cellOf l j) ∧ (i ≤ j → j < i + vs.length - cc → m'.cell j = cellOf vs (j - i)) ∧
        (i + vs.length - cc ≤ j → j < i + vs.length → m'.cell j ≠ .raw) ∧ (i + vs.length ≤ j → m'.cell j = cellOf l (j - vs.length)) := by
    by_cases h0 : vs = []
    · have hsm := hk.resolve_left (by simp [h0])
      subst h0
      simp only [List.length_nil] at *
      obtain ⟨m', e, s', c⟩ := moveUp_self (i - cc) (rot s.b s.mem) cc (by simp [h.sms, hsm]) (by simp; omega) (fun j h1 h2 => by
        rw [hcs]; exact cellOf_live (by omega))
      have hcc0 : cc = 0 := by omega
      subst hcc0
      refine ⟨m', by simpa using e, s', fun j => ⟨fun h1 => ?_, fun h1 h2 => by omega, fun h1 h2 => by omega, fun h1 => ?_⟩⟩
      · rw [c, hcs]; simp
      · rw [c, hcs]; simp
    · have hpos : 0 < vs.length := List.length_pos_iff.2 h0
      obtain ⟨m', e, s', c⟩ := moveUp_ok (i - cc) (rot s.b s.mem) (vs.length + cc) cc (by omega) (by simp; omega) (fun j h1 h2 => by
          rw [hcs]; exact cellOf_live (by omega)) (fun j h1 h2 => by rw [hcs]; exact cellOf_ne_raw.2 (by omega))
      refine ⟨m', e, s', fun j => ?_⟩
      have hcj : m'.cell j = _ := c j
      simp only [hcs, cellOf_append, cellOf_take, List.length_append, List.length_take] at hcj
      refine ⟨fun h1 => ?_, fun h1 h2 => ?_, fun h1 h2 => ?_, fun h1 => ?_⟩
      · rw [hcj]; split_ifs <;> first | rfl | (exfalso; omega) | (congr 1; omega)
      · rw [hcj]; split_ifs <;> first | rfl | (exfalso; omega) | (congr 1; omega)
      · rw [hcj]; split_ifs <;> first | (exfalso; omega) | exact cellOf_ne_raw.2 (by omega) | (simp; done)
      · rw [hcj]; split_ifs <;> first | rfl | (exfalso; omega) | (congr 1; omega)
  obtain ⟨m1, e1, s1, c1⟩ := hmove
  have hm1c : m1.cap = cap + 1 := by rw [s1.1]; exact hc0
  obtain ⟨m2, e2, s2, c2⟩ := copyTo_ok' (vs.drop (vs.length - cc)) m1 (i + vs.length - cc) (by simp; omega) (fun j h1 h2 => by
    simp at h2; exact (c1 j).2.2.1 h1 (by omega))
  rw [← rot_moveUpR _ s.mem _ _ (by omega) (by omega) (by omega), hc0] at e1
  obtain ⟨n1, f1, g1⟩ := map_ok e1
  have hn1c : n1.cap = cap + 1 := by rw [← hm1c, ← g1]; rfl
  rw [← g1, ← rot_copyToR _ n1 _ (by omega) (by simp; omega), hn1c] at e2
  obtain ⟨n2, f2, g2⟩ := map_ok e2
  refine ⟨n1, n2, f1, f2, h.remem (by rw [g2, s2.1, hm1c]) (by rw [g2, s2.2, s1.2]; exact h.sms) (by simp; omega) (fun j => ?_)⟩
  rw [g2, c2]
  obtain ⟨d1, d2, d3, d4⟩ := c1 j
  have hmi : min i l.length = i := by omega
  simp only [cellOf_append, cellOf_take, cellOf_drop, List.length_append, List.length_take, List.length_drop, hmi]
  by_cases q1 : j < i
  · rw [if_neg (by omega), d1 q1, if_pos (by omega), if_pos (by omega), if_pos q1]
  · by_cases q2 : j < i + vs.length - cc
    · rw [if_neg (by omega), d2 (by omega) q2, if_pos (by omega), if_neg (by omega)]
    · by_cases q3 : j < i + vs.length
      · rw [if_pos (by omega), if_pos (by omega), if_neg (by omega)]; congr 1; omega
      · rw [if_neg (by omega), d4 (by omega), if_neg (by omega)]; congr 1; omega

/-- Back side: after the creates the deque holds `l ++ vs.drop cc ++ (last cc elements of l)`. -/
theorem tailBack_ok (vs : List α) (i : Nat) (hi : i ≤ l.length) (hk : vs ≠ [] ∨ sms = true)
    (cc : Nat) (hcc : cc = min vs.length (l.length - i)) (h : Good cap sms check s (l ++ vs.drop cc ++ l.drop (l.length - cc))) :
    ∃ m1 m2, moveDownR s.mem (l.length - i - cc) (wr (cap+1) s.b (l.length - cc)) (wr (cap+1) s.b (l.length - cc + vs.length)) = .ok m1 ∧
      copyToR m1 (wr (cap+1) s.b i) (vs.take cc) = .ok m2 ∧
      Good cap sms check { s with mem := m2 } (l.take i ++ vs ++ l.drop i) := by
  have hb := h.b; have hc0 := h.cap; have hle := h.le
  simp only [List.length_append, List.length_drop] at hle
  have hcs := h.cells
  have hlen : (l ++ vs.drop cc ++ l.drop (l.length - cc)).length = vs.length + l.length := by simp; omega
  have hmove : ∃ m', (rot s.b s.mem).moveDown (l.length - i - cc) (l.length - cc) (l.length - cc + vs.length) = .ok m' ∧ Same (rot s.b s.mem) m' ∧
      ∀ j, (j < i → m'.cell j = cellOf l j) ∧ (i + cc ≤ j → j < i + vs.length → m'.cell j = cellOf vs (j - i)) ∧
        (i ≤ j → j < i + cc → m'.cell j ≠ .raw) ∧ (i + vs.length ≤ j → m'.cell j = cellOf l (j - vs.length)) := by
    by_cases h0 : vs = []
    · have hsm := hk.resolve_left (by simp [h0])
      subst h0
      simp only [List.length_nil] at *
      obtain ⟨m', e, s', c⟩ := moveDown_self (l.length - i - cc) (rot s.b s.mem) (l.length - cc) (by simp [h.sms, hsm]) (by omega) (by simp; omega) (fun j h1 h2 => by
        rw [hcs]; exact cellOf_live (by omega))
      have hcc0 : cc = 0 := by omega
      subst hcc0
      refine ⟨m', by simpa using e, s', fun j => ⟨fun h1 => ?_, fun h1 h2 => by omega, fun h1 h2 => by omega, fun h1 => ?_⟩⟩
      · rw [c, hcs]; simp
      · rw [c, hcs]; simp
    · have hpos : 0 < vs.length := List.length_pos_iff.2 h0
      obtain ⟨m', e, s', c⟩ := moveDown_ok (l.length - i - cc) (rot s.b s.mem) (l.length - cc) (l.length - cc + vs.length) (by omega) (by omega) (by simp; omega) (fun j h1 h2 => by
          rw [hcs]; exact cellOf_live (by omega)) (fun j h1 h2 => by rw [hcs]; exact cellOf_ne_raw.2 (by omega))
      refine ⟨m', e, s', fun j => ?_⟩
      have hcj : m'.cell j = _ := c j
      simp only [hcs, cellOf_append, cellOf_drop, List.length_append, List.length_drop] at hcj
      refine ⟨fun h1 => ?_, fun h1 h2 => ?_, fun h1 h2 => ?_, fun h1 => ?_⟩
      · rw [hcj]; split_ifs <;> first | rfl | (exfalso; omega) | (congr 1; omega)
      · rw [hcj]; split_ifs <;> first | rfl | (exfalso; omega) | (congr 1; omega)
      · rw [hcj]; split_ifs <;> first | (exfalso; omega) | exact cellOf_ne_raw.2 (by omega) | (simp; done)
      · rw [hcj]; split_ifs <;> first | rfl | (exfalso; omega) | (congr 1; omega) | (rw [cellOf_ge (by omega), cellOf_ge (by omega)])
  obtain ⟨m1, e1, s1, c1⟩ := hmove
  have hm1c : m1.cap = cap + 1 := by rw [s1.1]; exact hc0
  obtain ⟨m2, e2, s2, c2⟩ := copyTo_ok' (vs.take cc) m1 i (by simp; omega) (fun j h1 h2 => by
    simp at h2; exact (c1 j).2.2.1 h1 (by omega))
  rw [← rot_moveDownR _ s.mem _ _ (by omega) (by omega) (by omega) (by omega) (by omega), hc0] at e1
  obtain ⟨n1, f1, g1⟩ := map_ok e1
  have hn1c : n1.cap = cap + 1 := by rw [← hm1c, ← g1]; rfl
  rw [← g1, ← rot_copyToR _ n1 _ (by omega) (by simp; omega), hn1c] at e2
  obtain ⟨n2, f2, g2⟩ := map_ok e2
  refine ⟨n1, n2, f1, f2, h.remem (by rw [g2, s2.1, hm1c]) (by rw [g2, s2.2, s1.2]; exact h.sms) (by simp; omega) (fun j => ?_)⟩
  rw [g2, c2]
  obtain ⟨d1, d2, d3, d4⟩ := c1 j
  have hmi : min i l.length = i := by omega
  simp only [cellOf_append, cellOf_take, cellOf_drop, List.length_append, List.length_take, List.length_drop, hmi]
  by_cases q1 : j < i
  · rw [if_neg (by omega), d1 q1, if_pos (by omega), if_pos (by omega), if_pos q1]
  · by_cases q2 : j < i + cc
    · rw [if_pos (show i ≤ j ∧ j < i + min cc vs.length by omega), if_pos (show j - i < cc by omega), if_pos (show j < i + vs.length by omega), if_neg q1]
    · by_cases q3 : j < i + vs.length
      · rw [if_neg (by omega), d2 (by omega) q3, if_pos (by omega), if_neg (by omega)]
      · rw [if_neg (by omega), d4 (by omega), if_neg (by omega)]; congr 1; omega

end Etl.Deque
