import Verif.CircularBuffer.Model
import Mathlib.Tactic.ByContra
import Batteries.Data.List.Perm

/-!
# Properties of the circular buffer (C07, C08)
-/
namespace Etl.CircularBuffer

variable {α : Type}

/-! ## Specification: a list (oldest first) that keeps its newest `n` entries. -/

/-- The newest `n` entries. -/
def lastN (n : Nat) (l : List α) : List α := l.drop (l.length - n)

/-- Abstract effect of an operation on the contents (oldest first) of a buffer of capacity `n`. -/
def specStep (n : Nat) (l : List α) : Op α → List α × Option Err
  | .push v => (lastN n (l ++ [v]), none)
  | .pushRange vs => (lastN n (l ++ vs), none)
  | .pop => if l = [] then (l, some .empty) else (l.tail, none)
  | .popN k => (l.drop k, if k ≤ l.length then none else some .empty)
  | .clear => ([], none)
  | .assign vs => (lastN n vs, none)
  | .fill v => (List.replicate l.length v, none)

def specRun (n : Nat) (l : List α) : List (Op α) → List α × List (Option Err)
  | [] => (l, [])
  | o :: os =>
    let (l', e) := specStep n l o
    let (l'', es) := specRun n l' os
    (l'', e :: es)

/-! ## Invariant -/

/-- `a` wrapped at `bs` once. -/
def wr (bs a : Nat) : Nat := if a < bs then a else a - bs

theorem wr_mod {bs a : Nat} (h : a < 2 * bs) : a % bs = wr bs a := by
  unfold wr
  split
  · exact Nat.mod_eq_of_lt ‹_›
  · rw [Nat.mod_eq_sub_mod (by omega), Nat.mod_eq_of_lt (by omega)]

structure Inv (n : Nat) (s : St α) (l : List α) : Prop where
  hbs : s.bs = n + 1
  ho : s.outI < s.bs
  hi : s.inI = wr s.bs (s.outI + l.length)
  hlen : l.length ≤ n
  hslot : ∀ k, k < s.bs → s.slot (wr s.bs (s.outI + k)) = l[k]?

theorem inv_init (n : Nat) (t : Bool) : Inv n (init (α := α) n t) [] := by
  constructor <;> simp [init, wr]

theorem lastN_of_le {n : Nat} {l : List α} (h : l.length ≤ n) : lastN n l = l := by
  simp [lastN, Nat.sub_eq_zero_of_le h]

theorem wr_lt {bs a : Nat} (h : a < 2 * bs) : wr bs a < bs := by unfold wr; split <;> omega

theorem push_inv {n : Nat} {s : St α} {l : List α} (hn : 0 < n) (h : Inv n s l) (v : α) :
    ∃ s', push s v = .ok s' ∧ s'.trivial = s.trivial ∧ Inv n s' (lastN n (l ++ [v])) := by
  obtain ⟨hbs, ho, hi, hlen, hslot⟩ := h
  have hin : s.inI < s.bs := by rw [hi]; exact wr_lt (by omega)
  have hfree : s.slot s.inI = none := by
    rw [hi, hslot _ (by omega)]; simp
  have hc : construct s s.inI v = .ok { s with slot := upd s.slot s.inI (some v) } := by
    simp [construct, hin, hfree]
  by_cases hfull : l.length = n
  · -- full: the oldest is forgotten
    obtain ⟨a, t, rfl⟩ : ∃ a t, l = a :: t := by
      cases l with
      | nil => simp at hfull; omega
      | cons a t => exact ⟨a, t, rfl⟩
    have h0 := hslot 0 (by omega)
    simp only [wr, Nat.add_zero, ho, if_true] at h0
    simp only [List.length_cons] at hfull hi hlen
    have hne : s.outI ≠ s.inI := by rw [hi]; unfold wr; split <;> omega
    refine ⟨incrementOut { s with slot := upd (upd s.slot s.inI (some v)) s.outI none, inI := s.outI }, ?_, rfl, ?_⟩
    · have e1 : (if s.inI + 1 = s.bs then 0 else s.inI + 1) = s.outI := by
        rw [hi]; unfold wr; split <;> split <;> omega
      simp only [push, bind, Except.bind, hc, incrementIn, e1, if_true]
      simp [destroy, ho, upd_other _ _ hne, h0]
    · have el : lastN n (a :: t ++ [v]) = t ++ [v] := by
        simp only [lastN, List.cons_append, List.length_cons, List.length_append, List.length_nil]
        have : t.length + (0 + 1) + 1 - n = 1 := by omega
        rw [this]; rfl
      rw [el]
      refine ⟨hbs, ?_, ?_, ?_, ?_⟩
      · simp only [incrementOut]; split <;> omega
      · simp only [incrementOut, List.length_append, List.length_cons, List.length_nil]
        unfold wr; split <;> split <;> omega
      · simp; omega
      · intro k hk
        simp only [incrementOut] at hk ⊢
        by_cases hk1 : k + 1 = s.bs
        · have : wr s.bs ((if s.outI + 1 = s.bs then 0 else s.outI + 1) + k) = s.outI := by
            unfold wr; split <;> split <;> omega
          rw [this, upd_same]
          rw [List.getElem?_eq_none]; simp; omega
        · have hw : wr s.bs ((if s.outI + 1 = s.bs then 0 else s.outI + 1) + k) = wr s.bs (s.outI + (k+1)) := by
            unfold wr; split <;> split <;> split <;> omega
          have hne1 : wr s.bs (s.outI + (k+1)) ≠ s.outI := by unfold wr; split <;> omega
          rw [hw, upd_other _ _ hne1]
          by_cases hk2 : k = t.length
          · have : wr s.bs (s.outI + (k+1)) = s.inI := by rw [hi, hk2]
            rw [this, upd_same, hk2]; simp
          · have hne2 : wr s.bs (s.outI + (k+1)) ≠ s.inI := by
              rw [hi]; unfold wr; split <;> split <;> omega
            rw [upd_other _ _ hne2, hslot _ (by omega), List.getElem?_cons_succ, List.getElem?_append_left (by omega)]
  · refine ⟨incrementIn { s with slot := upd s.slot s.inI (some v) }, ?_, rfl, ?_⟩
    · have e1 : ¬ ((if s.inI + 1 = s.bs then 0 else s.inI + 1) = s.outI) := by
        rw [hi]; unfold wr; split <;> split <;> omega
      simp only [push, bind, Except.bind, hc, incrementIn, e1, if_false]
    · rw [lastN_of_le (by simp; omega)]
      refine ⟨hbs, ho, ?_, by simp; omega, ?_⟩
      · simp only [incrementIn, List.length_append, List.length_cons, List.length_nil, hi]
        unfold wr; split <;> split <;> (try split) <;> omega
      · intro k hk
        simp only [incrementIn] at hk ⊢
        by_cases hk2 : k = l.length
        · rw [hk2, ← hi, upd_same]; simp
        · have hne2 : wr s.bs (s.outI + k) ≠ s.inI := by
            rw [hi]; unfold wr; split <;> split <;> omega
          rw [upd_other _ _ hne2, hslot _ hk]
          by_cases hk3 : k < l.length
          · rw [List.getElem?_append_left hk3]
          · rw [List.getElem?_eq_none (by omega), List.getElem?_eq_none (by simp; omega)]

theorem lastN_lastN_append (n : Nat) (l vs : List α) : lastN n (lastN n l ++ vs) = lastN n (l ++ vs) := by
  unfold lastN
  apply List.ext_getElem?
  intro i
  simp only [List.getElem?_drop, List.length_append, List.length_drop]
  by_cases hc : l.length ≤ n
  · simp [Nat.sub_eq_zero_of_le hc]
  · have e1 : l.length - (l.length - n) = n := by omega
    rw [e1]
    by_cases h2 : n + vs.length - n + i < n
    · rw [List.getElem?_append_left (by simp; omega), List.getElem?_append_left (by omega), List.getElem?_drop]
      congr 1; omega
    · rw [List.getElem?_append_right (by simp; omega), List.getElem?_append_right (by omega)]
      congr 1; simp; omega

theorem pushRange_inv {n : Nat} (hn : 0 < n) (vs : List α) : ∀ {s : St α} {l : List α}, Inv n s l →
    ∃ s', pushRange s vs = .ok s' ∧ s'.trivial = s.trivial ∧ Inv n s' (lastN n (l ++ vs)) := by
  induction vs with
  | nil => intro s l h; exact ⟨s, rfl, rfl, by rw [List.append_nil, lastN_of_le h.hlen]; exact h⟩
  | cons v vs ih =>
    intro s l h
    obtain ⟨s1, e1, t1, h1⟩ := push_inv hn h v
    obtain ⟨s2, e2, t2, h2⟩ := ih h1
    refine ⟨s2, ?_, t2.trans t1, ?_⟩
    · simp [pushRange, e1, e2, bind, Except.bind]
    · rw [lastN_lastN_append] at h2; simpa using h2

theorem empty_iff {n : Nat} {s : St α} {l : List α} (h : Inv n s l) : empty s = true ↔ l = [] := by
  obtain ⟨hbs, ho, hi, hlen, hslot⟩ := h
  simp only [empty, beq_iff_eq, hi]
  constructor
  · intro e
    cases l with
    | nil => rfl
    | cons a t => exfalso; revert e; simp only [List.length_cons] at hlen ⊢; unfold wr; split <;> omega
  · rintro rfl; simp [wr, ho]

theorem pop_inv {n : Nat} {s : St α} {a : α} {t : List α} (h : Inv n s (a :: t)) :
    ∃ s', pop s = .ok (.ok s') ∧ s'.trivial = s.trivial ∧ Inv n s' t := by
  have he : empty s = false := by
    rw [Bool.eq_false_iff]; intro e; exact absurd ((empty_iff h).1 e) (by simp)
  obtain ⟨hbs, ho, hi, hlen, hslot⟩ := h
  simp only [List.length_cons] at hi hlen
  have h0 := hslot 0 (by omega)
  simp only [wr, Nat.add_zero, ho, if_true] at h0
  refine ⟨incrementOut { s with slot := upd s.slot s.outI none }, ?_, rfl, ?_⟩
  · simp [pop, he, destroy, ho, h0, bind, Except.bind]
  · refine ⟨hbs, ?_, ?_, by omega, ?_⟩
    · simp only [incrementOut]; split <;> omega
    · simp only [incrementOut, hi]; unfold wr; split <;> split <;> (try split) <;> omega
    · intro k hk
      simp only [incrementOut] at hk ⊢
      by_cases hk1 : k + 1 = s.bs
      · have : wr s.bs ((if s.outI + 1 = s.bs then 0 else s.outI + 1) + k) = s.outI := by
          unfold wr; split <;> split <;> omega
        rw [this, upd_same, List.getElem?_eq_none]; omega
      · have hw : wr s.bs ((if s.outI + 1 = s.bs then 0 else s.outI + 1) + k) = wr s.bs (s.outI + (k+1)) := by
          unfold wr; split <;> split <;> split <;> omega
        have hne1 : wr s.bs (s.outI + (k+1)) ≠ s.outI := by unfold wr; split <;> omega
        rw [hw, upd_other _ _ hne1, hslot _ (by omega), List.getElem?_cons_succ]

theorem pop_empty {n : Nat} {s : St α} (h : Inv n s []) : pop s = .ok (.error .empty) := by
  simp [pop, (empty_iff h).2 rfl]

theorem popN_inv {n : Nat} (k : Nat) : ∀ {s : St α} {l : List α}, Inv n s l →
    ∃ s', popN s k = .ok (s', if k ≤ l.length then none else some .empty) ∧ s'.trivial = s.trivial ∧ Inv n s' (l.drop k) := by
  induction k with
  | zero => intro s l h; exact ⟨s, by simp [popN], rfl, by simpa using h⟩
  | succ k ih =>
    intro s l h
    cases l with
    | nil => exact ⟨s, by simp [popN, pop_empty h, bind, Except.bind], rfl, by simpa using h⟩
    | cons a t =>
      obtain ⟨s1, e1, t1, h1⟩ := pop_inv h
      obtain ⟨s2, e2, t2, h2⟩ := ih h1
      refine ⟨s2, ?_, t2.trans t1, by simpa using h2⟩
      simp [popN, e1, e2, bind, Except.bind]

theorem clearLoop_inv {n : Nat} (fuel : Nat) : ∀ {s : St α} {l : List α}, Inv n s l → l.length < fuel →
    ∃ s', clearLoop s fuel = .ok s' ∧ s'.trivial = s.trivial ∧ Inv n s' [] := by
  induction fuel with
  | zero => intro s l _ h; omega
  | succ fuel ih =>
    intro s l h hf
    cases l with
    | nil => exact ⟨s, by simp [clearLoop, (empty_iff h).2 rfl], rfl, h⟩
    | cons a t =>
      have he : empty s = false := by
        rw [Bool.eq_false_iff]; intro e; exact absurd ((empty_iff h).1 e) (by simp)
      obtain ⟨s1, e1, t1, h1⟩ := pop_inv h
      obtain ⟨s2, e2, t2, h2⟩ := ih h1 (by simpa using hf)
      exact ⟨s2, by simp [clearLoop, he, e1, e2, bind, Except.bind], t2.trans t1, h2⟩

theorem clear_inv {n : Nat} {s : St α} {l : List α} (h : Inv n s l) :
    ∃ s', clear s = .ok s' ∧ s'.trivial = s.trivial ∧ Inv n s' [] := by
  unfold clear
  split
  · refine ⟨_, rfl, rfl, ?_⟩
    have := h.hbs
    constructor <;> simp [wr, this]
  · exact clearLoop_inv _ h (by have := h.hlen; have := h.hbs; omega)

theorem assign_inv {n : Nat} (hn : 0 < n) {s : St α} {l : List α} (h : Inv n s l) (vs : List α) :
    ∃ s', assign s vs = .ok s' ∧ s'.trivial = s.trivial ∧ Inv n s' (lastN n vs) := by
  obtain ⟨s1, e1, t1, h1⟩ := clear_inv h
  obtain ⟨s2, e2, t2, h2⟩ := pushRange_inv hn vs h1
  exact ⟨s2, by simp [assign, e1, e2, bind, Except.bind], t2.trans t1, by simpa using h2⟩

/-- An iterator at logical position `k` (0 = front, `size` = end). -/
def At (s : St α) (k it : Nat) : Prop := it = (s.outI + k) % s.bs

theorem at_wr {n : Nat} {s : St α} {l : List α} (h : Inv n s l) {k it : Nat} (hk : k ≤ l.length) :
    At s k it ↔ it = wr s.bs (s.outI + k) := by
  unfold At
  rw [wr_mod]
  have := h.ho; have := h.hlen; have := h.hbs; omega

theorem inc_wr {n : Nat} {s : St α} {l : List α} (h : Inv n s l) {k : Nat} (hk : k < l.length) :
    itInc s (wr s.bs (s.outI + k)) = wr s.bs (s.outI + (k + 1)) := by
  have := h.ho; have := h.hlen; have := h.hbs
  unfold itInc wr; simp only; split <;> split <;> split <;> omega

theorem wr_end {n : Nat} {s : St α} {l : List α} (h : Inv n s l) {k : Nat} (hk : k ≤ l.length) :
    wr s.bs (s.outI + k) = s.inI ↔ k = l.length := by
  have := h.ho; have := h.hlen; have := h.hbs
  rw [h.hi]; unfold wr; split <;> split <;> omega

theorem read_wr {n : Nat} {s : St α} {l : List α} (h : Inv n s l) {k : Nat} (hk : k < l.length) :
    read s (wr s.bs (s.outI + k)) = .ok l[k] := by
  have h1 := h.ho; have h2 := h.hlen; have h3 := h.hbs
  have := h.hslot k (by omega)
  rw [List.getElem?_eq_getElem hk] at this
  simp [read, wr_lt (show s.outI + k < 2 * s.bs by omega), this]

theorem collectFrom_eq {n : Nat} {s : St α} {l : List α} (h : Inv n s l) (fuel : Nat) : ∀ k, k ≤ l.length → l.length - k < fuel →
    collectFrom s (wr s.bs (s.outI + k)) fuel = .ok (l.drop k) := by
  induction fuel with
  | zero => intro k _ hf; omega
  | succ fuel ih =>
    intro k hk hf
    unfold collectFrom
    by_cases he : k = l.length
    · rw [if_pos (by simp [itEq, endIt, (wr_end h hk).2 he])]
      rw [he]; simp
    · rw [if_neg (by simp only [itEq, endIt, beq_iff_eq]; rw [wr_end h hk]; exact he)]
      have hlt : k < l.length := by omega
      simp only [deref, read_wr h hlt, inc_wr h hlt, bind, Except.bind]
      rw [ih (k+1) (by omega) (by omega)]
      simp only
      rw [← List.drop_eq_getElem_cons hlt]

theorem fillFrom_inv {n : Nat} (v : α) (fuel : Nat) : ∀ {s : St α} {l : List α}, Inv n s l → ∀ k, k ≤ l.length → l.length - k < fuel →
    ∃ s', fillFrom s (wr s.bs (s.outI + k)) v fuel = .ok s' ∧ s'.trivial = s.trivial ∧
      Inv n s' (l.take k ++ List.replicate (l.length - k) v) := by
  induction fuel with
  | zero => intro s l _ k _ hf; omega
  | succ fuel ih =>
    intro s l h k hk hf
    unfold fillFrom
    by_cases he : k = l.length
    · refine ⟨s, ?_, rfl, ?_⟩
      · rw [if_pos (by simp [itEq, endIt, (wr_end h hk).2 he])]
      · rw [he]; simpa using h
    · rw [if_neg (by simp only [itEq, endIt, beq_iff_eq]; rw [wr_end h hk]; exact he)]
      have hlt : k < l.length := by omega
      obtain ⟨hbs, ho, hi, hlen, hslot⟩ := id h
      have hsl := hslot k (by omega)
      rw [List.getElem?_eq_getElem hlt] at hsl
      have hw : write s (wr s.bs (s.outI + k)) v = .ok { s with slot := upd s.slot (wr s.bs (s.outI + k)) (some v) } := by
        simp [write, wr_lt (show s.outI + k < 2 * s.bs by omega), hsl]
      have h1 : Inv n { s with slot := upd s.slot (wr s.bs (s.outI + k)) (some v) } (l.set k v) := by
        refine ⟨hbs, ho, by simpa using hi, by simpa using hlen, ?_⟩
        intro j hj
        simp only at hj ⊢
        by_cases hjk : j = k
        · subst hjk; rw [upd_same, List.getElem?_set_self hlt]
        · rw [upd_other, hslot j hj, List.getElem?_set_ne (Ne.symm hjk)]
          unfold wr; split <;> split <;> omega
      obtain ⟨s2, e2, t2, h2⟩ := ih h1 (k+1) (by simp; omega) (by simp; omega)
      refine ⟨s2, ?_, t2, ?_⟩
      · simp only [bind, Except.bind, hw]
        rw [← e2, ← inc_wr h1 (by simpa using hlt)]
      · have : (l.set k v).take (k+1) ++ List.replicate ((l.set k v).length - (k+1)) v = l.take k ++ List.replicate (l.length - k) v := by
          apply List.ext_getElem?
          intro i
          simp only [List.getElem?_append, List.length_take, List.length_set, List.getElem?_take, List.getElem?_set, List.getElem?_replicate]
          have : min (k+1) l.length = k+1 := by omega
          have : min k l.length = k := by omega
          simp only [*]
          by_cases h1 : i < k
          · simp [h1, show i < k+1 by omega, show k ≠ i by omega]
          · by_cases h2 : i = k
            · subst h2; simp [hlt, show 0 < l.length - i by omega]
            · simp [h1, show ¬ i < k+1 by omega]
              have : i - (k+1) < l.length - (k+1) ↔ i - k < l.length - k := by omega
              simp only [this]
        rwa [this] at h2

theorem fill_inv {n : Nat} {s : St α} {l : List α} (h : Inv n s l) (v : α) :
    ∃ s', fill s v = .ok s' ∧ s'.trivial = s.trivial ∧ Inv n s' (List.replicate l.length v) := by
  have := fillFrom_inv v (s.bs + 1) h 0 (by omega) (by have := h.hlen; have := h.hbs; omega)
  simp only [Nat.add_zero, wr, h.ho, if_true] at this
  simpa [fill, beginIt] using this

theorem step_inv {n : Nat} (hn : 0 < n) {s : St α} {l : List α} (h : Inv n s l) (o : Op α) :
    ∃ s', step s o = .ok (s', (specStep n l o).2) ∧ Inv n s' (specStep n l o).1 := by
  cases o with
  | push v =>
    obtain ⟨s', e, _, h'⟩ := push_inv hn h v
    exact ⟨s', by simp [step, e, specStep, bind, Except.bind], h'⟩
  | pushRange vs =>
    obtain ⟨s', e, _, h'⟩ := pushRange_inv hn vs h
    exact ⟨s', by simp [step, e, specStep, bind, Except.bind], h'⟩
  | pop =>
    cases l with
    | nil => exact ⟨s, by simp [step, pop_empty h, specStep, bind, Except.bind], by simpa [specStep] using h⟩
    | cons a t =>
      obtain ⟨s', e, _, h'⟩ := pop_inv h
      exact ⟨s', by simp [step, e, specStep, bind, Except.bind], by simpa [specStep] using h'⟩
  | popN k =>
    obtain ⟨s', e, _, h'⟩ := popN_inv k h
    exact ⟨s', by simpa [step, specStep] using e, h'⟩
  | clear =>
    obtain ⟨s', e, _, h'⟩ := clear_inv h
    exact ⟨s', by simp [step, e, specStep, bind, Except.bind], h'⟩
  | assign vs =>
    obtain ⟨s', e, _, h'⟩ := assign_inv hn h vs
    exact ⟨s', by simp [step, e, specStep, bind, Except.bind], h'⟩
  | fill v =>
    obtain ⟨s', e, _, h'⟩ := fill_inv h v
    exact ⟨s', by simp [step, e, specStep, bind, Except.bind], h'⟩

theorem run_inv {n : Nat} (hn : 0 < n) (os : List (Op α)) : ∀ {s : St α} {l : List α}, Inv n s l →
    ∃ s', run s os = .ok (s', (specRun n l os).2) ∧ Inv n s' (specRun n l os).1 := by
  induction os with
  | nil => intro s l h; exact ⟨s, rfl, h⟩
  | cons o os ih =>
    intro s l h
    obtain ⟨s1, e1, h1⟩ := step_inv hn h o
    obtain ⟨s2, e2, h2⟩ := ih h1
    exact ⟨s2, by simp [run, e1, e2, specRun, bind, Except.bind], h2⟩

/-! ## C07 -/

/-- What a user can observe of a buffer of capacity `n` whose contents are `l`, oldest first. -/
structure Shows (n : Nat) (s : St α) (l : List α) : Prop where
  size : size s = l.length
  bound : l.length ≤ n
  empty : empty s = true ↔ l = []
  full : full s = true ↔ l.length = n
  cap : maxSize s = n
  avail : available s = n - l.length
  front : front s = match l.head? with | some v => .ok (.ok v) | none => .ok (.error .empty)
  back : back s = match l.getLast? with | some v => .ok (.ok v) | none => .ok (.error .empty)
  index : ∀ (i : Nat) (v : α), l[i]? = some v → index s i = .ok v
  iter : collect s = .ok l

theorem shows_of_inv {n : Nat} (hn : 0 < n) {s : St α} {l : List α} (h : Inv n s l) : Shows n s l := by
  have he := empty_iff h
  obtain ⟨hbs, ho, hi, hlen, hslot⟩ := id h
  have hsz : size s = l.length := by
    unfold size; rw [hi]; unfold wr; split <;> split <;> omega
  refine ⟨hsz, hlen, he, ?_, ?_, ?_, ?_, ?_, ?_, ?_⟩
  · unfold full; simp only [beq_iff_eq]; rw [hi]; unfold wr; split <;> split <;> omega
  · simp [maxSize, hbs]
  · simp [available, maxSize, hbs, hsz]
  · cases l with
    | nil => simp [front, he.2 rfl]
    | cons a t =>
      have hf : empty s = false := by rw [Bool.eq_false_iff]; intro e; exact absurd (he.1 e) (by simp)
      have := read_wr h (k := 0) (by simp)
      simp only [wr, Nat.add_zero, ho, if_true] at this
      simp [front, hf, this, bind, Except.bind]
  · by_cases hl : l = []
    · subst hl; simp [back, he.2 rfl]
    · have hf : empty s = false := by rw [Bool.eq_false_iff]; intro e; exact hl (he.1 e)
      have hpos : 0 < l.length := List.length_pos_iff.2 hl
      have := read_wr h (k := l.length - 1) (by omega)
      have e : wr s.bs (s.outI + (l.length - 1)) = if s.inI = 0 then s.bs - 1 else s.inI - 1 := by
        rw [hi]; unfold wr; split <;> split <;> split <;> omega
      rw [e] at this
      simp [back, hf, this, bind, Except.bind, List.getLast?_eq_getElem?, List.getElem?_eq_getElem (show l.length - 1 < l.length by omega)]
  · intro i v hv
    obtain ⟨hlt, rfl⟩ := List.getElem?_eq_some_iff.1 hv
    rw [CircularBuffer.index, wr_mod (by omega), read_wr h hlt]
  · have := collectFrom_eq h (s.bs + 1) 0 (by omega) (by omega)
    simp only [Nat.add_zero, wr, ho, if_true] at this
    simpa [collect, beginIt] using this

/-- **C07.**  Any history of operations on a circular buffer of any capacity `n > 0` runs without undefined behaviour (no object is constructed over a
live one, no dead slot is read or destroyed), throws exactly where the specification says, and leaves a buffer showing the specified contents. -/
theorem C07_refines (n : Nat) (hn : 0 < n) (triv : Bool) (os : List (Op α)) :
    ∃ s, run (init n triv) os = .ok (s, (specRun n [] os).2) ∧ Shows n s (specRun n [] os).1 := by
  obtain ⟨s, e, h⟩ := run_inv hn os (inv_init n triv)
  exact ⟨s, e, shows_of_inv hn h⟩

/-- **C07**, headline: from any reachable state, pushing `vs` leaves the newest `n` of (old contents followed by `vs`). -/
theorem C07_newest (n : Nat) (hn : 0 < n) (triv : Bool) (os : List (Op α)) (vs : List α) :
    ∃ s, run (init n triv) (os ++ vs.map .push) = .ok s ∧
      Shows n s.1 (lastN n ((specRun n [] os).1 ++ vs)) := by
  have key : ∀ (vs : List α) (l : List α), l.length ≤ n → (specRun n l (vs.map Op.push)).1 = lastN n (l ++ vs) := by
    intro vs
    induction vs with
    | nil => intro l hl; simp [specRun, lastN_of_le hl]
    | cons v vs ih =>
      intro l hl
      simp only [List.map_cons, specRun, specStep]
      rw [ih _ (by simp [lastN]; omega), lastN_lastN_append]; simp
  have happ : ∀ (a b : List (Op α)) (l : List α), (specRun n l (a ++ b)).1 = (specRun n (specRun n l a).1 b).1 := by
    intro a
    induction a with
    | nil => intro b l; rfl
    | cons o a ih => intro b l; simp [specRun, ih]
  obtain ⟨s0, _, h0⟩ := run_inv hn os (inv_init (α := α) n triv)
  obtain ⟨s, e, h⟩ := run_inv hn (os ++ vs.map .push) (inv_init n triv)
  refine ⟨_, e, ?_⟩
  rw [happ, key _ _ h0.hlen] at h
  exact shows_of_inv hn h

/-- Live objects are exactly the contents: every slot of the array that is not one of the `l.length` occupied positions holds no object. -/
theorem C07_live_slots (n : Nat) (hn : 0 < n) (triv : Bool) (os : List (Op α)) :
    ∃ s, run (init n triv) os = .ok s ∧
      ((List.range (n + 1)).filter (fun i => (s.1.slot i).isSome)).length = (specRun n [] os).1.length := by
  obtain ⟨s, e, h⟩ := run_inv hn os (inv_init (α := α) n triv)
  refine ⟨_, e, ?_⟩
  generalize (specRun n [] os).1 = l at h
  obtain ⟨hbs, ho, hi, hlen, hslot⟩ := h
  rw [hbs] at *
  -- the rotation k ↦ wr (out + k) is a bijection of the index range
  have hperm : ((List.range (n+1)).map (fun k => wr (n+1) (s.outI + k))).Perm (List.range (n+1)) := by
    have hnd : ((List.range (n+1)).map (fun k => wr (n+1) (s.outI + k))).Nodup := by
      rw [List.nodup_iff_pairwise_ne, List.pairwise_map]
      refine List.Pairwise.imp_of_mem ?_ (List.nodup_iff_pairwise_ne.1 List.nodup_range)
      intro a b ha hb hab
      simp only [List.mem_range] at ha hb
      unfold wr; split <;> split <;> omega
    refine List.Subperm.perm_of_length_le (List.subperm_of_subset hnd ?_) (by simp)
    intro x hx
    simp only [List.mem_map, List.mem_range] at hx ⊢
    obtain ⟨k, hk, rfl⟩ := hx
    exact wr_lt (by omega)
  rw [← (hperm.filter _).length_eq, List.filter_map, List.length_map]
  have : (List.range (n+1)).filter ((fun i => (s.slot i).isSome) ∘ fun k => wr (n+1) (s.outI + k)) =
      (List.range (n+1)).filter (fun k => decide (k < l.length)) := by
    apply List.filter_congr
    intro k hk
    simp only [List.mem_range] at hk
    simp only [Function.comp, hslot k hk]
    by_cases hkl : k < l.length
    · simp [hkl]
    · simp [hkl]
  rw [this]
  have hsplit : List.range (n+1) = List.range l.length ++ (List.range (n + 1 - l.length)).map (l.length + ·) := by
    rw [← List.range_add]; congr 1; omega
  rw [hsplit, List.filter_append, List.filter_eq_self.2 (by simp), List.filter_eq_nil_iff.2 (by simp)]
  simp

/-! ## C08 -/

/-- `toSize` of an in-range value. -/
theorem toSize_of {M : Nat} {x : Int} (h0 : 0 ≤ x) (h1 : x < M) : (toSize M x : Int) = x := by
  unfold toSize
  rw [Int.emod_eq_of_lt h0 h1]; omega

/-- Everything a user relies on for iterators at logical positions `a`, `b` (0 = front, `l.length` = end). -/
structure IterLaws (M : Nat) (s : St α) (l : List α) (a b p q : Nat) : Prop where
  inc : a < l.length → At s (a + 1) (itInc s p)
  dec : 0 < a → At s (a - 1) (itDec s p)
  add : ∀ n : Int, 0 ≤ (a : Int) + n → (a : Int) + n ≤ l.length → At s ((a : Int) + n).toNat (itAdd M s p n)
  sub : ∀ n : Int, 0 ≤ (a : Int) - n → (a : Int) - n ≤ l.length → At s ((a : Int) - n).toNat (itSub M s p n)
  diff : itDiff s p q = (a : Int) - b
  lt : itLt s p q = decide (a < b)
  eq : itEq p q = decide (a = b)
  deref : ∀ (v : α), l[a]? = some v → CircularBuffer.deref s p = .ok v
  index : ∀ (i : Nat) (v : α), l[a + i]? = some v → itIndex s p i = .ok v

/-- **C08.**  After any history, for any two iterators at logical positions `a` and `b`, the iterator operations act on logical positions,
wherever the wrap point is; `begin`/`end` are at positions `0` and `size`.  `M` is the modulus of `size_t`; the buffer must be smaller than a third of it. -/
theorem C08_iterators (n M : Nat) (hn : 0 < n) (hM : 3 * (n + 1) < M) (triv : Bool) (os : List (Op α)) :
    ∃ s, run (init n triv) os = .ok s ∧ At s.1 0 (beginIt s.1) ∧ At s.1 (specRun n [] os).1.length (endIt s.1) ∧
      ∀ a b p q, a ≤ (specRun n [] os).1.length → b ≤ (specRun n [] os).1.length → At s.1 a p → At s.1 b q →
        IterLaws M s.1 (specRun n [] os).1 a b p q := by
  obtain ⟨s, e, h⟩ := run_inv hn os (inv_init (α := α) n triv)
  refine ⟨_, e, ?_, ?_, ?_⟩
  · rw [at_wr h (by omega)]; simp [beginIt, wr, h.ho]
  · rw [at_wr h (by omega)]; exact h.hi
  generalize (specRun n [] os).1 = l at h
  intro a b p q ha hb hp hq
  simp only at hp hq ⊢
  obtain ⟨hbs, ho, hi, hlen, hslot⟩ := id h
  rw [at_wr h ha] at hp
  rw [at_wr h hb] at hq
  have hpl : p < s.bs := by rw [hp]; exact wr_lt (by omega)
  have hadd : ∀ n : Int, 0 ≤ (a : Int) + n → (a : Int) + n ≤ l.length → At s ((a : Int) + n).toNat (itAdd M s p n) := by
    intro m h0 h1
    rw [at_wr h (by omega)]
    have ht := toSize_of (M := M) (x := (s.bs : Int) + m) (by omega) (by omega)
    unfold itAdd
    simp only
    rw [Nat.mod_eq_of_lt (a := p + _) (by omega)]
    -- one or two wraps
    have hp' := hp
    unfold wr at hp'
    by_cases hc : p + toSize M ((s.bs : Int) + m) < 2 * s.bs
    · rw [wr_mod hc]
      unfold wr; split at hp' <;> split <;> split <;> omega
    · rw [Nat.mod_eq_sub_mod (by omega), wr_mod (by split at hp' <;> omega)]
      unfold wr; split at hp' <;> split <;> split <;> omega
  refine ⟨?_, ?_, hadd, ?_, ?_, ?_, ?_, ?_, ?_⟩
  · intro h1; rw [at_wr h (by omega), hp]; exact inc_wr h h1
  · intro h1; rw [at_wr h (by omega), hp]; unfold itDec wr; split <;> split <;> split <;> omega
  · intro m h0 h1
    unfold itSub
    rw [Int.sub_eq_add_neg] at h0 h1 ⊢
    exact hadd (-m) h0 h1
  · unfold itDiff distance1; rw [hp, hq]; unfold wr; split <;> split <;> split <;> split <;> omega
  · unfold itLt beginIt maxSize
    simp only [decide_eq_decide, hbs]
    rw [hbs] at hp hq ho
    rw [hp, hq]; unfold wr; split <;> split <;> split <;> split <;> omega
  · unfold itEq; rw [Bool.eq_iff_iff, beq_iff_eq, decide_eq_true_iff, hp, hq]; unfold wr; split <;> split <;> omega
  · intro v hv
    obtain ⟨hlt, rfl⟩ := List.getElem?_eq_some_iff.1 hv
    rw [CircularBuffer.deref, hp, read_wr h hlt]
  · intro i v hv
    obtain ⟨hlt, rfl⟩ := List.getElem?_eq_some_iff.1 hv
    unfold itIndex
    have : (p + i) % s.bs = wr s.bs (s.outI + (a + i)) := by
      rw [wr_mod (by omega), hp]; unfold wr; split <;> split <;> split <;> omega
    rw [this, read_wr h hlt]

/-- Outside that range `operator +=` does not wrap correctly: moving by less than `-buffer_size` goes through `size_t` wrap-around.
Here a buffer of capacity 2 (`buffer_size = 3`), `size_t` of 8 bits: `begin() += -4` (which should stay put after one and a third turns, at index 2). -/
theorem far_negative_move_wrong :
    itAdd 256 (init (α := Nat) 2 true) 0 (-4) ≠ ((((0 : Int) + -4) % 3).toNat) := by decide

/-! ## Non-vacuity -/

/-- A wrapped, overflowed buffer. -/
example : (run (init 3 false) [.push 1, .push 2, .push 3, .pop, .push 4, .push 5, Op.push 6]).map
    (fun p => (p.1.inI, p.1.outI, p.1.slot 0, p.1.slot 1, p.1.slot 2, p.1.slot 3, p.2.length)) =
    .ok (2, 3, some 5, some 6, none, some 4, 7) := by rfl
example : (specRun 3 ([] : List Nat) [.push 1, .push 2, .push 3, .pop, .push 4, .push 5, .push 6]).1 = [4, 5, 6] := by decide
example : (specRun 2 [1] [Op.popN 3]) = ([], [some .empty]) := by decide

end Etl.CircularBuffer
