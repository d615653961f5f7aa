import Verif.Spsc.Spec
import Mathlib.Tactic.ByContra

namespace Etl.Spsc

variable {α : Type}

theorem pushes_append (t u : List (Ev α)) : pushes (t ++ u) = pushes t ++ pushes u := by
  induction t with
  | nil => rfl
  | cons e t ih => cases e <;> simp [pushes, ih]

theorem pops_append (t u : List (Ev α)) : pops (t ++ u) = pops t ++ pops u := by
  induction t with
  | nil => rfl
  | cons e t ih => cases e <;> simp [pops, ih]

theorem mod_inj {a b N : Nat} (h : a % N = b % N) (h1 : a ≤ b) (h2 : b < a + N) : a = b := by
  have h3 : (b - a) % N = 0 := Nat.sub_mod_eq_zero_of_mod_eq h.symm
  have h4 : b - a < N := by omega
  rw [Nat.mod_eq_of_lt h4] at h3
  omega

theorem nextIndex_mod (a N : Nat) (hN : 0 < N) : nextIndex (a % N) N = (a + 1) % N := by
  unfold nextIndex
  have := Nat.mod_lt a hN
  simp only
  rw [Nat.add_mod a 1 N]
  split
  · rename_i h
    by_cases h1 : N = 1
    · subst h1; simp [Nat.mod_one]
    · have : 1 % N = 1 := Nat.mod_eq_of_lt (by omega)
      rw [this, h, Nat.mod_self]
  · rename_i h
    have : 1 % N = 1 := Nat.mod_eq_of_lt (by omega)
    rw [this, Nat.mod_eq_of_lt (a := a % N + 1) (by omega)]

/-- value about to be published by the producer -/
def pend : PPc α → List α
  | .store v _ => [v]
  | _ => []

/-- the consumer has destroyed the front object but not yet published -/
def lag : CPc α → Nat
  | .store _ _ => 1
  | _ => 0

def PInv (N size W ts : Nat) : PPc α → Prop
  | .idle | .start _ => True
  | .gotW _ w => w = W % N
  | .construct _ w next => w = W % N ∧ next = (W + 1) % N ∧ W < ts + size
  | .store _ next => next = (W + 1) % N ∧ W < ts + size

def CInv (N : Nat) (vals : List α) (R ts : Nat) : CPc α → Prop
  | .idle | .start _ => True
  | .gotR _ r => r = R % N
  | .copy r => r = R % N ∧ R < ts
  | .move r next => r = R % N ∧ next = (R + 1) % N ∧ R < ts
  | .destroy v r next => r = R % N ∧ next = (R + 1) % N ∧ R < ts ∧ ∀ x, v = some x → vals[R]? = some x
  | .store v next => next = (R + 1) % N ∧ R < ts ∧ ∀ x, v = some x → vals[R]? = some x

structure Inv (size : Nat) (s : St α) (vals : List α) (R : Nat) : Prop where
  hN : s.reserved = size + 1
  hW : s.write.length = vals.length + 1
  hR : s.read.length = R + 1
  wv : ∀ i m, s.write[i]? = some m → m.val = i % s.reserved ∧ m.clk = i
  rv : ∀ i m, s.read[i]? = some m → m.val = i % s.reserved
  pts : s.p.ts ≤ R
  cts : s.c.ts ≤ vals.length
  rc : R ≤ s.c.ts
  wp : vals.length ≤ s.p.ts + size
  pk : ∀ m, s.read[s.p.ts]? = some m → m.clk ≤ s.p.known
  ck : s.c.ts ≤ s.c.known
  clkP : s.p.clock = vals.length + (pend s.ppc).length
  accCle : ∀ i, (s.slot i).accC ≤ s.c.clock
  accC : ∀ t m i, s.read[t]? = some m → i < s.reserved →
    (s.slot i).accC ≤ m.clk ∨ ∃ j, t ≤ j ∧ j < s.c.ts ∧ j % s.reserved = i
  accP : ∀ i, i < s.reserved →
    (s.slot i).accP = 0 ∨ ∃ j, j < s.p.clock ∧ j % s.reserved = i ∧ (s.slot i).accP = j + 1
  live : ∀ j, R + lag s.cpc ≤ j → j < s.p.clock →
    (s.slot (j % s.reserved)).obj = (vals ++ pend s.ppc)[j]?
  dead : ∀ i, i < s.reserved →
    (∃ j, R + lag s.cpc ≤ j ∧ j < s.p.clock ∧ j % s.reserved = i) ∨ (s.slot i).obj = none
  pinv : PInv s.reserved size vals.length s.p.ts s.ppc
  cinv : CInv s.reserved vals R s.c.ts s.cpc
  acc : ∃ f a, Accepts size s.trace (vals.drop R) f a ∧ f + vals.length ≤ s.p.ts + size ∧ a + R ≤ s.c.ts
  hpush : pushes s.trace = vals
  hpop : (pops s.trace).length = R

theorem inv_init (size : Nat) : Inv size (init size : St α) [] 0 := by
  constructor <;> simp [init, pend, lag, PInv, CInv, pushes, pops]
  · intro i m h
    rcases i with _ | i <;> simp at h
    subst h; simp
  · intro i m h
    rcases i with _ | i <;> simp at h
    subst h; simp
  · exact ⟨size, .nil, Nat.le_refl _⟩

/-- The producer's load of `read`. -/
theorem load_read {size : Nat} {s : St α} {vals : List α} {R : Nat} (h : Inv size s vals R) (k : Nat) :
    ∃ t known, load .acquire s.read s.p k = (t % s.reserved, { s.p with ts := t, known := known }) ∧
      s.p.ts ≤ t ∧ t ≤ R ∧ (s.p.ts + k ≥ R → t = R) ∧ s.p.known ≤ known ∧
      ∀ m, s.read[t]? = some m → m.clk ≤ known := by
  have hR := h.hR
  have hp := h.pts
  refine ⟨min (s.p.ts + k) R, max s.p.known (s.read.getD (min (s.p.ts + k) R) ⟨0,0⟩).clk, ?_, ?_, ?_, ?_, ?_, ?_⟩
  · have hlt : min (s.p.ts + k) R < s.read.length := by omega
    have := h.rv (min (s.p.ts + k) R) s.read[min (s.p.ts + k) R] (by simp [hlt])
    simp only [List.getElem?_eq_getElem hlt, load, hR, this, List.getD, Nat.add_sub_cancel, Option.getD_some, if_true]
  · omega
  · omega
  · omega
  · omega
  · intro m hm
    have : (s.read.getD (min (s.p.ts + k) R) ⟨0,0⟩) = m := by simp [List.getD, hm]
    rw [this]; omega

/-- The consumer's load of `write`. -/
theorem load_write {size : Nat} {s : St α} {vals : List α} {R : Nat} (h : Inv size s vals R) (k : Nat) :
    ∃ t known, load .acquire s.write s.c k = (t % s.reserved, { s.c with ts := t, known := known }) ∧
      s.c.ts ≤ t ∧ t ≤ vals.length ∧ (s.c.ts + k ≥ vals.length → t = vals.length) ∧ s.c.known ≤ known ∧ t ≤ known := by
  have hW := h.hW
  have hp := h.cts
  have hlt : min (s.c.ts + k) vals.length < s.write.length := by omega
  have := h.wv (min (s.c.ts + k) vals.length) s.write[min (s.c.ts + k) vals.length] (by simp [hlt])
  refine ⟨min (s.c.ts + k) vals.length, max s.c.known (min (s.c.ts + k) vals.length), ?_, ?_, ?_, ?_, ?_, ?_⟩
  · simp only [List.getElem?_eq_getElem hlt, load, hW, this, List.getD, Nat.add_sub_cancel, Option.getD_some, if_true]
  all_goals omega

theorem latest_write {size : Nat} {s : St α} {vals : List α} {R : Nat} (h : Inv size s vals R) :
    latest s.write = vals.length % s.reserved := by
  have hW := h.hW
  have hlt : vals.length < s.write.length := by omega
  have := h.wv vals.length s.write[vals.length] (by simp [hlt])
  simp [latest, List.getLast?_eq_getElem?, hW, hlt, this]

theorem latest_read {size : Nat} {s : St α} {vals : List α} {R : Nat} (h : Inv size s vals R) :
    latest s.read = R % s.reserved := by
  have hR := h.hR
  have hlt : R < s.read.length := by omega
  have := h.rv R s.read[R] (by simp [hlt])
  simp [latest, List.getLast?_eq_getElem?, hR, hlt, this]

/-- Changing only the producer's program counter between non-publishing states. -/
theorem inv_ppc {size : Nat} {s : St α} {vals : List α} {R : Nat} (h : Inv size s vals R) (pc : PPc α)
    (hp : pend pc = pend s.ppc) (hi : PInv s.reserved size vals.length s.p.ts pc) :
    Inv size { s with ppc := pc } vals R :=
  { h with
    clkP := by simpa [hp] using h.clkP
    live := by simpa [hp] using h.live
    pinv := hi }

theorem inv_cpc {size : Nat} {s : St α} {vals : List α} {R : Nat} (h : Inv size s vals R) (pc : CPc α)
    (hp : lag pc = lag s.cpc) (hi : CInv s.reserved vals R s.c.ts pc) :
    Inv size { s with cpc := pc } vals R :=
  { h with
    live := by simpa [hp] using h.live
    dead := by simpa [hp] using h.dead
    cinv := hi }

/-- The producer learns message `t` of `read`. -/
theorem inv_learnP {size : Nat} {s : St α} {vals : List α} {R t known : Nat} (h : Inv size s vals R)
    (h1 : s.p.ts ≤ t) (h2 : t ≤ R)
    (h4 : ∀ m, s.read[t]? = some m → m.clk ≤ known) :
    Inv size { s with p := { s.p with ts := t, known := known } } vals R := by
  obtain ⟨f, a, hacc, hf, ha⟩ := h.acc
  refine { h with pts := h2, wp := ?_, pk := ?_, pinv := ?_, acc := ⟨f, a, hacc, ?_, ha⟩ }
  · have := h.wp; simp only; omega
  · simpa using h4
  · have := h.pinv
    cases hpc : s.ppc <;> simp only [hpc, PInv] at this ⊢ <;> omega
  · simp only; omega

theorem inv_learnC {size : Nat} {s : St α} {vals : List α} {R t known : Nat} (h : Inv size s vals R)
    (h1 : s.c.ts ≤ t) (h2 : t ≤ vals.length) (h4 : t ≤ known) :
    Inv size { s with c := { s.c with ts := t, known := known } } vals R := by
  obtain ⟨f, a, hacc, hf, ha⟩ := h.acc
  refine { h with cts := h2, rc := ?_, ck := h4, accC := ?_, cinv := ?_, acc := ⟨f, a, hacc, hf, ?_⟩ }
  · have := h.rc; simp only; omega
  · intro t' m i hm hi
    rcases h.accC t' m i hm hi with h' | ⟨j, h5, h6, h7⟩
    · exact .inl h'
    · exact .inr ⟨j, h5, by simp only; omega, h7⟩
  · have := h.cinv
    cases hpc : s.cpc <;> simp only [hpc, CInv] at this ⊢
    all_goals first | assumption | (obtain ⟨h5, h6⟩ := this; exact ⟨h5, by omega⟩) |
      (obtain ⟨h5, h6, h7⟩ := this; exact ⟨h5, by omega, h7⟩) |
      (obtain ⟨h5, h6, h7⟩ := this; exact ⟨h5, h6, by omega⟩) |
      (obtain ⟨h5, h6, h7, h8⟩ := this; exact ⟨h5, h6, by omega, h8⟩)
  · simp only; omega

/-- Emitting an event accepted by the specification without changing the contents. -/
theorem inv_emit {size : Nat} {s : St α} {vals : List α} {R : Nat} (h : Inv size s vals R) (e : Ev α)
    (h1 : pushes [e] = []) (h2 : pops [e] = [])
    (he : ∃ f a, Accepts size (s.trace ++ [e]) (vals.drop R) f a ∧ f + vals.length ≤ s.p.ts + size ∧ a + R ≤ s.c.ts) :
    Inv size (emit s e) vals R :=
  { h with
    acc := he
    hpush := by simp [emit, pushes_append, h1, h.hpush]
    hpop := by simp [emit, pops_append, h2, h.hpop] }

/-- Bring the specification's knowledge up to the threads' actual knowledge. -/
theorem acc_fresh {size : Nat} {s : St α} {vals : List α} {R : Nat} (h : Inv size s vals R) :
    Accepts size s.trace (vals.drop R) (s.p.ts + size - vals.length) (s.c.ts - R) := by
  obtain ⟨f, a, hacc, hf, ha⟩ := h.acc
  have h1 := h.wp
  have h2 := h.pts
  have h3 := h.cts
  have h4 := h.rc
  refine .learnC (.learnP hacc (by omega) ?_) (by omega) ?_
  · simp; omega
  · simp; omega

theorem next_ne_iff {size N W t : Nat} (hN : N = size + 1) (h1 : t ≤ W) (h2 : W ≤ t + size) :
    (W + 1) % N ≠ t % N ↔ W < t + size := by
  constructor
  · intro h
    by_cases hc : W = t + size
    · exfalso; apply h
      have : W + 1 = t + N := by omega
      rw [this, Nat.add_mod_right]
    · omega
  · intro h he
    have := mod_inj (a := t) (b := W + 1) (N := N) he.symm (by omega) (by omega)
    omega

theorem sizeOf_mod {size N W t : Nat} (hN : N = size + 1) (h1 : t ≤ W) (h2 : W ≤ t + size) :
    sizeOf N (W % N) (t % N) = W - t := by
  have hpos : 0 < N := by omega
  have e1 := Nat.div_add_mod W N
  have e2 := Nat.div_add_mod t N
  have l1 := Nat.mod_lt W hpos
  have l2 := Nat.mod_lt t hpos
  have hle : t / N ≤ W / N := Nat.div_le_div_right h1
  have hge : W / N ≤ t / N + 1 := by
    have : W / N ≤ (t + N) / N := Nat.div_le_div_right (by omega)
    rwa [Nat.add_div_right _ hpos] at this
  unfold sizeOf
  have hcase : W / N = t / N ∨ W / N = t / N + 1 := by omega
  rcases hcase with h | h
  · rw [h] at e1
    rw [if_pos (by omega)]; omega
  · rw [h, Nat.mul_add] at e1
    rw [if_neg (by omega)]; omega

/-- Producer micro-steps preserve the invariant and never hit UB. -/
theorem stepP_inv {size : Nat} {s : St α} {vals : List α} {R : Nat} (h : Inv size s vals R) (k : Nat) :
    ∃ s' vals', stepP s k = .ok s' ∧ Inv size s' vals' R := by
  have hNpos : 0 < s.reserved := by have := h.hN; omega
  unfold stepP
  split
  · exact ⟨s, vals, rfl, h⟩
  · rename_i op hpc
    exact ⟨_, vals, rfl, inv_ppc h _ (by simp [hpc, pend]) (by simp [PInv, latest_write h])⟩
  · rename_i v w hpc
    obtain ⟨t, known, hl, h1, h2, -, -, h4⟩ := load_read h k
    have hw : w = vals.length % s.reserved := by simpa [hpc, PInv] using h.pinv
    have hi := inv_learnP h h1 h2 h4
    simp only [hl]
    have hrc := h.rc; have hct := h.cts; have hwp := h.wp
    have hnx := next_ne_iff (N := s.reserved) h.hN (W := vals.length) (t := t) (by omega) (by omega)
    rw [hw, nextIndex_mod _ _ hNpos]
    split
    · rename_i hc
      refine ⟨_, vals, rfl, inv_ppc hi _ (by simp [hpc, pend]) ?_⟩
      simp only [PInv]
      exact ⟨trivial, trivial, hnx.1 hc⟩
    · rename_i hc
      refine ⟨_, vals, rfl, inv_emit (inv_ppc hi _ (by simp [hpc, pend]) (by simp [PInv])) _ rfl rfl ?_⟩
      have hfull : ¬ vals.length < t + size := fun hlt => hc (hnx.2 hlt)
      have := acc_fresh hi
      simp only at this
      have h0 : t + size - vals.length = 0 := by omega
      rw [h0] at this
      exact ⟨0, _, .pushFull this, by simp; omega, by simp; omega⟩
  · rename_i v w next hpc
    have hpi := h.pinv
    simp only [hpc, PInv] at hpi
    obtain ⟨hw, hnext, hlt⟩ := hpi
    have hclk : s.p.clock = vals.length := by have := h.clkP; simpa [hpc, pend] using this
    have hwlt : w < s.reserved := by rw [hw]; exact Nat.mod_lt _ hNpos
    have hN := h.hN
    have hrc := h.rc; have hct := h.cts; have hwp := h.wp; have hpt := h.pts; have hRl := h.hR
    -- no race
    have hrace : (s.slot w).accC ≤ s.p.known := by
      have hlt' : s.p.ts < s.read.length := by omega
      have hm : s.read[s.p.ts]? = some s.read[s.p.ts] := by simp [hlt']
      rcases h.accC _ _ w hm hwlt with h' | ⟨j, h5, h6, h7⟩
      · exact Nat.le_trans h' (h.pk _ hm)
      · exfalso
        have := mod_inj (a := j) (b := vals.length) (N := s.reserved) (by rw [h7, hw]) (by omega) (by omega)
        omega
    -- raw storage
    have hobj : (s.slot w).obj = none := by
      rcases h.dead w hwlt with ⟨j, h5, h6, h7⟩ | h'
      · exfalso
        have := mod_inj (a := j) (b := vals.length) (N := s.reserved) (by rw [h7, hw]) (by omega) (by omega)
        omega
      · exact h'
    have hlag : R + lag s.cpc ≤ vals.length := by
      have hc := h.cinv
      cases hcc : s.cpc <;> simp only [hcc, CInv, lag] at hc ⊢ <;> omega
    refine ⟨{ s with slot := upd s.slot w { (s.slot w) with obj := some v, accP := s.p.clock + 1 }
                     p := { s.p with clock := s.p.clock + 1 }, ppc := .store v next }, vals, ?_, ?_⟩
    · simp [accessP, hwlt, hrace, hobj, construct, bind, Except.bind]
    · refine { h with clkP := ?_, accCle := ?_, accC := ?_, accP := ?_, live := ?_, dead := ?_, pinv := ?_ }
      · simp [hclk, pend]
      · intro i; simp only [upd]; split
        · rename_i e; subst e; exact h.accCle i
        · exact h.accCle i
      · intro t m i hm hi
        simp only [upd]; split
        · rename_i e; subst e; exact h.accC t m i hm hi
        · exact h.accC t m i hm hi
      · intro i hi
        simp only [upd]; split
        · rename_i e; subst e; right; exact ⟨vals.length, by omega, hw.symm, by simp [hclk]⟩
        · rcases h.accP i hi with h' | ⟨j, h5, h6, h7⟩
          · exact .inl h'
          · exact .inr ⟨j, by omega, h6, h7⟩
      · intro j h5 h6
        simp only at h5 h6 ⊢
        simp only [pend]
        by_cases hj : j = vals.length
        · subst hj; simp [hw]
        · have hne : j % s.reserved ≠ w := by
            intro e
            have := mod_inj (a := j) (b := vals.length) (N := s.reserved) (by rw [e, hw]) (by omega) (by omega)
            omega
          rw [upd_other _ _ hne]
          have := h.live j h5 (by omega)
          rw [this]; simp [hpc, pend]
          rw [List.getElem?_append_left (by omega)]
      · intro i hi
        simp only
        by_cases e : i = w
        · subst e; left; exact ⟨vals.length, hlag, by omega, hw.symm⟩
        · rcases h.dead i hi with ⟨j, h5, h6, h7⟩ | h'
          · exact .inl ⟨j, h5, by omega, h7⟩
          · right; rw [upd_other _ _ e]; exact h'
      · simp only [PInv]; exact ⟨hnext, hlt⟩
  · rename_i v next hpc
    have hpi := h.pinv
    simp only [hpc, PInv] at hpi
    obtain ⟨hnext, hlt⟩ := hpi
    have hclk : s.p.clock = vals.length + 1 := by have := h.clkP; simpa [hpc, pend] using this
    have hrc := h.rc; have hct := h.cts; have hwp := h.wp; have hpt := h.pts; have hWl := h.hW
    refine ⟨_, vals ++ [v], rfl, ?_⟩
    refine { h with hW := ?_, wv := ?_, cts := ?_, wp := ?_, clkP := ?_, live := ?_, pinv := ?_, cinv := ?_, acc := ?_, hpush := (by simp [emit, pushes_append, pushes, h.hpush]), hpop := (by simp [emit, pops_append, pops, h.hpop]) }
    · simp [emit, storeMsg, hWl]
    · intro i m hm
      simp only [emit, storeMsg] at hm
      by_cases hi : i < s.write.length
      · rw [List.getElem?_append_left hi] at hm; exact h.wv i m hm
      · have hi' : i = s.write.length := by
          have := (List.getElem?_eq_some_iff.1 hm).1; simp at this; omega
        subst hi'
        simp at hm; subst hm
        simp only [hWl, hnext]
        exact ⟨rfl, by simpa using hclk⟩
    · simp [emit]; omega
    · simp [emit]; omega
    · simp [emit, pend, hclk]
    · intro j h5 h6
      have := h.live j h5 h6
      simpa [hpc, pend, emit] using this
    · simp [emit, PInv]
    · have := h.cinv
      simp only [emit]
      cases hc : s.cpc <;> simp only [hc, CInv] at this ⊢
      all_goals first | assumption | (obtain ⟨h5, h6, h7⟩ := this; refine ⟨h5, h6, fun x hx => ?_⟩; have := h7 x hx; rw [List.getElem?_append_left (by omega)]; exact this) | (obtain ⟨h5, h6, h7, h8⟩ := this; refine ⟨h5, h6, h7, fun x hx => ?_⟩; have := h8 x hx; rw [List.getElem?_append_left (by omega)]; exact this)
    · have := acc_fresh h
      have e : s.p.ts + size - vals.length = (s.p.ts + size - (vals.length + 1)) + 1 := by omega
      rw [e] at this
      refine ⟨s.p.ts + size - (vals.length + 1), s.c.ts - R, ?_, ?_, ?_⟩
      · simp only [emit]
        rw [List.drop_append_of_le_length (by omega)]
        exact .pushed this
      · simp [emit]; omega
      · simp [emit]; omega
  · rename_i w hpc
    obtain ⟨t, known, hl, h1, h2, -, -, h4⟩ := load_read h k
    have hw : w = vals.length % s.reserved := by simpa [hpc, PInv] using h.pinv
    have hi := inv_learnP h h1 h2 h4
    simp only [hl]
    have hrc := h.rc; have hct := h.cts; have hwp := h.wp
    have hnx := next_ne_iff (N := s.reserved) h.hN (W := vals.length) (t := t) (by omega) (by omega)
    rw [hw, nextIndex_mod _ _ hNpos]
    refine ⟨_, vals, rfl, inv_emit (inv_ppc hi _ (by simp [hpc, pend]) (by simp [PInv])) _ rfl rfl ?_⟩
    have hacc := acc_fresh hi
    have hb : ((vals.length + 1) % s.reserved == t % s.reserved) = (t + size - vals.length == 0) := by
      rw [Bool.eq_iff_iff]
      simp only [beq_iff_eq]
      constructor
      · intro e; by_contra hne; exact (hnx.2 (by omega)) e
      · intro e; by_contra hne; have := hnx.1 hne; omega
    rw [hb]
    exact ⟨_, _, .full hacc, by simp; omega, by simp; omega⟩
  · rename_i w hpc
    obtain ⟨t, known, hl, h1, h2, -, -, h4⟩ := load_read h k
    have hw : w = vals.length % s.reserved := by simpa [hpc, PInv] using h.pinv
    have hi := inv_learnP h h1 h2 h4
    simp only [hl]
    have hrc := h.rc; have hct := h.cts; have hwp := h.wp
    rw [hw, sizeOf_mod h.hN (by omega) (by omega)]
    refine ⟨_, vals, rfl, inv_emit (inv_ppc hi _ (by simp [hpc, pend]) (by simp [PInv])) _ rfl rfl ?_⟩
    have hacc := acc_fresh hi
    have e : vals.length - t = size - (t + size - vals.length) := by omega
    rw [e]
    exact ⟨_, _, .pSize hacc, by simp; omega, by simp; omega⟩

/-- A consumer access to the front slot (item `R`) is in bounds, race free and hits a live object. -/
theorem front_ok {size : Nat} {s : St α} {vals : List α} {R : Nat} (h : Inv size s vals R) (hlt : R < s.c.ts)
    (hl : lag s.cpc = 0) :
    R % s.reserved < s.reserved ∧ (s.slot (R % s.reserved)).accP ≤ s.c.known ∧
      ∃ v, (s.slot (R % s.reserved)).obj = some v ∧ vals[R]? = some v := by
  have hN := h.hN
  have hNpos : 0 < s.reserved := by omega
  have hrc := h.rc; have hct := h.cts; have hwp := h.wp; have hpt := h.pts; have hck := h.ck
  have hmod := Nat.mod_lt R hNpos
  have hclk := h.clkP
  have hclk' : s.p.clock ≤ s.p.ts + size := by
    have hp := h.pinv
    cases hpc : s.ppc <;> simp only [hpc, PInv, pend, List.length_nil, List.length_cons] at hp hclk <;> omega
  refine ⟨hmod, ?_, ?_⟩
  · rcases h.accP _ hmod with h' | ⟨j, h5, h6, h7⟩
    · omega
    · rw [h7]
      by_cases hj : j ≤ R
      · omega
      · exfalso
        have := mod_inj (a := R) (b := j) (N := s.reserved) h6.symm (by omega) (by omega)
        omega
  · have hv : R < vals.length := by omega
    refine ⟨vals[R], ?_, by simp [hv]⟩
    rw [h.live R (by omega) (by omega), List.getElem?_append_left hv]
    simp [hv]

/-- Effect of a consumer access to the front slot on the invariant. -/
theorem inv_accessC {size : Nat} {s : St α} {vals : List α} {R : Nat} (h : Inv size s vals R) (hlt : R < s.c.ts)
    (hl : lag s.cpc = 0) (o : Option α) (pc : CPc α)
    (ho : o = vals[R]? ∧ lag pc = 0 ∨ o = none ∧ lag pc = 1)
    (hpc : CInv s.reserved vals R s.c.ts pc) :
    Inv size { s with
      slot := upd s.slot (R % s.reserved) { (s.slot (R % s.reserved)) with obj := o, accC := s.c.clock + 1 }
      c := { s.c with clock := s.c.clock + 1 }, cpc := pc } vals R := by
  have hN := h.hN
  have hNpos : 0 < s.reserved := by omega
  have hrc := h.rc; have hct := h.cts; have hwp := h.wp; have hpt := h.pts; have hck := h.ck
  have hmod := Nat.mod_lt R hNpos
  have hclk := h.clkP
  have hclk' : s.p.clock ≤ s.p.ts + size := by
    have hp := h.pinv
    cases hpc : s.ppc <;> simp only [hpc, PInv, pend, List.length_nil, List.length_cons] at hp hclk <;> omega
  refine { h with accCle := ?_, accC := ?_, accP := ?_, live := ?_, dead := ?_, cinv := hpc }
  · intro i; simp only [upd]; split
    · simp
    · have := h.accCle i; exact Nat.le_succ_of_le this
  · intro t m i hm hi
    simp only [upd]; split
    · rename_i e
      have ht : t < s.read.length := (List.getElem?_eq_some_iff.1 hm).1
      have := h.hR
      exact .inr ⟨R, by omega, hlt, e.symm⟩
    · exact h.accC t m i hm hi
  · intro i hi
    simp only [upd]; split
    · rename_i e; subst e; exact h.accP _ hi
    · exact h.accP i hi
  · intro j h5 h6
    simp only at h5 h6 ⊢
    by_cases hj : j = R
    · subst hj
      rcases ho with ⟨ho, hlag⟩ | ⟨ho, hlag⟩
      · rw [upd_same, List.getElem?_append_left (by omega)]; exact ho
      · omega
    · have hne : j % s.reserved ≠ R % s.reserved := by
        intro e
        have := mod_inj (a := R) (b := j) (N := s.reserved) e.symm (by omega) (by omega)
        omega
      rw [upd_other _ _ hne]
      exact h.live j (by omega) h6
  · intro i hi
    simp only
    by_cases e : i = R % s.reserved
    · rcases ho with ⟨ho, hlag⟩ | ⟨ho, hlag⟩
      · left; exact ⟨R, by omega, by omega, e.symm⟩
      · right; subst e; simp [ho]
    · rcases h.dead i hi with ⟨j, h5, h6, h7⟩ | h'
      · left
        refine ⟨j, ?_, h6, h7⟩
        have : j ≠ R := by intro e'; subst e'; exact e h7.symm
        rcases ho with ⟨ho, hlag⟩ | ⟨ho, hlag⟩ <;> omega
      · right; rw [upd_other _ _ e]; exact h'

theorem drop_front {vals : List α} {R : Nat} {v : α} (h : vals[R]? = some v) :
    vals.drop R = v :: vals.drop (R + 1) := by
  have ⟨h1, h2⟩ := List.getElem?_eq_some_iff.1 h
  rw [List.drop_eq_getElem_cons h1, h2]

/-- Consumer micro-steps preserve the invariant and never hit UB. -/
theorem stepC_inv {size : Nat} {s : St α} {vals : List α} {R : Nat} (h : Inv size s vals R) (k : Nat) :
    ∃ s' R', stepC s k = .ok s' ∧ Inv size s' vals R' := by
  have hN := h.hN
  have hNpos : 0 < s.reserved := by omega
  have hrc := h.rc; have hct := h.cts; have hwp := h.wp; have hpt := h.pts; have hck := h.ck
  obtain ⟨t, known, hl, h1, h2, -, -, h4⟩ := load_write h k
  have hlearn := inv_learnC h h1 h2 h4
  have hacc := acc_fresh hlearn
  simp only at hacc
  have heq : R % s.reserved = t % s.reserved ↔ t - R = 0 := by
    constructor
    · intro e
      have := mod_inj e (by omega) (by omega); omega
    · intro e
      have : R = t := by omega
      rw [this]
  unfold stepC
  split
  · exact ⟨s, R, rfl, h⟩
  · rename_i op hpc
    exact ⟨_, R, rfl, inv_cpc h _ (by simp [hpc, lag]) (by simp [CInv, latest_read h])⟩
  · rename_i r hpc
    have hr : r = R % s.reserved := by simpa [hpc, CInv] using h.cinv
    simp only [hl, hr]
    split
    · rename_i hc
      refine ⟨_, R, rfl, inv_emit (inv_cpc hlearn _ (by simp [hpc, lag]) (by simp [CInv])) _ rfl rfl ?_⟩
      rw [heq.1 hc] at hacc
      exact ⟨_, 0, .popEmpty hacc, by simp; omega, by simp; omega⟩
    · rename_i hc
      refine ⟨_, R, rfl, inv_cpc hlearn _ (by simp [hpc, lag]) ?_⟩
      simp only [CInv, nextIndex_mod _ _ hNpos]
      exact ⟨trivial, trivial, by have := fun e => hc (heq.2 e); omega⟩
  · rename_i r hpc
    have hr : r = R % s.reserved := by simpa [hpc, CInv] using h.cinv
    simp only [hl, hr]
    split
    · rename_i hc
      refine ⟨_, R, rfl, inv_emit (inv_cpc hlearn _ (by simp [hpc, lag]) (by simp [CInv])) _ rfl rfl ?_⟩
      rw [heq.1 hc] at hacc
      exact ⟨_, 0, .popEmpty hacc, by simp; omega, by simp; omega⟩
    · rename_i hc
      refine ⟨_, R, rfl, inv_cpc hlearn _ (by simp [hpc, lag]) ?_⟩
      simp only [CInv, nextIndex_mod _ _ hNpos]
      exact ⟨trivial, trivial, by have := fun e => hc (heq.2 e); omega, by simp⟩
  · rename_i r hpc
    have hr : r = R % s.reserved := by simpa [hpc, CInv] using h.cinv
    simp only [hl, hr]
    split
    · rename_i hc
      refine ⟨_, R, rfl, inv_emit (inv_cpc hlearn _ (by simp [hpc, lag]) (by simp [CInv])) _ rfl rfl ?_⟩
      rw [heq.1 hc] at hacc
      exact ⟨_, 0, .frontEmpty hacc, by simp; omega, by simp; omega⟩
    · rename_i hc
      refine ⟨_, R, rfl, inv_cpc hlearn _ (by simp [hpc, lag]) ?_⟩
      simp only [CInv]
      exact ⟨trivial, by have := fun e => hc (heq.2 e); omega⟩
  · rename_i r hpc
    have hr : r = R % s.reserved := by simpa [hpc, CInv] using h.cinv
    simp only [hl, hr]
    refine ⟨_, R, rfl, inv_emit (inv_cpc hlearn _ (by simp [hpc, lag]) (by simp [CInv])) _ rfl rfl ?_⟩
    have hb : (R % s.reserved == t % s.reserved) = (t - R == 0) := by
      rw [Bool.eq_iff_iff]; simp only [beq_iff_eq]; exact heq
    rw [hb]
    exact ⟨_, _, .empty hacc, by simp; omega, by simp; omega⟩
  · rename_i r hpc
    have hr : r = R % s.reserved := by simpa [hpc, CInv] using h.cinv
    simp only [hl, hr]
    refine ⟨_, R, rfl, inv_emit (inv_cpc hlearn _ (by simp [hpc, lag]) (by simp [CInv])) _ rfl rfl ?_⟩
    rw [sizeOf_mod hN (by omega) (by omega)]
    exact ⟨_, _, .cSize hacc, by simp; omega, by simp; omega⟩
  · rename_i r hpc
    have hci := h.cinv
    simp only [hpc, CInv] at hci
    obtain ⟨hr, hlt⟩ := hci
    obtain ⟨hb, hrace, v, hobj, hv⟩ := front_ok h hlt (by simp [hpc, lag])
    have hi := inv_accessC h hlt (by simp [hpc, lag]) (vals[R]?) .idle (.inl ⟨rfl, rfl⟩) (by simp [CInv])
    refine ⟨_, R, ?_, inv_emit hi (.front v) rfl rfl ?_⟩
    · simp [accessC, hr, hb, hrace, hobj, copyOut, bind, Except.bind, hv, emit]
    · have ha := acc_fresh h
      rw [drop_front hv] at ha
      have e : s.c.ts - R = (s.c.ts - R - 1) + 1 := by omega
      rw [e] at ha
      rw [drop_front hv]
      exact ⟨_, _, .front ha, by simp; omega, by simp; omega⟩
  · rename_i r next hpc
    have hci := h.cinv
    simp only [hpc, CInv] at hci
    obtain ⟨hr, hnext, hlt⟩ := hci
    obtain ⟨hb, hrace, v, hobj, hv⟩ := front_ok h hlt (by simp [hpc, lag])
    have hi := inv_accessC h hlt (by simp [hpc, lag]) (vals[R]?) (.destroy (some v) r next) (.inl ⟨rfl, rfl⟩)
      (by simp only [CInv]; exact ⟨hr, hnext, hlt, fun x hx => by simp_all⟩)
    refine ⟨_, R, ?_, hi⟩
    simp [accessC, hr, hb, hrace, hobj, copyOut, bind, Except.bind, hv]
  · rename_i v r next hpc
    have hci := h.cinv
    simp only [hpc, CInv] at hci
    obtain ⟨hr, hnext, hlt, hx⟩ := hci
    obtain ⟨hb, hrace, v', hobj, hv⟩ := front_ok h hlt (by simp [hpc, lag])
    have hi := inv_accessC h hlt (by simp [hpc, lag]) none (.store v next) (.inr ⟨rfl, rfl⟩)
      (by simp only [CInv]; exact ⟨hnext, hlt, hx⟩)
    refine ⟨_, R, ?_, hi⟩
    simp [accessC, hr, hb, hrace, hobj, destroyObj, bind, Except.bind]
  · rename_i v next hpc
    have hci := h.cinv
    simp only [hpc, CInv] at hci
    obtain ⟨hnext, hlt, hx⟩ := hci
    have hRl := h.hR
    refine ⟨_, R + 1, rfl, ?_⟩
    refine { h with hR := ?_, rv := ?_, pts := ?_, rc := ?_, pk := ?_, accC := ?_, live := ?_, dead := ?_, cinv := ?_, acc := ?_, hpush := (by cases v <;> simp [emit, pushes_append, pushes, h.hpush]), hpop := (by cases v <;> simp [emit, pops_append, pops, h.hpop]) }
    · simp [emit, storeMsg, hRl]
    · intro i m hm
      simp only [emit, storeMsg] at hm
      by_cases hi : i < s.read.length
      · rw [List.getElem?_append_left hi] at hm; exact h.rv i m hm
      · have hi' : i = s.read.length := by
          have := (List.getElem?_eq_some_iff.1 hm).1; simp at this; omega
        subst hi'
        simp at hm; subst hm
        simp [hRl, hnext, emit]
    · simp [emit]; omega
    · simp [emit]; omega
    · intro m hm
      simp only [emit, storeMsg] at hm ⊢
      rw [List.getElem?_append_left (by omega)] at hm
      exact h.pk m hm
    · intro t m i hm hi
      simp only [emit, storeMsg] at hm hi ⊢
      by_cases ht : t < s.read.length
      · rw [List.getElem?_append_left ht] at hm; exact h.accC t m i hm hi
      · have ht' : t = s.read.length := by
          have := (List.getElem?_eq_some_iff.1 hm).1; simp at this; omega
        subst ht'
        simp at hm; subst hm
        left; simpa using h.accCle i
    · intro j h5 h6
      exact h.live j (by simp [emit, hpc, lag] at h5 ⊢; omega) h6
    · intro i hi
      rcases h.dead i hi with ⟨j, h5, h6, h7⟩ | h'
      · left; exact ⟨j, by simp [emit, hpc, lag] at h5 ⊢; omega, h6, h7⟩
      · exact .inr h'
    · simp [emit, CInv]
    · have ha := acc_fresh h
      have hv : vals[R]? = some vals[R] := by simp
      rw [drop_front hv] at ha
      have e : s.c.ts - R = (s.c.ts - (R + 1)) + 1 := by omega
      rw [e] at ha
      refine ⟨s.p.ts + size - vals.length, s.c.ts - (R + 1), ?_, by simp [emit]; omega, by simp [emit]; omega⟩
      simp only [emit]
      cases v with
      | none => exact .discarded ha
      | some x =>
        have : vals[R] = x := by have := hx x rfl; rw [hv] at this; exact Option.some.inj this
        rw [this] at ha
        exact .popped ha

theorem step_inv {size : Nat} {s : St α} {vals : List α} {R : Nat} (h : Inv size s vals R) (a : Act α) :
    ∃ s' vals' R', step s a = .ok s' ∧ Inv size s' vals' R' := by
  cases a with
  | startP op =>
    simp only [step]
    split
    · rename_i hpc
      exact ⟨_, vals, R, rfl, inv_ppc h _ (by simp [hpc, pend]) (by simp [PInv])⟩
    · exact ⟨_, vals, R, rfl, h⟩
  | startC op =>
    simp only [step]
    split
    · rename_i hpc
      exact ⟨_, vals, R, rfl, inv_cpc h _ (by simp [hpc, lag]) (by simp [CInv])⟩
    · exact ⟨_, vals, R, rfl, h⟩
  | stepP k =>
    obtain ⟨s', vals', h1, h2⟩ := stepP_inv h k
    exact ⟨s', vals', R, h1, h2⟩
  | stepC k =>
    obtain ⟨s', R', h1, h2⟩ := stepC_inv h k
    exact ⟨s', vals, R', h1, h2⟩

theorem run_inv {size : Nat} (acts : List (Act α)) {s : St α} {vals : List α} {R : Nat} (h : Inv size s vals R) :
    ∃ s' vals' R', run s acts = .ok s' ∧ Inv size s' vals' R' := by
  induction acts generalizing s vals R with
  | nil => exact ⟨s, vals, R, rfl, h⟩
  | cons a as ih =>
    obtain ⟨s1, v1, R1, h1, h2⟩ := step_inv h a
    obtain ⟨s2, v2, R2, h3, h4⟩ := ih h2
    exact ⟨s2, v2, R2, by simp [run, h1, bind, Except.bind, h3], h4⟩

end Etl.Spsc
