import Verif.Stream.BitModel
import Verif.Binary.Props
import Mathlib.Tactic.ByContra
import Mathlib.Tactic.SplitIfs
import Mathlib.Tactic.Set

/-!
# Lemmas about the bit streams

`bitAt buf p` is bit number `p` of the stream: the most significant bit of the first byte is bit 0.
-/
namespace Etl.BitStream
open Etl.Binary

/-- bit `p` of the stream -/
def bitAt (buf : Nat → Nat) (p : Nat) : Bool := (buf (p / 8)).testBit (7 - p % 8)
/-- the number of bits before the current place -/
def pos (s : St) : Nat := 8 * s.idx + (8 - s.bac)

structure Inv (s : St) : Prop where
  lo : 1 ≤ s.bac
  hi : s.bac ≤ 8
  total : s.avail + pos s = 8 * s.len
/-- what is behind the current place in the current byte is zero -/
structure WInv (s : St) : Prop extends Inv s where
  zero : s.bac < 8 → ∀ i, i < s.bac → (s.buf s.idx).testBit i = false

theorem start_inv (buf : Nat → Nat) (len : Nat) (cb : Bool) : WInv (start buf len cb) := by
  refine { lo := by simp [start], hi := by simp [start], total := by simp [start, pos], zero := ?_ }
  intro h; simp [start] at h

variable {s : St}

theorem Inv.room (h : Inv s) {n : Nat} (hn : 1 ≤ n) (ha : n ≤ s.avail) : s.idx < s.len := by
  have h1 := h.total
  have h2 := h.hi
  unfold pos at h1
  omega

theorem step_inv (h : Inv s) {n : Nat} (h1 : n ≤ s.bac) (h3 : n ≤ s.avail) : Inv (step s n) ∧ pos (step s n) = pos s + n ∧ (step s n).avail = s.avail - n := by
  have hh := h.hi
  have hl := h.lo
  have ht := h.total
  unfold step
  split_ifs with hz
  · refine ⟨⟨by simp, by simp, ?_⟩, ?_, rfl⟩ <;> simp [pos] at * <;> omega
  · refine ⟨⟨?_, ?_, ?_⟩, ?_, rfl⟩ <;> simp [pos] at * <;> omega
theorem step_len (n : Nat) : (step s n).len = s.len := by unfold step; split_ifs <;> rfl
theorem step_buf (n : Nat) : (step s n).buf = s.buf := by unfold step; split_ifs <;> rfl
theorem step_cb (n : Nat) : (step s n).cb = s.cb := by unfold step; split_ifs <;> rfl
theorem step_out (n : Nat) : (step s n).out = s.out := by unfold step; split_ifs <;> rfl

theorem chunk_bits (W v bac mw n : Nat) (hW : 8 ≤ W) (h2 : mw ≤ bac) (h3 : bac ≤ 8) (h4 : mw + n ≤ W) (i : Nat) :
    (chunkOf W v bac mw n).testBit i = (decide (bac - mw ≤ i) && decide (i < bac) && v.testBit (i - (bac - mw) + n)) := by
  unfold chunkOf
  rw [show (256 : Nat) = 2 ^ 8 by rfl]
  simp only [Nat.testBit_mod_two_pow, Nat.testBit_shiftLeft, Nat.testBit_shiftRight, Nat.testBit_and, Nat.one_shiftLeft, Nat.testBit_two_pow_sub_one]
  by_cases a : bac - mw ≤ i
  · by_cases b : i < bac
    · have e1 : i < 8 := by omega
      have e2 : i < W := by omega
      have e3 : n + (i - (bac - mw)) < W := by omega
      have e4 : n ≤ n + (i - (bac - mw)) := by omega
      have e5 : n + (i - (bac - mw)) - n < mw := by omega
      have e6 : i - (bac - mw) + n = n + (i - (bac - mw)) := by omega
      simp [a, b, e1, e2, e3, e6]
      omega
    · have e5 : ¬ (n + (i - (bac - mw)) - n < mw) := by omega
      simp [a, b]
      omega
  · simp [a]

theorem writeChunk_spec (h : WInv s) {c mw : Nat} (h1 : 1 ≤ mw) (h2 : mw ≤ s.bac) (h3 : mw ≤ s.avail) (hc1 : ∀ i, s.bac ≤ i → c.testBit i = false) (hc2 : ∀ i, i < s.bac - mw → c.testBit i = false) :
    ∃ s', writeChunk s c mw = .ok s' ∧ WInv s' ∧ pos s' = pos s + mw ∧ s'.avail = s.avail - mw ∧ s'.len = s.len ∧ s'.cb = s.cb ∧ s'.out = s.out ∧ (∀ q, q < pos s → bitAt s'.buf q = bitAt s.buf q) ∧
      (∀ j, j < mw → bitAt s'.buf (pos s + j) = c.testBit (s.bac - 1 - j)) ∧ (∀ b, b ≠ s.idx → s'.buf b = s.buf b) := by
  have hi := h.hi
  have hl := h.lo
  have hroom := h.toInv.room h1 h3
  set s1 : St := { s with buf := upd s.buf s.idx (base s ||| c) } with hs1
  have hinv1 : Inv s1 := ⟨h.lo, h.hi, h.total⟩
  obtain ⟨g1, g2, g3⟩ := step_inv (s := s1) hinv1 (n := mw) h2 h3
  have hbase : ∀ i, (base s).testBit i = (decide (s.bac ≤ i) && decide (s.bac < 8) && (s.buf s.idx).testBit i) := by
    intro i
    unfold base
    split_ifs with h8
    · simp [h8]
    · have : s.bac < 8 := by omega
      by_cases hb : s.bac ≤ i
      · simp [hb, this]
      · simp [hb, h.zero this i (by omega)]
  have hbit : ∀ i, (upd s.buf s.idx (base s ||| c) s.idx).testBit i = ((decide (s.bac ≤ i) && decide (s.bac < 8) && (s.buf s.idx).testBit i) || c.testBit i) := by
    intro i; rw [upd_same, Nat.testBit_or, hbase]
  refine ⟨step s1 mw, by unfold writeChunk; rw [if_pos hroom], ⟨g1, ?_⟩, g2, g3, step_len _, step_cb _, step_out _, ?_, ?_, ?_⟩
  · intro hb i hi'
    have e1 : (step s1 mw).idx = s.idx ∧ (step s1 mw).bac = s.bac - mw := by
      by_cases hz : s1.bac - mw = 0
      · exfalso
        have : (step s1 mw).bac = 8 := by unfold step; rw [if_pos hz]
        omega
      · unfold step; rw [if_neg hz]; exact ⟨rfl, rfl⟩
    rw [e1.1, step_buf, hbit]
    rw [e1.2] at hi'
    rw [hc2 i hi']
    have : ¬ s.bac ≤ i := by omega
    simp [this]
  · intro q hq
    unfold bitAt
    rw [step_buf]
    by_cases hqi : q / 8 = s.idx
    · rw [hqi, hbit, hc1 _ (by unfold pos at hq; omega)]
      have e1 : s.bac ≤ 7 - q % 8 := by unfold pos at hq; omega
      have e2 : s.bac < 8 := by unfold pos at hq; omega
      simp [e1, e2]
    · simp [s1, upd_other _ _ hqi]
  · intro j hj
    unfold bitAt
    rw [step_buf]
    have e1 : (pos s + j) / 8 = s.idx := by unfold pos; omega
    have e2 : 7 - (pos s + j) % 8 = s.bac - 1 - j := by unfold pos; omega
    rw [e1, e2, hbit]
    have : ¬ s.bac ≤ s.bac - 1 - j := by omega
    simp [this]
  · intro b hb
    rw [step_buf]; simp [s1, upd_other _ _ hb]

theorem putLoop_spec (W v : Nat) (hW : 8 ≤ W) (fuel : Nat) : ∀ (n : Nat) (s : St), n ≤ fuel → n ≤ W → n ≤ s.avail → WInv s →
    ∃ s', putLoop W v fuel n s = .ok s' ∧ WInv s' ∧ pos s' = pos s + n ∧ s'.avail = s.avail - n ∧ s'.len = s.len ∧ s'.cb = s.cb ∧ s'.out = s.out ∧ (∀ q, q < pos s → bitAt s'.buf q = bitAt s.buf q) ∧
      (∀ j, j < n → bitAt s'.buf (pos s + j) = v.testBit (n - 1 - j)) ∧ (∀ b, pos s + n ≤ 8 * b → s'.buf b = s.buf b) := by
  induction fuel with
  | zero =>
    intro n s h1 _ _ h
    have : n = 0 := by omega
    subst this
    exact ⟨s, rfl, h, rfl, rfl, rfl, rfl, rfl, fun _ _ => rfl, fun j hj => absurd hj (by omega), fun _ _ => rfl⟩
  | succ fuel ih =>
    intro n s h1 h2 h3 h
    by_cases hn : n = 0
    · subst hn
      exact ⟨s, rfl, h, rfl, rfl, rfl, rfl, rfl, fun _ _ => rfl, fun j hj => absurd hj (by omega), fun _ _ => rfl⟩
    · have hl := h.lo
      have hhi := h.hi
      have m1 : 1 ≤ min n s.bac := by omega
      have m2 : min n s.bac ≤ s.bac := Nat.min_le_right _ _
      have m3 : min n s.bac ≤ n := Nat.min_le_left _ _
      have hck := chunk_bits W v s.bac (min n s.bac) (n - min n s.bac) hW m2 h.hi (by omega)
      obtain ⟨s1, e1, e2, e3, e4, e5, e6, e7, e8, e9, e10⟩ := writeChunk_spec h (c := chunkOf W v s.bac (min n s.bac) (n - min n s.bac)) m1 m2 (by omega)
        (by intro i hi; rw [hck]; have : ¬ i < s.bac := by omega
            simp [this])
        (by intro i hi; rw [hck]; have : ¬ s.bac - min n s.bac ≤ i := by omega
            simp [this])
      obtain ⟨s2, f1, f2, f3, f4, f5, f6, f7, f8, f9, f10⟩ := ih (n - min n s.bac) s1 (by omega) (by omega) (by omega) e2
      refine ⟨s2, ?_, f2, by omega, by omega, by rw [f5, e5], by rw [f6, e6], by rw [f7, e7], ?_, ?_, ?_⟩
      · rw [putLoop, if_neg hn]; simp only [e1, f1]
      · intro q hq; rw [f8 q (by omega), e8 q hq]
      · intro j hj
        by_cases hjm : j < min n s.bac
        · rw [f8 _ (by omega), e9 j hjm, hck]
          have a1 : s.bac - min n s.bac ≤ s.bac - 1 - j := by omega
          have a2 : s.bac - 1 - j < s.bac := by omega
          have a3 : s.bac - 1 - j - (s.bac - min n s.bac) + (n - min n s.bac) = n - 1 - j := by omega
          simp [a1, a2, a3]
        · have := f9 (j - min n s.bac) (by omega)
          rw [e3, show pos s + min n s.bac + (j - min n s.bac) = pos s + j by omega] at this
          rw [this]
          congr 1
          omega
      · intro b hb
        rw [f10 b (by omega)]
        refine e10 b ?_
        intro e
        have : 8 * s.idx ≤ pos s := by unfold pos; omega
        rw [e] at hb
        unfold pos at hb
        omega

def IsWidth (W : Nat) : Prop := W = 8 ∨ W = 16 ∨ W = 32 ∨ W = 64

theorem reverseBits_spec {W v : Nat} (hW : IsWidth W) (hv : v < 2 ^ W) : reverseBits W v < 2 ^ W ∧ ∀ i, i < W → (reverseBits W v).testBit i = v.testBit (W - 1 - i) := by
  obtain ⟨h8, h16, h32, h64⟩ := C27_reverse_bits v
  rcases hW with rfl | rfl | rfl | rfl
  · exact h8 hv
  · exact h16 hv
  · exact h32 hv
  · exact h64 hv

/-- Which bit of an `n` bit value comes at place `j` of its field. -/
def place (e : Endian) (n j : Nat) : Nat := match e with
  | .big => n - 1 - j
  | .little => j

theorem arrange_spec {e : Endian} {W v n : Nat} (hW : IsWidth W) (hv : v < 2 ^ W) (h1 : 1 ≤ n) (h2 : n ≤ W) : ∃ w, arrange e W v n = .ok w ∧ ∀ j, j < n → w.testBit (n - 1 - j) = v.testBit (place e n j) := by
  cases e with
  | big => exact ⟨v, rfl, fun j _ => rfl⟩
  | little =>
    refine ⟨reverseBits W v >>> (W - n), ?_, ?_⟩
    · unfold arrange; rw [if_neg (by omega)]
    · intro j hj
      rw [Nat.testBit_shiftRight, (reverseBits_spec hW hv).2 _ (by omega)]
      congr 1
      show W - 1 - (W - n + (n - 1 - j)) = j
      omega

theorem IsWidth.ge {W : Nat} (h : IsWidth W) : 8 ≤ W := by rcases h with rfl | rfl | rfl | rfl <;> decide

/-- `write_data` without a callback. -/
theorem writeData_spec {e : Endian} {W v n : Nat} (hW : IsWidth W) (hv : v < 2 ^ W) (h1 : 1 ≤ n) (h2 : n ≤ W) (h3 : n ≤ s.avail) (h : WInv s) (hcb : s.cb = false) :
    ∃ s', writeData e s W v n = .ok s' ∧ WInv s' ∧ pos s' = pos s + n ∧ s'.avail = s.avail - n ∧ s'.len = s.len ∧ s'.cb = s.cb ∧ s'.out = s.out ∧ (∀ q, q < pos s → bitAt s'.buf q = bitAt s.buf q) ∧
      (∀ j, j < n → bitAt s'.buf (pos s + j) = v.testBit (place e n j)) ∧ (∀ b, pos s + n ≤ 8 * b → s'.buf b = s.buf b) := by
  obtain ⟨w, hw, hb⟩ := arrange_spec (e := e) hW hv h1 h2
  obtain ⟨s', f1, f2, f3, f4, f5, f6, f7, f8, f9, f10⟩ := putLoop_spec W w hW.ge n n s (Nat.le_refl _) h2 h3 h
  refine ⟨s', ?_, f2, f3, f4, f5, f6, f7, f8, ?_, f10⟩
  · unfold writeData
    rw [Nat.min_eq_left h2]
    simp only [hw, f1, f6, hcb, Bool.false_eq_true, if_false]
  · intro j hj; rw [f9 j hj, hb j hj]

/-! ### Reading -/

theorem chunkMask_bits (n i : Nat) : (chunkMask n).testBit i = decide (i < n) := by
  unfold chunkMask
  split_ifs with h
  · rw [show (255 : Nat) = 2 ^ 8 - 1 by rfl, Nat.testBit_two_pow_sub_one, h]
  · rw [Nat.one_shiftLeft, Nat.testBit_two_pow_sub_one]

theorem getLoop_spec (W : Nat) (fuel : Nat) : ∀ (n : Nat) (s : St) (v : Nat), n ≤ fuel → n ≤ W → n ≤ s.avail → Inv s → (∀ i, i < n → v.testBit i = false) →
    ∃ s' v', getLoop W fuel n s v = .ok (s', v') ∧ Inv s' ∧ pos s' = pos s + n ∧ s'.avail = s.avail - n ∧ s'.len = s.len ∧ s'.buf = s.buf ∧ (∀ i, n ≤ i → v'.testBit i = v.testBit i) ∧
      (∀ j, j < n → v'.testBit (n - 1 - j) = bitAt s.buf (pos s + j)) := by
  induction fuel with
  | zero =>
    intro n s v h1 _ _ h _
    have : n = 0 := by omega
    subst this
    exact ⟨s, v, rfl, h, rfl, rfl, rfl, rfl, fun _ _ => rfl, fun j hj => absurd hj (by omega)⟩
  | succ fuel ih =>
    intro n s v h1 h2 h3 h hv
    by_cases hn : n = 0
    · subst hn
      exact ⟨s, v, rfl, h, rfl, rfl, rfl, rfl, fun _ _ => rfl, fun j hj => absurd hj (by omega)⟩
    · have hl := h.lo
      have hhi := h.hi
      have m1 : 1 ≤ min n s.bac := by omega
      have m2 : min n s.bac ≤ s.bac := Nat.min_le_right _ _
      have m3 : min n s.bac ≤ n := Nat.min_le_left _ _
      obtain ⟨g1, g2, g3⟩ := step_inv h (n := min n s.bac) m2 (by omega)
      set c := (s.buf s.idx >>> (s.bac - min n s.bac)) &&& chunkMask (min n s.bac) with hc
      have hcb : ∀ i, c.testBit i = (decide (i < min n s.bac) && (s.buf s.idx).testBit (s.bac - min n s.bac + i)) := by
        intro i; rw [hc, Nat.testBit_and, Nat.testBit_shiftRight, chunkMask_bits, Bool.and_comm]
      have hvb : ∀ i, (v ||| ((c <<< (n - min n s.bac)) % 2 ^ W)).testBit i = (v.testBit i || (decide (i < W) && decide (n - min n s.bac ≤ i) && c.testBit (i - (n - min n s.bac)))) := by
        intro i; rw [Nat.testBit_or, Nat.testBit_mod_two_pow, Nat.testBit_shiftLeft]; simp [Bool.and_assoc]
      obtain ⟨s2, v2, f1, f2, f3, f4, f5, f6, f7, f8⟩ := ih (n - min n s.bac) (step s (min n s.bac)) (v ||| ((c <<< (n - min n s.bac)) % 2 ^ W)) (by omega) (by omega) (by omega) g1 (by
        intro i hi
        rw [hvb, hv i (by omega)]
        have : ¬ n - min n s.bac ≤ i := by omega
        simp [this])
      refine ⟨s2, v2, ?_, f2, by omega, by omega, by rw [f5, step_len], by rw [f6, step_buf], ?_, ?_⟩
      · rw [getLoop, if_neg hn]
        have : getChunk s (min n s.bac) = .ok (step s (min n s.bac), c) := by
          unfold getChunk; rw [if_pos (h.room (n := n) (by omega) h3)]
        simp only [this, f1]
      · intro i hi
        rw [f7 i (by omega), hvb, hcb]
        have : ¬ i - (n - min n s.bac) < min n s.bac := by omega
        simp [this]
      · intro j hj
        by_cases hjm : j < min n s.bac
        · rw [f7 _ (by omega), hvb, hcb, hv _ (by omega)]
          have a1 : n - 1 - j < W := by omega
          have a2 : n - min n s.bac ≤ n - 1 - j := by omega
          have a3 : n - 1 - j - (n - min n s.bac) < min n s.bac := by omega
          have a4 : (pos s + j) / 8 = s.idx := by unfold pos; omega
          have a5 : s.bac - min n s.bac + (n - 1 - j - (n - min n s.bac)) = 7 - (pos s + j) % 8 := by unfold pos; omega
          rw [a5]
          simp only [a1, a2, a3, decide_true, Bool.true_and, Bool.false_or, bitAt, a4]
        · have := f8 (j - min n s.bac) (by omega)
          rw [step_buf, g2, show pos s + min n s.bac + (j - min n s.bac) = pos s + j by omega] at this
          rw [← this]
          congr 1
          omega

theorem place_place (e : Endian) {n i : Nat} (hi : i < n) : place e n i < n ∧ place e n (place e n i) = i := by
  cases e <;> simp [place] <;> omega

theorem rearrange_spec {e : Endian} {W v n : Nat} (hW : IsWidth W) (h1 : 1 ≤ n) (h2 : n ≤ W) (hv : ∀ i, n ≤ i → v.testBit i = false) :
    ∃ w, rearrange e W v n = .ok w ∧ (∀ i, n ≤ i → w.testBit i = false) ∧ ∀ j, j < n → w.testBit (place e n j) = v.testBit (n - 1 - j) := by
  cases e with
  | big => exact ⟨v, rfl, hv, fun j _ => rfl⟩
  | little =>
    have hlt : (v <<< (W - n)) % 2 ^ W < 2 ^ W := Nat.mod_lt _ (Nat.two_pow_pos _)
    have hr := reverseBits_spec hW hlt
    have hb : ∀ i, i < W → (reverseBits W ((v <<< (W - n)) % 2 ^ W)).testBit i = (decide (i < n) && v.testBit (n - 1 - i)) := by
      intro i hi
      rw [hr.2 i hi, Nat.testBit_mod_two_pow, Nat.testBit_shiftLeft]
      by_cases hin : i < n
      · have a1 : W - 1 - i < W := by omega
        have a2 : W - n ≤ W - 1 - i := by omega
        have a3 : W - 1 - i - (W - n) = n - 1 - i := by omega
        simp [hin, a1, a2, a3]
      · have a2 : ¬ W - n ≤ W - 1 - i := by omega
        simp [hin, a2]
    refine ⟨_, by unfold rearrange; rw [if_neg (by omega)], ?_, ?_⟩
    · intro i hi
      by_cases hiW : i < W
      · rw [hb i hiW]; have : ¬ i < n := by omega
        simp [this]
      · exact Nat.testBit_lt_two_pow (Nat.lt_of_lt_of_le hr.1 (Nat.pow_le_pow_right (by decide) (by omega)))
    · intro j hj
      show (reverseBits W _).testBit j = _
      rw [hb j (by omega)]
      simp [hj]

theorem xor_two_pow {k u : Nat} (h : u < 2 ^ k) : u ^^^ 2 ^ k = u + 2 ^ k := by
  have hor : 2 ^ k + u = 2 ^ k ||| u := by have := Nat.two_pow_add_eq_or_of_lt h 1; simpa using this
  rw [Nat.add_comm, hor]
  refine Nat.eq_of_testBit_eq (fun i => ?_)
  rw [Nat.testBit_xor, Nat.testBit_or, Nat.testBit_two_pow]
  by_cases hik : k = i
  · have : u.testBit i = false := Nat.testBit_lt_two_pow (hik ▸ h)
    simp [hik, this]
  · simp [hik]

/-- `sign_extend` of an `n` bit number -/
theorem extend_spec {W u n : Nat} (h1 : 1 ≤ n) (h2 : n ≤ W) (hu : u < 2 ^ n) : extend true W u n = .ok (toUnsigned W (Int.bmod u (2 ^ n))) := by
  have hpow : 2 ^ n = 2 * 2 ^ (n - 1) := by
    obtain ⟨k, rfl⟩ : ∃ k, n = k + 1 := ⟨n - 1, by omega⟩
    rw [Nat.pow_succ]; simp; omega
  have hle : 2 ^ n ≤ 2 ^ W := Nat.pow_le_pow_right (by decide) h2
  have hdvd : (2 : Nat) ^ n ∣ 2 ^ W := Nat.pow_dvd_pow 2 h2
  have hpos := Nat.two_pow_pos (n - 1)
  have hcast : ((2 ^ n : Nat) : Int) = 2 ^ n := by norm_cast
  have hcastW : ((2 ^ W : Nat) : Int) = 2 ^ W := by norm_cast
  have hb : Int.bmod (u : Int) (2 ^ n) = if u < 2 ^ (n - 1) then (u : Int) else (u : Int) - (2 ^ n : Nat) := by
    unfold Int.bmod
    have e1 : (u : Int) % ((2 ^ n : Nat) : Int) = u := by
      rw [Int.emod_eq_of_lt (by omega) (by exact_mod_cast hu)]
    rw [e1]
    by_cases hlt : u < 2 ^ (n - 1)
    · rw [if_pos (by omega), if_pos hlt]
    · rw [if_neg (by omega), if_neg hlt]
  unfold extend toUnsigned
  by_cases hn : n = W
  · rw [if_neg (by simp [hn])]
    rw [hb, hn]
    congr 1
    rw [← hcastW]
    by_cases hlt : u < 2 ^ (n - 1)
    · rw [hn] at hlt hu; rw [if_pos hlt]
      rw [Int.emod_eq_of_lt (by omega) (by exact_mod_cast hu)]; simp
    · rw [hn] at hlt hu; rw [if_neg hlt, Int.sub_emod_right, Int.emod_eq_of_lt (by omega) (by exact_mod_cast hu)]; simp
  · rw [if_pos (by simp [hn]), if_neg (by omega)]
    have hlt' : 2 ^ n ≤ 2 ^ (W - 1) := Nat.pow_le_pow_right (by decide) (by omega)
    have hW : 2 ^ W = 2 * 2 ^ (W - 1) := by
      obtain ⟨k, rfl⟩ : ∃ k, W = k + 1 := ⟨W - 1, by omega⟩
      rw [Nat.pow_succ]; simp; omega
    have e1 : (2 ^ n - 1) % 2 ^ W = 2 ^ n - 1 := Nat.mod_eq_of_lt (by omega)
    have e2 : 2 ^ (n - 1) % 2 ^ W = 2 ^ (n - 1) := Nat.mod_eq_of_lt (by omega)
    rw [e1, e2, Nat.and_two_pow_sub_one_eq_mod, Nat.mod_eq_of_lt hu]
    congr 1
    rw [hb, ← hcastW]
    by_cases hlt : u < 2 ^ (n - 1)
    · rw [if_pos hlt, xor_two_pow hlt, show u + 2 ^ (n - 1) + (2 ^ W - 2 ^ (n - 1)) = u + 2 ^ W by omega, Nat.add_mod_right, Nat.mod_eq_of_lt (by omega), Int.emod_eq_of_lt (by omega) (by omega)]
      simp
    · rw [if_neg hlt]
      obtain ⟨w, rfl⟩ : ∃ w, u = w + 2 ^ (n - 1) := ⟨u - 2 ^ (n - 1), by omega⟩
      have hw : w < 2 ^ (n - 1) := by omega
      rw [← xor_two_pow hw, Nat.xor_assoc, Nat.xor_self, Nat.xor_zero, Nat.mod_eq_of_lt (by omega), xor_two_pow hw]
      rw [show ((w + 2 ^ (n - 1) : Nat) : Int) - ((2 ^ n : Nat) : Int) = ((w + (2 ^ W - 2 ^ (n - 1)) : Nat) : Int) - ((2 ^ W : Nat) : Int) by omega, Int.sub_emod_right, Int.emod_eq_of_lt (by omega) (by omega), Int.toNat_natCast]

/-- `read_value`: the bits of the field, without or with the sign -/
theorem readValue_spec {e : Endian} {W n : Nat} (signed : Bool) (hW : IsWidth W) (h1 : 1 ≤ n) (h2 : n ≤ W) (h3 : n ≤ s.avail) (h : Inv s) :
    ∃ s', ∃ u : Nat, readValue e signed s W n = .ok (s', if signed then toUnsigned W (Int.bmod u (2 ^ n)) else u) ∧ Inv s' ∧ pos s' = pos s + n ∧ s'.avail = s.avail - n ∧ s'.len = s.len ∧ s'.buf = s.buf ∧ u < 2 ^ n ∧
      (∀ j, j < n → u.testBit (place e n j) = bitAt s.buf (pos s + j)) := by
  obtain ⟨s', v, f1, f2, f3, f4, f5, f6, f7, f8⟩ := getLoop_spec W n n s 0 (Nat.le_refl _) h2 h3 h (by simp)
  obtain ⟨w, g1, g2, g3⟩ := rearrange_spec (e := e) hW h1 h2 (v := v) (fun i hi => by rw [f7 i hi]; simp)
  have hw : w < 2 ^ n := Nat.lt_pow_two_of_testBit w g2
  refine ⟨s', w, ?_, f2, f3, f4, f5, f6, hw, fun j hj => by rw [g3 j hj, f8 j hj]⟩
  unfold readValue
  rw [Nat.min_eq_left h2]
  simp only [f1, g1]
  cases signed with
  | true => simp only [extend_spec h1 h2 hw, if_true]
  | false => simp [extend]

end Etl.BitStream
