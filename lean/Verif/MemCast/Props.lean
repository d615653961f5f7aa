import Verif.MemCast.Model
import Verif.Binary.Props

/-! # C110: mem_cast and mem_cast_ptr -/
namespace Etl.MemCast

/-! ## Specification -/

/-- The memory after writing `bs` at `p`: those bytes are `bs`, the others as before. -/
def Written (m : Mem) (p : Nat) (bs : List Nat) (m' : Mem) : Prop := m'.length = m.length ∧ ∀ i, m'[i]? = if p ≤ i ∧ i < p + bs.length then bs[i - p]? else m[i]?

/-- One assignment of a history: through which cast, at which offset, which value. -/
structure Asg where
  c : Cast
  off : Nat
  bs : List Nat

/-- The position of the first byte it writes. -/
def Asg.pos (a : Asg) : Nat := a.c.base.getD 0 + a.off
/-- It covers the byte at `i`. -/
def Asg.covers (a : Asg) (i : Nat) : Prop := a.pos ≤ i ∧ i < a.pos + a.bs.length
instance (a : Asg) (i : Nat) : Decidable (a.covers i) := by unfold Asg.covers; infer_instance

/-- Legal: a buffer is set, the value fits it, and the buffer is in the memory. -/
def Asg.Legal (W : Nat) (m : Mem) (a : Asg) : Prop := a.c.base.isSome ∧ a.off + a.bs.length ≤ a.c.size ∧ a.c.size < 2 ^ W ∧ a.pos + a.bs.length ≤ m.length

/-- The byte at `i` after a history: that of the last assignment that covers it. -/
def byteAfter (m : Mem) (i : Nat) : List Asg → Option Nat
  | [] => m[i]?
  | a :: as => if as.any (fun b => decide (b.covers i)) then byteAfter m i as else if a.covers i then a.bs[i - a.pos]? else m[i]?

/-- Runs a history; every assignment must be accepted. -/
def run (W : Nat) (m : Mem) : List Asg → Res (Option Mem)
  | [] => .ok (some m)
  | a :: as => match assignAt W m a.c a.off a.bs with
    | .error u => .error u
    | .ok (_, some _) => .ok none
    | .ok (m, none) => run W m as

/-! ## Proofs -/

theorem sub_le {W a b : Nat} (h : b ≤ a) (ha : a < 2 ^ W) : sub W a b = a - b := by
  unfold sub
  rw [show a + 2 ^ W - b = (a - b) + 2 ^ W by omega, Nat.add_mod_right, Nat.mod_eq_of_lt (by omega)]

theorem put_ok {m : Mem} {p : Nat} {bs : List Nat} (h : p + bs.length ≤ m.length) : ∃ m', put m p bs = .ok m' ∧ Written m p bs m' := by
  refine ⟨_, by unfold put; rw [if_pos h], ?_, fun i => ?_⟩
  · rw [List.length_append, List.length_append, List.length_take, List.length_drop]; omega
  · have hl : (m.take p).length = p := by rw [List.length_take]; omega
    rw [List.append_assoc]
    by_cases h1 : i < p
    · rw [if_neg (by omega), List.getElem?_append_left (by omega), List.getElem?_take, if_pos h1]
    · rw [List.getElem?_append_right (by omega), hl]
      by_cases h2 : i < p + bs.length
      · rw [if_pos (by omega), List.getElem?_append_left (by omega)]
      · rw [if_neg (by omega), List.getElem?_append_right (by omega), List.getElem?_drop]
        congr 1; omega

theorem get_written {m m' : Mem} {p : Nat} {bs : List Nat} (h : Written m p bs m') (hb : p + bs.length ≤ m.length) : get m' p bs.length = .ok bs := by
  unfold get
  rw [if_pos (by rw [h.1]; exact hb)]
  congr 1
  apply List.ext_getElem?
  intro i
  rw [List.getElem?_take, List.getElem?_drop, h.2]
  by_cases hi : i < bs.length
  · rw [if_pos hi, if_pos (by omega), show p + i - p = i by omega]
  · rw [if_neg hi, List.getElem?_eq_none (by omega)]

theorem get_disjoint {m m' : Mem} {p q n : Nat} {bs : List Nat} (h : Written m p bs m') (hd : q + n ≤ p ∨ p + bs.length ≤ q) : get m' q n = get m q n := by
  unfold get
  rw [h.1]
  have e : (m'.drop q).take n = (m.drop q).take n := by
    apply List.ext_getElem?
    intro i
    rw [List.getElem?_take, List.getElem?_drop, List.getElem?_take, List.getElem?_drop, h.2]
    by_cases hi : i < n
    · rw [if_pos hi, if_pos hi, if_neg (by omega)]
    · rw [if_neg hi, if_neg hi]
  rw [e]

theorem refAt_some {W p size off n : Nat} (ho : off ≤ size) (hW : size < 2 ^ W) : refAt W ⟨some p, size⟩ off n = if off + n ≤ size then .inl (p + off) else .inr .size := by
  simp only [refAt]
  rw [sub_le ho hW]
  by_cases h : off + n ≤ size
  · rw [if_pos h, if_pos (by omega)]
  · rw [if_neg h, if_neg (by omega)]

theorem assignAt_some {W p size off : Nat} {m : Mem} {bs : List Nat} (ho : off ≤ size) (hW : size < 2 ^ W) (hm : off + bs.length ≤ size → p + off + bs.length ≤ m.length) :
    (off + bs.length ≤ size → ∃ m', assignAt W m ⟨some p, size⟩ off bs = .ok (m', none) ∧ Written m (p + off) bs m') ∧
    (¬ off + bs.length ≤ size → assignAt W m ⟨some p, size⟩ off bs = .ok (m, some .size)) := by
  simp only [assignAt]
  rw [sub_le ho hW]
  constructor
  · intro h
    obtain ⟨m', e, hw⟩ := put_ok (hm h)
    rw [if_pos (by omega), e]
    exact ⟨m', rfl, hw⟩
  · intro h
    rw [if_neg (by omega)]

/-- C110: assignment at an offset that is not beyond the buffer (every offset: `_partial` for this): accepted exactly when the value fits behind the offset; then the value is there, can be read back
through the same cast, `emplace_at_offset` refers to it, every value elsewhere is unchanged; otherwise the size error is reported and nothing is written. Without a buffer: the null
pointer error. -/
theorem C110_assign_at_partial {W p size off : Nat} {m : Mem} {bs : List Nat} (ho : off ≤ size) (hW : size < 2 ^ W) (hm : off + bs.length ≤ size → p + off + bs.length ≤ m.length) :
    (off + bs.length ≤ size → ∃ m', assignAt W m ⟨some p, size⟩ off bs = .ok (m', none) ∧ emplaceAt W m ⟨some p, size⟩ off bs = .ok (m', .inl (p + off)) ∧ Written m (p + off) bs m' ∧
      readAt W m' ⟨some p, size⟩ off bs.length = .ok (.inl bs) ∧
      ∀ (d : Cast) (q off2 n : Nat), refAt W d off2 n = .inl q → (q + n ≤ p + off ∨ p + off + bs.length ≤ q) → readAt W m' d off2 n = readAt W m d off2 n) ∧
    (size < off + bs.length → assignAt W m ⟨some p, size⟩ off bs = .ok (m, some .size) ∧ emplaceAt W m ⟨some p, size⟩ off bs = .ok (m, .inr .size) ∧
      readAt W m ⟨some p, size⟩ off bs.length = .ok (.inr .size)) := by
  have hA := assignAt_some (p := p) ho hW hm
  have hR := refAt_some (p := p) (n := bs.length) ho hW
  constructor
  · intro h
    obtain ⟨m', e, hw⟩ := hA.1 h
    rw [if_pos h] at hR
    refine ⟨m', e, by simp only [emplaceAt, e, hR], hw, ?_, fun d q off2 n hd hq => ?_⟩
    · simp only [readAt, hR, get_written hw (hm h)]
    · simp only [readAt, hd, get_disjoint hw hq]
  · intro h
    rw [if_neg (by omega)] at hR
    have e := hA.2 (by omega)
    exact ⟨e, by simp only [emplaceAt, e], by simp only [readAt, hR]⟩

/-- C110: `assign`, `emplace` and `ref` at the start of the buffer. -/
theorem C110_assign {p size : Nat} {m : Mem} {bs : List Nat} (hm : bs.length ≤ size → p + bs.length ≤ m.length) :
    (bs.length ≤ size → ∃ m', assign m ⟨some p, size⟩ bs = .ok (m', none) ∧ emplace m ⟨some p, size⟩ bs = .ok (m', .inl p) ∧ Written m p bs m' ∧ read m' ⟨some p, size⟩ bs.length = .ok (.inl bs)) ∧
    (size < bs.length → assign m ⟨some p, size⟩ bs = .ok (m, some .size) ∧ emplace m ⟨some p, size⟩ bs = .ok (m, .inr .size) ∧ read m ⟨some p, size⟩ bs.length = .ok (.inr .size)) := by
  constructor
  · intro h
    obtain ⟨m', e, hw⟩ := put_ok (hm h)
    have ea : assign m ⟨some p, size⟩ bs = .ok (m', none) := by simp only [assign, if_pos h, e]
    have er : ref ⟨some p, size⟩ bs.length = .inl p := by simp only [ref, if_pos h]
    exact ⟨m', ea, by simp only [emplace, ea, er], hw, by simp only [read, er, get_written hw (hm h)]⟩
  · intro h
    have h' : ¬ bs.length ≤ size := by omega
    have ea : assign m ⟨some p, size⟩ bs = .ok (m, some .size) := by simp only [assign, if_neg h']
    exact ⟨ea, by simp only [emplace, ea], by simp only [read, ref, if_neg h']⟩

/-- C110: with no buffer set every access reports the null pointer error and changes nothing. -/
theorem C110_null (W size off n : Nat) (m : Mem) (bs : List Nat) :
    assign m ⟨none, size⟩ bs = .ok (m, some .null) ∧ assignAt W m ⟨none, size⟩ off bs = .ok (m, some .null) ∧ emplace m ⟨none, size⟩ bs = .ok (m, .inr .null) ∧
    emplaceAt W m ⟨none, size⟩ off bs = .ok (m, .inr .null) ∧ read m ⟨none, size⟩ n = .ok (.inr .null) ∧ readAt W m ⟨none, size⟩ off n = .ok (.inr .null) ∧
    dflt W = make W none none ∧ ∀ s, (make W (some n) (some s)) = ⟨some n, s⟩ ∧ (make W (some n) none).size = 2 ^ W - 1 :=
  ⟨rfl, rfl, rfl, rfl, rfl, rfl, rfl, fun _ => ⟨rfl, rfl⟩⟩

/-- C110: a history of legal assignments through any casts, overlapping or not: all are accepted, and every byte is that of the last assignment that covers it. -/
theorem C110_history {W : Nat} (as : List Asg) : ∀ {m : Mem}, (∀ a ∈ as, a.Legal W m) → ∃ m', run W m as = .ok (some m') ∧ m'.length = m.length ∧ ∀ i, m'[i]? = byteAfter m i as := by
  induction as with
  | nil => intro m _; exact ⟨m, rfl, rfl, fun _ => rfl⟩
  | cons a as ih =>
    intro m hl
    obtain ⟨l1, l2, l3, l4⟩ := hl a List.mem_cons_self
    obtain ⟨⟨base, size⟩, off, bs⟩ := a
    cases base with
    | none => exact absurd l1 (by simp)
    | some p =>
      have l2 : off + bs.length ≤ size := l2
      have l4 : p + off + bs.length ≤ m.length := l4
      obtain ⟨m1, e, hw⟩ := (assignAt_some (p := p) (W := W) (m := m) (bs := bs) (by omega : off ≤ size) l3 (fun _ => l4)).1 l2
      obtain ⟨m', e1, e2, e3⟩ := ih (m := m1) (fun b hb => by
        obtain ⟨b1, b2, b3, b4⟩ := hl b (List.mem_cons_of_mem _ hb)
        exact ⟨b1, b2, b3, by rw [hw.1]; exact b4⟩)
      refine ⟨m', by simp only [run, e]; exact e1, by rw [e2, hw.1], fun i => ?_⟩
      rw [e3]
      have key : ∀ bs2 : List Asg, byteAfter m1 i bs2 = if bs2.any (fun b => decide (b.covers i)) then byteAfter m i bs2 else m1[i]? := by
        intro bs2
        induction bs2 with
        | nil => rfl
        | cons b bs2 ihb =>
          have hany2 : (b :: bs2).any (fun b => decide (b.covers i)) = (decide (b.covers i) || bs2.any (fun b => decide (b.covers i))) := List.any_cons
          simp only [byteAfter]
          by_cases hany : bs2.any (fun b => decide (b.covers i)) = true
          · rw [if_pos hany] at ihb
            rw [if_pos hany, if_pos hany, ihb, if_pos (by rw [hany2, hany]; exact Bool.or_true _)]
          · rw [if_neg hany, if_neg hany]
            by_cases hc : b.covers i
            · rw [if_pos hc, if_pos hc, if_pos (by rw [hany2, decide_eq_true hc]; rfl)]
            · rw [if_neg hc, if_neg hc, if_neg (by rw [hany2, decide_eq_false hc]; exact hany)]
      rw [key, hw.2]
      simp only [byteAfter]
      rfl

/-- C110: `alignment()` of a buffer whose address is not 0: the greatest power of two that divides the address. -/
theorem C110_alignment {address : Nat} (h0 : address ≠ 0) (ha : address < 2 ^ 64) :
    ∃ k, alignment address = .ok (2 ^ k) ∧ 2 ^ k ∣ address ∧ ¬ 2 ^ (k + 1) ∣ address := by
  obtain ⟨h1, h2, h3⟩ := (Binary.C51_count_trailing_zeros address).2.2.2
  have hlt : Binary.ctz64 address < 64 := by
    rcases Nat.lt_or_ge (Binary.ctz64 address) 64 with h | h
    · exact h
    · exfalso
      apply h0
      apply Nat.eq_of_testBit_eq
      intro i
      rw [Nat.zero_testBit]
      by_cases hi : i < 64
      · exact h2 i (by omega)
      · exact Binary.testBit_ge ha (by omega)
  refine ⟨Binary.ctz64 address, ?_, ?_, ?_⟩
  · unfold alignment
    rw [if_neg (by omega), Nat.shiftLeft_eq, Nat.one_mul]
    unfold Binary.trunc
    rw [Nat.mod_eq_of_lt (Nat.pow_lt_pow_right (by omega) hlt)]
  · refine Nat.dvd_of_mod_eq_zero (Nat.eq_of_testBit_eq fun i => ?_)
    rw [Nat.testBit_mod_two_pow, Nat.zero_testBit]
    by_cases hi : i < Binary.ctz64 address
    · rw [h2 i hi]; simp
    · simp [hi]
  · intro hd
    have := Nat.mod_eq_zero_of_dvd hd
    have hb : (address % 2 ^ (Binary.ctz64 address + 1)).testBit (Binary.ctz64 address) = true := by
      rw [Nat.testBit_mod_two_pow, h3 hlt]; simp
    rw [this, Nat.zero_testBit] at hb
    exact absurd hb (by decide)

/-! ## Examples and findings -/

example : assignAt 32 [0, 0, 0, 0] ⟨some 0, 4⟩ 2 [7, 8] = .ok ([0, 0, 7, 8], none) ∧ assignAt 32 [0, 0, 0, 0] ⟨some 0, 4⟩ 3 [7, 8] = .ok ([0, 0, 0, 0], some .size) ∧
    readAt 32 [0, 0, 7, 8] ⟨some 1, 3⟩ 1 2 = .ok (.inl [7, 8]) := ⟨rfl, rfl, rfl⟩
example : (∀ a ∈ [⟨⟨some 0, 4⟩, 1, [1, 2]⟩, ⟨⟨some 2, 2⟩, 0, [9]⟩], Asg.Legal 32 [0, 0, 0, 0] a) ∧ run 32 [0, 0, 0, 0] [⟨⟨some 0, 4⟩, 1, [1, 2]⟩, ⟨⟨some 2, 2⟩, 0, [9]⟩] = .ok (some [0, 1, 9, 0]) := by
  refine ⟨?_, rfl⟩
  intro a ha
  simp only [List.mem_cons, List.not_mem_nil, or_false] at ha
  rcases ha with rfl | rfl <;> exact ⟨rfl, by decide, by decide, by decide⟩
example : alignment 0x1018 = .ok 8 := by decide +kernel

/-- Finding: an offset beyond the buffer passes the check, because `Size - offset` wraps: a buffer of 4 bytes at the start of a memory of 8 accepts a write at offset 6 (of the byte at 6), and for
every buffer and every such offset of any size the write is accepted, as long as the value is not longer than the wrapped difference. -/
theorem offset_beyond_accepted : assignAt 32 [0, 0, 0, 0, 0, 0, 0, 0] ⟨some 0, 4⟩ 6 [9] = .ok ([0, 0, 0, 0, 0, 0, 9, 0], none) ∧
    ∀ {W p size off : Nat} {m : Mem} {bs : List Nat}, size < off → off < 2 ^ W → bs.length ≤ 2 ^ W - (off - size) → (∃ m', assignAt W m ⟨some p, size⟩ off bs = .ok (m', none)) ∨
      assignAt W m ⟨some p, size⟩ off bs = .error .outOfBounds := by
  refine ⟨by decide +kernel, fun {W p size off m bs} h1 h2 h3 => ?_⟩
  have e : sub W size off = 2 ^ W - (off - size) := by
    unfold sub
    rw [Nat.mod_eq_of_lt (by omega)]; omega
  simp only [assignAt]
  rw [e, if_pos h3]
  unfold put
  by_cases hb : p + off + bs.length ≤ m.length
  · rw [if_pos hb]; exact .inl ⟨_, rfl⟩
  · rw [if_neg hb]; exact .inr rfl

/-- Finding: `alignment()` of a null buffer shifts by the width. -/
theorem alignment_null : alignment 0 = .error .overflow := by decide +kernel

end Etl.MemCast
