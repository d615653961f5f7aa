import Verif.Base64.Model
import Mathlib.Tactic.ByContra
/-!
# C22, C55: base64
-/
namespace Etl.Base64

/-! ## Specification (RFC 4648 section 4) -/

/-- The bits of a byte, most significant first. -/
def byteBits (b : Byte) : List Bool := (List.range 8).map fun i => b.getLsbD (7 - i)

/-- The number denoted by a list of bits, most significant first. -/
def bitsVal (bs : List Bool) : Nat := bs.foldl (fun n b => 2 * n + b.toNat) 0

/-- The bit stream cut into groups of six; the last group is completed with zero bits on the right. -/
def sextets : List Bool → List Nat
  | [] => []
  | b0 :: b1 :: b2 :: b3 :: b4 :: b5 :: rest => bitsVal [b0, b1, b2, b3, b4, b5] :: sextets rest
  | short => [bitsVal (short ++ List.replicate (6 - short.length) false)]

/-- The base64 text of a byte string: each six bit group is replaced by its character; with padding, `=` is appended up to a multiple of
four characters. -/
def rfcEncode (table : List Char) (pad : Bool) (bytes : List Byte) : List Char :=
  let cs := (sextets (bytes.flatMap byteBits)).map fun i => table.getD i '\x00'
  cs ++ if pad then List.replicate ((4 - cs.length % 4) % 4) '=' else []

/-- RFC 4648 section 10 test vectors -/
example : rfcEncode charset1 true ("foobar".toList.map fun c => BitVec.ofNat 8 c.toNat) = "Zm9vYmFy".toList := by decide +kernel
example : rfcEncode charset1 true ("fooba".toList.map fun c => BitVec.ofNat 8 c.toNat) = "Zm9vYmE=".toList := by decide +kernel
example : rfcEncode charset1 true ("foob".toList.map fun c => BitVec.ofNat 8 c.toNat) = "Zm9vYg==".toList := by decide +kernel
example : rfcEncode charset2 false [0xFB, 0xFF] = "-_8".toList := by decide +kernel

/-! ## The output buffer -/

variable {α : Type}

def pushAll (o : Out α) (l : List α) : Out α := l.foldl push o

theorem push_frame (o : Out α) (c : α) : (push o c).max = o.max ∧ (push o c).cb = o.cb ∧ (push o c).emitted = o.emitted := by
  unfold push; split <;> exact ⟨rfl, rfl, rfl⟩

theorem pushAll_frame (l : List α) (o : Out α) : (pushAll o l).max = o.max ∧ (pushAll o l).cb = o.cb ∧ (pushAll o l).emitted = o.emitted := by
  induction l generalizing o with
  | nil => exact ⟨rfl, rfl, rfl⟩
  | cons c l ih =>
    have h1 := ih (push o c)
    have h2 := push_frame o c
    exact ⟨h1.1.trans h2.1, h1.2.1.trans h2.2.1, h1.2.2.trans h2.2.2⟩

theorem pushAll_fits (l : List α) (o : Out α) (h : o.buf.length + l.length ≤ o.max) : pushAll o l = { o with buf := o.buf ++ l } := by
  induction l generalizing o with
  | nil => simp [pushAll]
  | cons c l ih =>
    simp only [List.length_cons] at h
    have e : push o c = { o with buf := o.buf ++ [c] } := by unfold push; rw [if_pos (by omega)]
    show pushAll (push o c) l = _
    rw [e, ih _ (by simp; omega)]
    simp

theorem push_over (o : Out α) (c : α) (h : o.overflowed = true) : (push o c).overflowed = true := by
  unfold push; split
  · exact h
  · rfl

theorem pushAll_over (l : List α) (o : Out α) (h : o.overflowed = true) : (pushAll o l).overflowed = true := by
  induction l generalizing o with
  | nil => exact h
  | cons c l ih => exact ih _ (push_over o c h)

theorem pushAll_bound (l : List α) (o : Out α) (h : o.buf.length ≤ o.max) : (pushAll o l).buf.length ≤ o.max := by
  induction l generalizing o with
  | nil => exact h
  | cons c l ih =>
    have := ih (push o c) (by
      rw [(push_frame o c).1]; unfold push; split
      · simp; omega
      · exact h)
    rwa [(push_frame o c).1] at this

theorem pushAll_overflows (l : List α) (o : Out α) (h : o.buf.length ≤ o.max) (hl : o.max < o.buf.length + l.length) : (pushAll o l).overflowed = true := by
  induction l generalizing o with
  | nil => simp at hl; omega
  | cons c l ih =>
    show (pushAll (push o c) l).overflowed = true
    by_cases hc : o.buf.length < o.max
    · have e : push o c = { o with buf := o.buf ++ [c] } := by unfold push; rw [if_pos hc]
      rw [e]
      apply ih
      · simp; omega
      · simp at hl ⊢; omega
    · apply pushAll_over
      unfold push; rw [if_neg hc]

/-- the output produced so far is `T`, in blocks of `u` -/
structure OutInv (u : Nat) (T : List α) (o : Out α) : Prop where
  over : o.overflowed = false
  content : o.emitted.flatten ++ o.buf = T
  noCb : o.cb = false → o.emitted = [] ∧ T.length ≤ o.max
  withCb : o.cb = true → u ∣ o.buf.length ∧ u ∣ o.max ∧ o.buf.length < o.max ∧ ∀ b ∈ o.emitted, b.length = o.max

/-- what a client sees at the end: the text `T`, in the buffer or delivered through the callback followed by an empty span -/
structure Delivered (T : List α) (o : Out α) : Prop where
  noCb : o.cb = false → o.buf = T ∧ o.emitted = []
  withCb : o.cb = true → ∃ blocks, o.emitted = blocks ++ [[]] ∧ blocks.flatten = T ∧ ∀ b ∈ blocks, b ≠ [] ∧ b.length ≤ o.max

theorem room {u a m : Nat} (ha : u ∣ a) (hm : u ∣ m) (h : a < m) : a + u ≤ m := by
  obtain ⟨x, rfl⟩ := ha
  obtain ⟨y, rfl⟩ := hm
  have : x < y := by
    by_contra hc
    exact absurd (Nat.mul_le_mul_left u (by omega : y ≤ x)) (by omega)
  calc u * x + u = u * (x + 1) := by rw [Nat.mul_succ]
    _ ≤ u * y := Nat.mul_le_mul_left u this

theorem block_ok {u : Nat} {T l : List α} {o : Out α} (h : OutInv u T o) (hl : l.length = u) (hr : o.cb = false → T.length + u ≤ o.max) (hu : 0 < u) :
    OutInv u (T ++ l) (sendIfFull (pushAll o l)) ∧ (sendIfFull (pushAll o l)).max = o.max ∧ (sendIfFull (pushAll o l)).cb = o.cb := by
  have hfit : o.buf.length + l.length ≤ o.max := by
    cases hc : o.cb
    · have h1 := h.noCb hc
      have h2 := h.content
      rw [h1.1] at h2
      simp at h2
      rw [h2, hl]; exact hr hc
    · obtain ⟨h1, h2, h3, _⟩ := h.withCb hc
      rw [hl]; exact room h1 h2 h3
  rw [pushAll_fits l o hfit]
  unfold sendIfFull
  cases hc : o.cb
  · simp only [Bool.false_eq_true, if_false]
    refine ⟨⟨h.over, ?_, fun _ => ⟨(h.noCb hc).1, ?_⟩, fun h' => ?_⟩, by simp⟩
    · simp only; rw [← List.append_assoc, h.content]
    · rw [List.length_append, hl]; exact hr hc
    · simp only at h'; cases h'
  · obtain ⟨h1, h2, h3, h4⟩ := h.withCb hc
    simp only [if_true]
    split
    · rename_i hfull
      refine ⟨⟨h.over, ?_, fun h' => (by simp only at h'; cases h'), fun _ => ⟨by simp, h2, by simp; omega, ?_⟩⟩, by simp⟩
      · simp [← h.content]
      · intro b hb
        simp only [List.mem_append, List.mem_singleton] at hb
        rcases hb with hb | hb
        · exact h4 b hb
        · rw [hb]; exact hfull
    · rename_i hnf
      refine ⟨⟨h.over, ?_, fun h' => (by simp only at h'; cases h'), fun _ => ⟨?_, h2, ?_, h4⟩⟩, by simp⟩
      · simp only; rw [← List.append_assoc, h.content]
      · simp only [List.length_append, hl]; exact Nat.dvd_add h1 (Nat.dvd_refl u)
      · simp only [List.length_append] at hnf hfit ⊢; omega

theorem final_ok {u : Nat} {T l : List α} {o : Out α} (h : OutInv u T o) (hl : l.length ≤ u) (hr : o.cb = false → T.length + l.length ≤ o.max) :
    (pushAll o l).overflowed = false ∧ Delivered (T ++ l) (sendFinal (pushAll o l)) := by
  have hfit : o.buf.length + l.length ≤ o.max := by
    cases hc : o.cb
    · have h1 := h.noCb hc
      have h2 := h.content
      rw [h1.1] at h2
      simp at h2
      rw [h2]; exact hr hc
    · obtain ⟨h1, h2, h3, _⟩ := h.withCb hc
      have := room h1 h2 h3
      omega
  rw [pushAll_fits l o hfit]
  refine ⟨h.over, ?_⟩
  unfold sendFinal
  cases hc : o.cb
  · simp only [Bool.false_eq_true, if_false]
    have h1 := h.noCb hc
    have h2 := h.content
    rw [h1.1] at h2
    simp at h2
    refine ⟨fun _ => ⟨by simp only [h2], h1.1⟩, fun h' => ?_⟩
    simp only at h'; cases h'
  · obtain ⟨h1, h2, h3, h4⟩ := h.withCb hc
    simp only [if_true]
    refine ⟨fun h' => ?_, fun _ => ?_⟩
    · split at h' <;> simp only at h' <;> cases h'
    · split
      · rename_i hne
        refine ⟨o.emitted ++ [o.buf ++ l], rfl, by simp [← h.content], ?_⟩
        intro b hb
        simp only [List.mem_append, List.mem_singleton] at hb
        rcases hb with hb | hb
        · have := h4 b hb
          refine ⟨?_, by simp only; omega⟩
          intro he; subst he; simp at this; omega
        · subst hb
          refine ⟨fun he => hne (by rw [he]; rfl), by simpa using hfit⟩
      · rename_i hne
        have he : o.buf ++ l = [] := by simpa using hne
        refine ⟨o.emitted, rfl, ?_, ?_⟩
        · rw [← h.content, List.append_assoc, he]; simp
        · intro b hb
          have := h4 b hb
          refine ⟨?_, by simp only; omega⟩
          intro he; subst he; simp at this; omega

/-! ## Encoding a block -/

def c0 (t : List Char) (i : Nat) : Char := t.getD i '\x00'

/-- the characters produced for a whole block of three bytes -/
def enc3 (t : List Char) (a b c : Byte) : List Char :=
  let o := ((a.toNat <<< 16) ||| (b.toNat <<< 8)) ||| c.toNat
  [c0 t ((o >>> 18) &&& 0x3F), c0 t ((o >>> 12) &&& 0x3F), c0 t ((o >>> 6) &&& 0x3F), c0 t ((o >>> 0) &&& 0x3F)]

/-- the characters produced by `flush` for the remaining input -/
def encTail (t : List Char) (pad : Bool) : List Byte → List Char
  | [a] =>
    let o := a.toNat <<< 4
    [c0 t ((o >>> 6) &&& 0x3F), c0 t ((o >>> 0) &&& 0x3F)] ++ if pad then ['=', '='] else []
  | [a, b] =>
    let o := ((a.toNat <<< 8) ||| b.toNat) <<< 2
    [c0 t ((o >>> 12) &&& 0x3F), c0 t ((o >>> 6) &&& 0x3F), c0 t ((o >>> 0) &&& 0x3F)] ++ if pad then ['='] else []
  | _ => []

def encFull (t : List Char) : List Byte → List Char
  | a :: b :: c :: rest => enc3 t a b c ++ encFull t rest
  | _ => []
def tail3 : List Byte → List Byte
  | _ :: _ :: _ :: rest => tail3 rest
  | short => short

theorem bitsVal_append (x y : List Bool) : bitsVal (x ++ y) = bitsVal x * 2 ^ y.length + bitsVal y := by
  unfold bitsVal
  rw [List.foldl_append]
  generalize x.foldl (fun n b => 2 * n + b.toNat) 0 = n
  have key : ∀ (y : List Bool) (n m : Nat), y.foldl (fun n b => 2 * n + b.toNat) (n + m) = n * 2 ^ y.length + y.foldl (fun n b => 2 * n + b.toNat) m := by
    intro y
    induction y with
    | nil => intro n m; simp
    | cons b y ih =>
      intro n m
      rw [List.foldl_cons, List.foldl_cons, show 2 * (n + m) + b.toNat = 2 * n + (2 * m + b.toNat) by omega, ih, List.length_cons, Nat.pow_succ]
      rw [show 2 * n * 2 ^ y.length = n * (2 ^ y.length * 2) by rw [Nat.mul_comm 2 n, Nat.mul_assoc, Nat.mul_comm 2]]
  have := key y n 0
  simpa using this

/-- the bit `i` (from the top) of a byte -/
def bt (b : Byte) (i : Nat) : Bool := b.getLsbD (7 - i)

theorem byteBits_eq (b : Byte) : byteBits b = [bt b 0, bt b 1, bt b 2, bt b 3, bt b 4, bt b 5, bt b 6, bt b 7] := rfl

theorem hi6 : ∀ b : Byte, bitsVal [bt b 0, bt b 1, bt b 2, bt b 3, bt b 4, bt b 5] = b.toNat / 4 := by decide +kernel
theorem lo2 : ∀ b : Byte, bitsVal [bt b 6, bt b 7] = b.toNat % 4 := by decide +kernel
theorem hi4 : ∀ b : Byte, bitsVal [bt b 0, bt b 1, bt b 2, bt b 3] = b.toNat / 16 := by decide +kernel
theorem lo4 : ∀ b : Byte, bitsVal [bt b 4, bt b 5, bt b 6, bt b 7] = b.toNat % 16 := by decide +kernel
theorem hi2 : ∀ b : Byte, bitsVal [bt b 0, bt b 1] = b.toNat / 64 := by decide +kernel
theorem lo6 : ∀ b : Byte, bitsVal [bt b 2, bt b 3, bt b 4, bt b 5, bt b 6, bt b 7] = b.toNat % 64 := by decide +kernel

theorem and63 (x : Nat) : x &&& 0x3F = x % 64 := Nat.and_two_pow_sub_one_eq_mod x 6
theorem and255 (x : Nat) : x &&& 0xFF = x % 256 := Nat.and_two_pow_sub_one_eq_mod x 8

theorem or_add {x k y : Nat} (h : y < 2 ^ k) : (x <<< k) ||| y = x * 2 ^ k + y := by
  rw [← Nat.shiftLeft_add_eq_or_of_lt h, Nat.shiftLeft_eq]

theorem octets3 (a b c : Byte) : ((a.toNat <<< 16) ||| (b.toNat <<< 8)) ||| c.toNat = a.toNat * 65536 + b.toNat * 256 + c.toNat := by
  have ha := a.isLt; have hb := b.isLt; have hc := c.isLt
  have e : (a.toNat <<< 16) ||| (b.toNat <<< 8) = (a.toNat * 256 + b.toNat) <<< 8 := by
    rw [or_add (by rw [Nat.shiftLeft_eq]; omega), Nat.shiftLeft_eq, Nat.shiftLeft_eq]; omega
  rw [e, or_add hc]; omega

theorem sextets3 (a b c : Byte) (rest : List Bool) :
    sextets (byteBits a ++ (byteBits b ++ (byteBits c ++ rest))) =
      [a.toNat / 4, a.toNat % 4 * 16 + b.toNat / 16, b.toNat % 16 * 4 + c.toNat / 64, c.toNat % 64] ++ sextets rest := by
  rw [byteBits_eq, byteBits_eq, byteBits_eq]
  simp only [List.cons_append, List.nil_append, sextets]
  rw [hi6 a, lo6 c]
  have e1 : bitsVal [bt a 6, bt a 7, bt b 0, bt b 1, bt b 2, bt b 3] = a.toNat % 4 * 16 + b.toNat / 16 := by
    have := bitsVal_append [bt a 6, bt a 7] [bt b 0, bt b 1, bt b 2, bt b 3]
    rw [lo2, hi4] at this; exact this
  have e2 : bitsVal [bt b 4, bt b 5, bt b 6, bt b 7, bt c 0, bt c 1] = b.toNat % 16 * 4 + c.toNat / 64 := by
    have := bitsVal_append [bt b 4, bt b 5, bt b 6, bt b 7] [bt c 0, bt c 1]
    rw [lo4, hi2] at this; exact this
  rw [e1, e2]

theorem sextets2 (a b : Byte) : sextets (byteBits a ++ (byteBits b ++ [])) = [a.toNat / 4, a.toNat % 4 * 16 + b.toNat / 16, b.toNat % 16 * 4] := by
  rw [byteBits_eq, byteBits_eq]
  simp only [List.cons_append, List.nil_append, sextets, List.length_cons, List.length_nil]
  rw [hi6 a]
  have e1 : bitsVal [bt a 6, bt a 7, bt b 0, bt b 1, bt b 2, bt b 3] = a.toNat % 4 * 16 + b.toNat / 16 := by
    have := bitsVal_append [bt a 6, bt a 7] [bt b 0, bt b 1, bt b 2, bt b 3]
    rw [lo2, hi4] at this; exact this
  have e2 : bitsVal (bt b 4 :: bt b 5 :: bt b 6 :: bt b 7 :: List.replicate (6 - (0 + 1 + 1 + 1 + 1)) false) = b.toNat % 16 * 4 := by
    have := bitsVal_append [bt b 4, bt b 5, bt b 6, bt b 7] [false, false]
    rw [lo4] at this; exact this
  rw [e1, e2]

theorem sextets1 (a : Byte) : sextets (byteBits a ++ []) = [a.toNat / 4, a.toNat % 4 * 16] := by
  rw [byteBits_eq]
  simp only [List.cons_append, List.nil_append, sextets, List.length_cons, List.length_nil]
  rw [hi6 a]
  have e2 : bitsVal (bt a 6 :: bt a 7 :: List.replicate (6 - (0 + 1 + 1)) false) = a.toNat % 4 * 16 := by
    have := bitsVal_append [bt a 6, bt a 7] [false, false, false, false]
    rw [lo2] at this; exact this
  rw [e2]

theorem enc3_eq (t : List Char) (a b c : Byte) : enc3 t a b c = [a.toNat / 4, a.toNat % 4 * 16 + b.toNat / 16, b.toNat % 16 * 4 + c.toNat / 64, c.toNat % 64].map (c0 t) := by
  have ha := a.isLt; have hb := b.isLt; have hc := c.isLt
  unfold enc3
  simp only [octets3, and63, Nat.shiftRight_eq_div_pow, List.map_cons, List.map_nil]
  generalize a.toNat = x at *; generalize b.toNat = y at *; generalize c.toNat = z at *
  have e1 : (x * 65536 + y * 256 + z) / 2 ^ 18 % 64 = x / 4 := by omega
  have e2 : (x * 65536 + y * 256 + z) / 2 ^ 12 % 64 = x % 4 * 16 + y / 16 := by omega
  have e3 : (x * 65536 + y * 256 + z) / 2 ^ 6 % 64 = y % 16 * 4 + z / 64 := by omega
  have e4 : (x * 65536 + y * 256 + z) / 2 ^ 0 % 64 = z % 64 := by omega
  rw [e1, e2, e3, e4]

theorem encTail2_eq (t : List Char) (pad : Bool) (a b : Byte) : encTail t pad [a, b] = [a.toNat / 4, a.toNat % 4 * 16 + b.toNat / 16, b.toNat % 16 * 4].map (c0 t) ++ if pad then ['='] else [] := by
  have ha := a.isLt; have hb := b.isLt
  unfold encTail
  simp only [or_add hb]
  simp only [and63, Nat.shiftRight_eq_div_pow, Nat.shiftLeft_eq, List.map_cons, List.map_nil]
  generalize a.toNat = x at *; generalize b.toNat = y at *
  have e2 : (x * 2 ^ 8 + y) * 2 ^ 2 / 2 ^ 12 % 64 = x / 4 := by omega
  have e3 : (x * 2 ^ 8 + y) * 2 ^ 2 / 2 ^ 6 % 64 = x % 4 * 16 + y / 16 := by omega
  have e4 : (x * 2 ^ 8 + y) * 2 ^ 2 / 2 ^ 0 % 64 = y % 16 * 4 := by omega
  rw [e2, e3, e4]

theorem encTail1_eq (t : List Char) (pad : Bool) (a : Byte) : encTail t pad [a] = [a.toNat / 4, a.toNat % 4 * 16].map (c0 t) ++ if pad then ['=', '='] else [] := by
  have ha := a.isLt
  unfold encTail
  simp only [and63, Nat.shiftRight_eq_div_pow, Nat.shiftLeft_eq, List.map_cons, List.map_nil]
  generalize a.toNat = x at *
  have e2 : x * 2 ^ 4 / 2 ^ 6 % 64 = x / 4 := by omega
  have e3 : x * 2 ^ 4 / 2 ^ 0 % 64 = x % 4 * 16 := by omega
  rw [e2, e3]

theorem tail3_length (bs : List Byte) : (tail3 bs).length < 3 := by
  match bs with
  | [] => simp [tail3]
  | [a] => simp [tail3]
  | [a, b] => simp [tail3]
  | a :: b :: c :: rest => simp only [tail3]; exact tail3_length rest

theorem encFull_length (t : List Char) (bs : List Byte) : (encFull t bs).length % 4 = 0 ∧ (encFull t bs).length = bs.length / 3 * 4 := by
  match bs with
  | [] => simp [encFull]
  | [a] => simp [encFull]
  | [a, b] => simp [encFull]
  | a :: b :: c :: rest =>
    have := encFull_length t rest
    simp only [encFull, List.length_append, List.length_cons]
    have e : (enc3 t a b c).length = 4 := rfl
    rw [e]
    omega

/-- the text, block by block -/
theorem rfcEncode_eq (t : List Char) (pad : Bool) (bs : List Byte) : rfcEncode t pad bs = encFull t bs ++ encTail t pad (tail3 bs) := by
  match bs with
  | [] => simp [rfcEncode, sextets, encFull, encTail, tail3]
  | [a] =>
    simp only [rfcEncode, List.flatMap_cons, List.flatMap_nil, tail3, encFull, List.nil_append]
    rw [sextets1, encTail1_eq]; cases pad <;> rfl
  | [a, b] =>
    simp only [rfcEncode, List.flatMap_cons, List.flatMap_nil, tail3, encFull, List.nil_append]
    rw [sextets2, encTail2_eq]; cases pad <;> rfl
  | a :: b :: c :: rest =>
    have ih := rfcEncode_eq t pad rest
    simp only [encFull, tail3, List.append_assoc]
    rw [← ih, enc3_eq]
    simp only [rfcEncode, List.flatMap_cons]
    rw [sextets3, List.map_append, List.append_assoc]
    congr 1
    congr 1
    simp only [List.length_append, List.length_map, List.length_cons, List.length_nil]
    rw [show (0 + 1 + 1 + 1 + 1 + (sextets (List.flatMap byteBits rest)).length) % 4 = (sextets (List.flatMap byteBits rest)).length % 4 by omega]

/-! ## The encoder -/

theorem encPush (e : Enc) (c : Char) : e.push c = { e with out := pushAll e.out [c] } := rfl

theorem encodeBlock3 (e : Enc) (a b c : Byte) (h : e.inp = [a, b, c]) : (encodeBlock e).1 = { e with out := pushAll e.out (enc3 e.table a b c) } := by
  obtain ⟨t, pad, inp, out⟩ := e
  simp only at h
  subst h
  rfl

theorem encodeBlockTail (e : Enc) (h : e.inp.length < 3) : encodeBlock e = ({ e with out := pushAll e.out (encTail e.table e.pad e.inp) }, !(pushAll e.out (encTail e.table e.pad e.inp)).overflowed) := by
  obtain ⟨t, pad, inp, out⟩ := e
  match inp, h with
  | [], _ => rfl
  | [a], _ => cases pad <;> rfl
  | [a, b], _ => cases pad <;> rfl

theorem encodeRange_append (e : Enc) (x y : List Byte) : encodeRange e (x ++ y) = (match encodeRange e x with
    | .error u => .error u
    | .ok (e, false) => .ok (e, false)
    | .ok (e, true) => encodeRange e y) := by
  induction x generalizing e with
  | nil => rfl
  | cons b x ih =>
    rw [List.cons_append, encodeRange, encodeRange]
    cases h : encode1 e b with
    | error u => rfl
    | ok r => obtain ⟨e', ok⟩ := r; cases ok <;> simp only [ih]

theorem encodeAll_eq (e : Enc) (ps : List (List Byte)) : encodeAll e ps = (match encodeRange e ps.flatten with
    | .error u => .error u
    | .ok (e, false) => .ok (e, false)
    | .ok (e, true) => .ok (flushEnc e)) := by
  induction ps generalizing e with
  | nil => rfl
  | cons p ps ih =>
    rw [List.flatten_cons, encodeRange_append, encodeAll]
    cases h : encodeRange e p with
    | error u => rfl
    | ok r => obtain ⟨e', ok⟩ := r; cases ok <;> simp only [ih]

/-- three bytes into an empty input buffer -/
theorem encode3 (e : Enc) (h : e.inp = []) (ho : e.out.overflowed = false) (a b c : Byte) (rest : List Byte) :
    encodeRange e (a :: b :: c :: rest) =
      (if (sendIfFull (pushAll e.out (enc3 e.table a b c))).overflowed then .ok ({ e with out := sendIfFull (pushAll e.out (enc3 e.table a b c)) }, false)
        else encodeRange { e with out := sendIfFull (pushAll e.out (enc3 e.table a b c)) } rest) := by
  obtain ⟨t, pad, inp, out⟩ := e
  simp only at h ho
  subst h
  have e1 : encode1 ⟨t, pad, [], out⟩ a = .ok (⟨t, pad, [a], out⟩, true) := by simp [encode1, ho]
  have e2 : encode1 ⟨t, pad, [a], out⟩ b = .ok (⟨t, pad, [a, b], out⟩, true) := by simp [encode1, ho]
  have e3 : encode1 ⟨t, pad, [a, b], out⟩ c = .ok (⟨t, pad, [], sendIfFull (pushAll out (enc3 t a b c))⟩, !(sendIfFull (pushAll out (enc3 t a b c))).overflowed) := by
    simp only [encode1, List.length_cons, List.length_nil, List.cons_append, List.nil_append]
    rw [encodeBlock3 ⟨t, pad, [a, b, c], out⟩ a b c rfl]
    rfl
  simp only [encodeRange, e1, e2, e3]
  cases (sendIfFull (pushAll out (enc3 t a b c))).overflowed <;> simp

theorem encodeShort (e : Enc) (h : e.inp = []) (ho : e.out.overflowed = false) (bs : List Byte) (hb : bs.length < 3) : encodeRange e bs = .ok ({ e with inp := bs }, true) := by
  obtain ⟨t, pad, inp, out⟩ := e
  simp only at h ho
  subst h
  match bs, hb with
  | [], _ => rfl
  | [a], _ => simp [encodeRange, encode1, ho]
  | [a, b], _ => simp [encodeRange, encode1, ho]

theorem encodeRange_ok (bs : List Byte) (e : Enc) (T : List Char) (hi : e.inp = []) (h : OutInv 4 T e.out) (hr : e.out.cb = false → T.length + (encFull e.table bs).length ≤ e.out.max) :
    ∃ e', encodeRange e bs = .ok (e', true) ∧ e'.table = e.table ∧ e'.pad = e.pad ∧ e'.inp = tail3 bs ∧ OutInv 4 (T ++ encFull e.table bs) e'.out ∧ e'.out.max = e.out.max ∧ e'.out.cb = e.out.cb := by
  match bs with
  | [] => exact ⟨e, rfl, rfl, rfl, hi, by simpa [encFull] using h, rfl, rfl⟩
  | [a] => exact ⟨_, encodeShort e hi h.over _ (by simp), rfl, rfl, rfl, by simpa [encFull] using h, rfl, rfl⟩
  | [a, b] => exact ⟨_, encodeShort e hi h.over _ (by simp), rfl, rfl, rfl, by simpa [encFull] using h, rfl, rfl⟩
  | a :: b :: c :: rest =>
    have hl : (enc3 e.table a b c).length = 4 := rfl
    obtain ⟨h1, h2, h3⟩ := block_ok h hl (fun hc => by have := hr hc; simp only [encFull, List.length_append, hl] at this; omega) (by omega)
    obtain ⟨e', r1, r2, r3, r4, r5, r6, r7⟩ := encodeRange_ok rest { e with out := sendIfFull (pushAll e.out (enc3 e.table a b c)) } _ hi h1 (fun hc => by
      simp only at hc
      rw [h3] at hc
      have := hr hc
      simp only [encFull, List.length_append, hl, h2] at this ⊢
      omega)
    refine ⟨e', ?_, r2, r3, r4, ?_, r6.trans h2, r7.trans h3⟩
    · rw [encode3 e hi h.over, h1.over, if_neg (by decide)]; exact r1
    · simpa [encFull] using r5

/-- C22, encoder.  For every alphabet table, padding mode and byte string, and every way of splitting it into `encode` calls followed by
`flush`: if the output buffer is large enough (or, with a callback, its size is a positive multiple of four as the static asserts require),
every call returns true and the text delivered - in the buffer, or as the concatenation of the callback's spans followed by an empty span,
no span exceeding the buffer - is the RFC 4648 text.  The input buffer is never overrun. -/
theorem C22_encode (t : List Char) (pad : Bool) (max : Nat) (cb : Bool) (pieces : List (List Byte))
    (hcb : cb = true → 4 ∣ max ∧ 0 < max) (hmax : cb = false → (rfcEncode t pad pieces.flatten).length ≤ max) :
    ∃ e, encodeAll (encoder t pad max cb) pieces = .ok (e, true) ∧ Delivered (rfcEncode t pad pieces.flatten) e.out ∧ e.out.cb = cb ∧ e.out.max = max := by
  generalize hbs : pieces.flatten = bs at *
  have hinv : OutInv 4 ([] : List Char) (encoder t pad max cb).out := by
    refine ⟨rfl, rfl, fun _ => ⟨rfl, by simp⟩, fun hc => ⟨by simp [encoder], (hcb hc).1, (hcb hc).2, by simp [encoder]⟩⟩
  obtain ⟨e, r1, r2, r3, r4, r5, r6, r7⟩ := encodeRange_ok bs (encoder t pad max cb) [] rfl hinv (fun hc => by
    have := hmax hc
    rw [rfcEncode_eq, List.length_append] at this
    simp [encoder]; omega)
  have hfin := final_ok (l := encTail e.table e.pad e.inp) r5 (by
    rw [r4]
    have := tail3_length bs
    match tail3 bs, this with
    | [], _ => simp [encTail]
    | [a], _ => rw [encTail1_eq]; split <;> simp
    | [a, b], _ => rw [encTail2_eq]; split <;> simp) (by
    intro hc
    rw [r7] at hc
    have := hmax hc
    rw [rfcEncode_eq, List.length_append] at this
    rw [r6, r2, r3, r4]
    simpa [encoder] using this)
  have hb := encodeBlockTail e (by rw [r4]; exact tail3_length bs)
  have hfl : flushEnc e = ({ e with inp := [], out := sendFinal (pushAll e.out (encTail e.table e.pad e.inp)) }, true) := by
    unfold flushEnc; rw [hb]; simp [hfin.1]
  refine ⟨{ e with inp := [], out := sendFinal (pushAll e.out (encTail e.table e.pad e.inp)) }, by rw [encodeAll_eq, hbs, r1]; simp only [hfl], ?_, ?_, ?_⟩
  · have := hfin.2
    rw [r2, r3, r4] at this
    simp only [List.nil_append] at this
    rw [rfcEncode_eq]
    show Delivered _ (sendFinal (pushAll e.out (encTail e.table e.pad e.inp)))
    rw [r2, r3, r4]; exact this
  · show (sendFinal (pushAll e.out (encTail e.table e.pad e.inp))).cb = cb
    have h1 := pushAll_frame (encTail e.table e.pad e.inp) e.out
    have : (sendFinal (pushAll e.out (encTail e.table e.pad e.inp))).cb = (pushAll e.out (encTail e.table e.pad e.inp)).cb := by
      unfold sendFinal; split
      · simp only; split <;> rfl
      · rfl
    rw [this, h1.2.1, r7]; rfl
  · show (sendFinal (pushAll e.out (encTail e.table e.pad e.inp))).max = max
    have h1 := pushAll_frame (encTail e.table e.pad e.inp) e.out
    have : (sendFinal (pushAll e.out (encTail e.table e.pad e.inp))).max = (pushAll e.out (encTail e.table e.pad e.inp)).max := by
      unfold sendFinal; split
      · simp only; split <;> rfl
      · rfl
    rw [this, h1.1, r6]; rfl

/-- C22, encoder, too small a buffer: without a callback, when the text does not fit, some call returns false and nothing is written
past the end of the buffer. -/
theorem C22_encode_overflow (t : List Char) (pad : Bool) (max : Nat) (pieces : List (List Byte)) (hmax : max < (rfcEncode t pad pieces.flatten).length) :
    ∃ e, encodeAll (encoder t pad max false) pieces = .ok (e, false) ∧ e.out.overflowed = true ∧ e.out.buf.length ≤ max := by
  have key : ∀ (bs : List Byte) (e : Enc) (T : List Char), e.inp = [] → e.out.cb = false → OutInv 4 T e.out → e.out.max < T.length + (rfcEncode e.table e.pad bs).length →
      ∃ e', (match encodeRange e bs with
        | .error u => .error u
        | .ok (e, false) => .ok (e, false)
        | .ok (e, true) => .ok (flushEnc e)) = (.ok (e', false) : Res (Enc × Bool)) ∧ e'.out.overflowed = true ∧ e'.out.buf.length ≤ e.out.max := by
    intro bs
    -- follow the blocks
    induction hn : bs.length using Nat.strongRecOn generalizing bs with
    | ind n ih =>
      intro e T hi hc h hov
      have hcont : e.out.buf = T := by
        have h1 := h.noCb hc
        have h2 := h.content
        rw [h1.1] at h2
        simpa using h2
      have hbl : e.out.buf.length ≤ e.out.max := by rw [hcont]; exact (h.noCb hc).2
      have hsf : ∀ o : Out Char, o.cb = false → sendIfFull o = o := by intro o ho; unfold sendIfFull; rw [ho]; rfl
      have short : bs.length < 3 → encFull e.table bs = [] → tail3 bs = bs → _ := fun hb hf ht => by
        refine (⟨(flushEnc { e with inp := bs }).1, ?_⟩ : ∃ e', (match encodeRange e bs with
          | .error u => .error u
          | .ok (e, false) => .ok (e, false)
          | .ok (e, true) => .ok (flushEnc e)) = (.ok (e', false) : Res (Enc × Bool)) ∧ e'.out.overflowed = true ∧ e'.out.buf.length ≤ e.out.max)
        rw [encodeShort e hi h.over bs hb]
        rw [rfcEncode_eq, hf, ht, List.nil_append] at hov
        have ho := pushAll_overflows (encTail e.table e.pad bs) e.out hbl (by rw [hcont]; exact hov)
        have hb2 := encodeBlockTail { e with inp := bs } hb
        have hfl : flushEnc { e with inp := bs } = ({ e with inp := [], out := pushAll e.out (encTail e.table e.pad bs) }, false) := by
          unfold flushEnc; rw [hb2]; simp [ho]
        refine ⟨?_, ?_, ?_⟩
        · simp only [hfl]
        · rw [hfl]; exact ho
        · rw [hfl]; exact pushAll_bound _ _ hbl
      match bs with
      | [] => exact short (by simp) rfl rfl
      | [a] => exact short (by simp) rfl rfl
      | [a, b] => exact short (by simp) rfl rfl
      | a :: b :: c :: rest =>
        have hl : (enc3 e.table a b c).length = 4 := rfl
        have hcb' := (pushAll_frame (enc3 e.table a b c) e.out).2.1.trans hc
        rw [encode3 e hi h.over, hsf _ hcb']
        by_cases hroom : T.length + 4 ≤ e.out.max
        · obtain ⟨h1, h2, h3⟩ := block_ok h hl (fun _ => hroom) (by omega)
          rw [hsf _ hcb'] at h1 h2 h3
          rw [h1.over, if_neg (by decide)]
          obtain ⟨e', r1, r2, r3⟩ := ih rest.length (by simp at hn; omega) rest rfl { e with out := pushAll e.out (enc3 e.table a b c) } _ hi hcb' h1 (by
            simp only
            rw [h2]
            have : rfcEncode e.table e.pad (a :: b :: c :: rest) = enc3 e.table a b c ++ rfcEncode e.table e.pad rest := by
              rw [rfcEncode_eq, rfcEncode_eq, encFull, tail3, List.append_assoc]
            rw [this, List.length_append] at hov
            rw [List.length_append]; omega)
          exact ⟨e', r1, r2, by simp only at r3; rwa [h2] at r3⟩
        · have ho := pushAll_overflows (enc3 e.table a b c) e.out hbl (by rw [hcont, hl]; omega)
          rw [ho, if_pos rfl]
          exact ⟨_, rfl, ho, pushAll_bound _ _ hbl⟩
  have := key pieces.flatten (encoder t pad max false) [] rfl rfl ⟨rfl, rfl, fun _ => ⟨rfl, by simp⟩, fun hc => by cases hc⟩ (by simpa [encoder] using hmax)
  rw [← encodeAll_eq] at this
  exact this

theorem roundUp4_spec (n : Nat) : n ≤ roundUp4 n ∧ roundUp4 n < n + 4 ∧ roundUp4 n % 4 = 0 := by
  unfold roundUp4; split
  · omega
  · split
    · omega
    · split <;> omega

/-- C22, documented sizes: `safe_output_buffer_size(n)` is the exact length of the padded text, and enough for the unpadded text. -/
theorem C22_encoded_size (t : List Char) (bs : List Byte) :
    (rfcEncode t true bs).length = encodedSize bs.length true ∧ (rfcEncode t true bs).length = 4 * ((bs.length + 2) / 3) ∧
    (rfcEncode t false bs).length ≤ encodedSize bs.length false ∧ (rfcEncode t false bs).length = (4 * bs.length + 2) / 3 := by
  have hl := (encFull_length t bs).2
  have ht := tail3_length bs
  have htl : (tail3 bs).length = bs.length % 3 := by
    clear hl ht
    have : ∀ (n : Nat) (bs : List Byte), bs.length = n → (tail3 bs).length = bs.length % 3 := by
      intro n
      induction n using Nat.strongRecOn with
      | ind n ih =>
        intro bs hn
        match bs with
        | [] => rfl
        | [a] => rfl
        | [a, b] => rfl
        | a :: b :: c :: rest =>
          simp only [tail3, List.length_cons] at hn ⊢
          rw [ih rest.length (by omega) rest rfl]; omega
    exact this _ bs rfl
  have hp : (rfcEncode t true bs).length = bs.length / 3 * 4 + (if bs.length % 3 = 0 then 0 else 4) ∧ (rfcEncode t false bs).length = bs.length / 3 * 4 + (if bs.length % 3 = 0 then 0 else bs.length % 3 + 1) := by
    rw [rfcEncode_eq, rfcEncode_eq, List.length_append, List.length_append, hl, ← htl]
    generalize tail3 bs = tl at *
    match tl, ht with
    | [], _ => simp [encTail]
    | [a], _ => rw [encTail1_eq, encTail1_eq]; simp
    | [a, b], _ => rw [encTail2_eq, encTail2_eq]; simp
  rw [hp.1, hp.2]
  unfold encodedSize
  by_cases h0 : bs.length = 0
  · simp [h0]
  · rw [if_neg h0, if_neg h0]
    simp only [if_true, Bool.false_eq_true, if_false]
    have r1 := roundUp4_spec (bs.length * 4 / 3)
    have r2 := roundUp4_spec (roundUp4 (bs.length * 4 / 3))
    have r3 := roundUp4_spec (bs.length + ((bs.length - 1) / 3 + 1))
    by_cases h3 : bs.length % 3 = 0
    · rw [if_pos h3, if_pos h3]; omega
    · rw [if_neg h3, if_neg h3]; omega

/-- Non-vacuity: a five byte string, split in two calls, callback blocks of 4. -/
example : ∃ e, encodeAll (encoder charset1 true 4 true) [[0x66, 0x6f], [0x6f, 0x62, 0x61]] = .ok (e, true) ∧ e.out.emitted = ["Zm9v".toList, "YmE=".toList, []] := ⟨_, by rfl, by rfl⟩

end Etl.Base64
