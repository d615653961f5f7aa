import Verif.Stream.BitCore

/-!
# C24: what is written to a bit_stream_writer is read back by a bit_stream_reader

A `Field` is one value with its type and its number of bits.  `Field.value` is what a reader must give: the value cut to the number of bits, with the sign for a signed type; it is the value itself when that fits in the bits (`value_nat`, `value_int`).
-/
namespace Etl.BitStream
open Etl.Binary

/-- A bool, or a value of an unsigned or signed type of `W` bits that is to be sent with `n` bits. -/
inductive Field where
  | flag (b : Bool) | nat (W n v : Nat) | int (W n : Nat) (v : Int)
  deriving Repr
inductive Val where
  | flag (b : Bool) | nat (v : Nat) | int (v : Int)
  deriving DecidableEq, Repr

/-! ### Specification -/

/-- The types have 8, 16, 32 or 64 bits, the value is a value of the type, and the number of bits is one to the width of the type. -/
def Field.Legal : Field → Prop
  | .flag _ => True
  | .nat W n v => IsWidth W ∧ 1 ≤ n ∧ n ≤ W ∧ v < 2 ^ W
  | .int W n v => IsWidth W ∧ 1 ≤ n ∧ n ≤ W ∧ -2 ^ (W - 1) ≤ v ∧ v < 2 ^ (W - 1)
def Field.bits : Field → Nat
  | .flag _ => 1
  | .nat _ n _ => n
  | .int _ n _ => n
/-- What is read back: the last `n` bits, as an unsigned or a signed number. -/
def Field.value : Field → Val
  | .flag b => .flag b
  | .nat _ n v => .nat (v % 2 ^ n)
  | .int _ n v => .int (Int.bmod v (2 ^ n))
/-- Which of the fields fit, when `room` bits are left: a field that does not fit is left out. -/
def fits (room : Nat) : List Field → List Bool
  | [] => []
  | f :: fs => if f.bits ≤ room then true :: fits (room - f.bits) fs else false :: fits room fs
/-- The fields that have been accepted. -/
def accepted : List Field → List Bool → List Field
  | f :: fs, b :: bs => if b then f :: accepted fs bs else accepted fs bs
  | _, _ => []

/-! ### The calls on the model -/

/-- `write(value, n)`: a signed value is converted to the unsigned type, l.653-660 -/
def writeField (e : Endian) (s : St) : Field → Res (St × Bool)
  | .flag b => writeBool e s b
  | .nat W n v => write e s W v n
  | .int W n v => write e s W (toUnsigned W v) n
def writeAll (e : Endian) (s : St) : List Field → Res (St × List Bool)
  | [] => .ok (s, [])
  | f :: fs => match writeField e s f with
    | .error u => .error u
    | .ok (s, b) => match writeAll e s fs with
      | .error u => .error u
      | .ok (s, bs) => .ok (s, b :: bs)
/-- `read<T>(n)` for the type and the number of bits of the field (its value is not looked at) -/
def readField (e : Endian) (s : St) : Field → Res (St × Option Val)
  | .flag _ => (match readBool s with
    | .error u => .error u
    | .ok (s, o) => .ok (s, o.map .flag))
  | .nat W n _ => (match read e false s W n with
    | .error u => .error u
    | .ok (s, o) => .ok (s, o.map .nat))
  | .int W n _ => (match read e true s W n with
    | .error u => .error u
    | .ok (s, o) => .ok (s, o.map (fun v => .int (toSigned W v))))
def readAll (e : Endian) (s : St) : List Field → Res (St × List (Option Val))
  | [] => .ok (s, [])
  | f :: fs => match readField e s f with
    | .error u => .error u
    | .ok (s, b) => match readAll e s fs with
      | .error u => .error u
      | .ok (s, bs) => .ok (s, b :: bs)

/-! ### Proofs -/

/-- the number that is put in the stream -/
def Field.pattern : Field → Nat
  | .flag b => if b then 1 else 0
  | .nat _ _ v => v
  | .int W _ v => toUnsigned W v
def Field.width : Field → Nat
  | .flag _ => 8
  | .nat W _ _ => W
  | .int W _ _ => W

theorem toUnsigned_lt (W : Nat) (v : Int) : toUnsigned W v < 2 ^ W := by
  unfold toUnsigned
  have h : (0 : Int) < 2 ^ W := by have := Nat.two_pow_pos W; exact_mod_cast this
  have h1 := Int.emod_nonneg v (Int.ne_of_gt h)
  have h2 := Int.emod_lt_of_pos v h
  have hc : ((2 ^ W : Nat) : Int) = 2 ^ W := by norm_cast
  omega

theorem Field.Legal.facts {f : Field} (h : f.Legal) : IsWidth f.width ∧ 1 ≤ f.bits ∧ f.bits ≤ f.width ∧ f.pattern < 2 ^ f.width := by
  cases f with
  | flag b => exact ⟨Or.inl rfl, by simp [bits], by simp [bits, width], by cases b <;> simp [pattern, width]⟩
  | nat W n v => exact ⟨h.1, h.2.1, h.2.2.1, h.2.2.2⟩
  | int W n v => exact ⟨h.1, h.2.1, h.2.2.1, toUnsigned_lt _ _⟩

theorem writeField_eq (e : Endian) (s : St) (f : Field) (h : 1 ≤ f.bits) : writeField e s f =
    if f.bits ≤ s.avail then (match writeData e s f.width f.pattern f.bits with
      | .error u => .error u
      | .ok s => .ok (s, true)) else .ok (s, false) := by
  have hdiv : ∀ n, 1 ≤ n → (s.avail / n > 0 ↔ n ≤ s.avail) := by
    intro n hn
    show 0 < s.avail / n ↔ _
    rw [Nat.div_pos_iff]; omega
  cases f with
  | flag b =>
    show writeBool e s b = _
    unfold writeBool
    by_cases hr : 1 ≤ s.avail
    · rw [if_pos ((hdiv 1 (by omega)).mpr hr)]; exact (if_pos hr).symm
    · rw [if_neg (fun hh => hr ((hdiv 1 (by omega)).mp hh))]; exact (if_neg hr).symm
  | nat W n v =>
    have hn : 1 ≤ n := h
    show write e s W v n = _
    unfold write
    rw [if_neg (by omega)]
    by_cases hr : n ≤ s.avail
    · rw [if_pos ((hdiv n hn).mpr hr)]; exact (if_pos hr).symm
    · rw [if_neg (fun hh => hr ((hdiv n hn).mp hh))]; exact (if_neg hr).symm
  | int W n v =>
    have hn : 1 ≤ n := h
    show write e s W (toUnsigned W v) n = _
    unfold write
    rw [if_neg (by omega)]
    by_cases hr : n ≤ s.avail
    · rw [if_pos ((hdiv n hn).mpr hr)]; exact (if_pos hr).symm
    · rw [if_neg (fun hh => hr ((hdiv n hn).mp hh))]; exact (if_neg hr).symm

/-- The bits of the field stand in the buffer from bit `p` on. -/
def Holds (e : Endian) (buf : Nat → Nat) (p : Nat) (f : Field) : Prop := ∀ j, j < f.bits → bitAt buf (p + j) = f.pattern.testBit (place e f.bits j)

theorem write_ok {e : Endian} {s : St} {f : Field} (hf : f.Legal) (h : WInv s) (hcb : s.cb = false) (hfit : f.bits ≤ s.avail) :
    ∃ s', writeField e s f = .ok (s', true) ∧ WInv s' ∧ pos s' = pos s + f.bits ∧ s'.avail = s.avail - f.bits ∧ s'.len = s.len ∧ s'.cb = false ∧ (∀ q, q < pos s → bitAt s'.buf q = bitAt s.buf q) ∧ Holds e s'.buf (pos s) f ∧
      (∀ b, pos s + f.bits ≤ 8 * b → s'.buf b = s.buf b) := by
  obtain ⟨h1, h2, h3, h4⟩ := hf.facts
  obtain ⟨s', g1, g2, g3, g4, g5, g6, g7, g8, g9, g10⟩ := writeData_spec (e := e) h1 h4 h2 h3 hfit h hcb
  refine ⟨s', ?_, g2, g3, g4, g5, by rw [g6, hcb], g8, g9, g10⟩
  rw [writeField_eq e s f h2, if_pos hfit]
  simp only [g1]

theorem two_pow_cast (n : Nat) : ((2 ^ n : Nat) : Int) = 2 ^ n := by norm_cast

theorem toSigned_toUnsigned {W : Nat} (hW : 1 ≤ W) {v : Int} (h1 : -2 ^ (W - 1) ≤ v) (h2 : v < 2 ^ (W - 1)) : toSigned W (toUnsigned W v) = v := by
  have hlt := toUnsigned_lt W v
  have hp : (2 : Nat) ^ W = 2 * 2 ^ (W - 1) := by
    obtain ⟨k, rfl⟩ : ∃ k, W = k + 1 := ⟨W - 1, by omega⟩
    rw [Nat.pow_succ]; simp; omega
  have c1 := two_pow_cast W
  have c2 := two_pow_cast (W - 1)
  unfold toSigned
  rw [Nat.mod_eq_of_lt hlt]
  unfold toUnsigned
  rw [← c1]
  rw [← c2] at h1 h2
  by_cases hv : 0 ≤ v
  · rw [Int.emod_eq_of_lt hv (by omega), if_pos (by omega)]; omega
  · have : v % ((2 ^ W : Nat) : Int) = v + ((2 ^ W : Nat) : Int) := by
      rw [← Int.add_emod_right, Int.emod_eq_of_lt (by omega) (by omega)]
    rw [this, if_neg (by omega)]; omega

theorem bmod_range {n : Nat} (hn : 1 ≤ n) (v : Int) : -2 ^ (n - 1) ≤ Int.bmod v (2 ^ n) ∧ Int.bmod v (2 ^ n) < 2 ^ (n - 1) := by
  have hp : (2 : Nat) ^ n = 2 * 2 ^ (n - 1) := by
    obtain ⟨k, rfl⟩ : ∃ k, n = k + 1 := ⟨n - 1, by omega⟩
    rw [Nat.pow_succ]; simp; omega
  have h1 := Int.le_bmod (x := v) (m := 2 ^ n) (Nat.two_pow_pos n)
  have h2 := Int.bmod_lt (x := v) (m := 2 ^ n) (Nat.two_pow_pos n)
  have c2 := two_pow_cast (n - 1)
  rw [← c2]
  omega

/-- the low bits of the two's complement -/
theorem toUnsigned_mod {W n : Nat} (h : n ≤ W) (v : Int) : ((toUnsigned W v % 2 ^ n : Nat) : Int) = v % ((2 ^ n : Nat) : Int) := by
  unfold toUnsigned
  have hpos : (0 : Int) < 2 ^ W := by have := Nat.two_pow_pos W; exact_mod_cast this
  rw [Int.natCast_emod, Int.toNat_of_nonneg (Int.emod_nonneg v (Int.ne_of_gt hpos)), ← two_pow_cast W]
  exact Int.emod_emod_of_dvd v (by exact_mod_cast Nat.pow_dvd_pow 2 h)

theorem low_bits {e : Endian} {u v n : Nat} (hu : u < 2 ^ n) (h : ∀ j, j < n → u.testBit (place e n j) = v.testBit (place e n j)) : u = v % 2 ^ n := by
  refine Nat.eq_of_testBit_eq (fun i => ?_)
  rw [Nat.testBit_mod_two_pow]
  by_cases hi : i < n
  · have := place_place e hi
    have h1 := h (place e n i) this.1
    rw [this.2] at h1
    simp [hi, h1]
  · have : u.testBit i = false := Nat.testBit_lt_two_pow (Nat.lt_of_lt_of_le hu (Nat.pow_le_pow_right (by decide) (by omega)))
    simp [hi, this]

theorem and_two_pow_ne (x k : Nat) : ((x &&& 2 ^ k) != 0) = x.testBit k := by
  cases h : x.testBit k with
  | true =>
    have : (x &&& 2 ^ k).testBit k = true := by simp [Nat.testBit_and, h]
    have hne : x &&& 2 ^ k ≠ 0 := by intro e; rw [e] at this; simp at this
    simp [hne]
  | false =>
    have : x &&& 2 ^ k = 0 := by
      refine Nat.eq_of_testBit_eq (fun i => ?_)
      rw [Nat.testBit_and, Nat.testBit_two_pow]
      by_cases hi : k = i
      · simp [← hi, h]
      · simp [hi]
    simp [this]

theorem read_ok {e : Endian} {s : St} {f : Field} (hf : f.Legal) (h : Inv s) (hfit : f.bits ≤ s.avail) (hh : Holds e s.buf (pos s) f) :
    ∃ s', readField e s f = .ok (s', some f.value) ∧ Inv s' ∧ pos s' = pos s + f.bits ∧ s'.avail = s.avail - f.bits ∧ s'.buf = s.buf ∧ s'.len = s.len := by
  cases f with
  | flag b =>
    have hfit' : 1 ≤ s.avail := hfit
    obtain ⟨g1, g2, g3⟩ := step_inv h (n := 1) h.lo hfit'
    have hbit := hh 0 (by simp [Field.bits])
    have hpl : place e 1 0 = 0 := by cases e <;> rfl
    have hval : ((s.buf s.idx &&& (1 <<< (s.bac - 1))) != 0) = b := by
      have e1 : (pos s + 0) / 8 = s.idx := by have := h.hi; have := h.lo; unfold pos; omega
      have e2 : 7 - (pos s + 0) % 8 = s.bac - 1 := by have := h.hi; have := h.lo; unfold pos; omega
      have e3 : (Field.flag b).pattern.testBit 0 = b := by cases b <;> rfl
      simp only [Field.bits] at hbit
      rw [hpl, e3, bitAt, e1, e2] at hbit
      rw [← hbit, Nat.one_shiftLeft, and_two_pow_ne]
    refine ⟨step s 1, ?_, g1, g2, g3, step_buf _, step_len _⟩
    have hg : getBit s = .ok (step s 1, b) := by
      unfold getBit; rw [if_pos (h.room (n := 1) (by omega) hfit'), hval]
    simp only [readField]
    unfold readBool
    rw [if_pos (by omega)]
    simp only [hg]
    rfl
  | nat W n v =>
    obtain ⟨h1, h2, h3, h4⟩ := hf
    obtain ⟨s', u, g1, g2, g3, g4, g5, g6, g7, g8⟩ := readValue_spec (e := e) (s := s) false h1 h2 h3 hfit h
    have hu : u = v % 2 ^ n := low_bits (e := e) g7 (fun j hj => by rw [g8 j hj]; exact hh j hj)
    refine ⟨s', ?_, g2, g3, g4, g6, g5⟩
    simp only [readField]
    unfold read
    rw [if_pos (show n ≤ s.avail from hfit)]
    simp only [g1, hu]
    rfl
  | int W n v =>
    obtain ⟨h1, h2, h3, h4, h5⟩ := hf
    obtain ⟨s', u, g1, g2, g3, g4, g5, g6, g7, g8⟩ := readValue_spec (e := e) (s := s) true h1 h2 h3 hfit h
    have hu : u = toUnsigned W v % 2 ^ n := low_bits (e := e) g7 (fun j hj => by rw [g8 j hj]; exact hh j hj)
    have hbm : Int.bmod (u : Int) (2 ^ n) = Int.bmod v (2 ^ n) := by
      rw [hu, toUnsigned_mod h3, Int.emod_bmod]
    have hr := bmod_range h2 v
    have hle : (2 : Nat) ^ (n - 1) ≤ 2 ^ (W - 1) := Nat.pow_le_pow_right (by decide) (by omega)
    have c1 := two_pow_cast (n - 1)
    have c2 := two_pow_cast (W - 1)
    have hs : toSigned W (toUnsigned W (Int.bmod v (2 ^ n))) = Int.bmod v (2 ^ n) := toSigned_toUnsigned (by omega) (by rw [← c2]; rw [← c1] at hr; omega) (by rw [← c2]; rw [← c1] at hr; omega)
    refine ⟨s', ?_, g2, g3, g4, g6, g5⟩
    simp only [readField]
    unfold read
    rw [if_pos (show n ≤ s.avail from hfit)]
    simp only [g1, if_true, hbm, Option.map, hs]
    rfl

/-- consecutive fields from bit `p` on -/
def HoldsAll (e : Endian) (buf : Nat → Nat) : Nat → List Field → Prop
  | _, [] => True
  | p, f :: fs => Holds e buf p f ∧ HoldsAll e buf (p + f.bits) fs
def total : List Field → Nat
  | [] => 0
  | f :: fs => f.bits + total fs

theorem writeAll_ok {e : Endian} (fs : List Field) : ∀ (s : St), (∀ f ∈ fs, f.Legal) → WInv s → s.cb = false →
    ∃ s', writeAll e s fs = .ok (s', fits s.avail fs) ∧ WInv s' ∧ s'.len = s.len ∧ s'.cb = false ∧ pos s' = pos s + total (accepted fs (fits s.avail fs)) ∧ (∀ q, q < pos s → bitAt s'.buf q = bitAt s.buf q) ∧
      HoldsAll e s'.buf (pos s) (accepted fs (fits s.avail fs)) ∧ (∀ b, pos s' ≤ 8 * b → s'.buf b = s.buf b) := by
  induction fs with
  | nil => intro s _ h hcb; exact ⟨s, rfl, h, rfl, hcb, rfl, fun _ _ => rfl, trivial, fun _ _ => rfl⟩
  | cons f fs ih =>
    intro s hl h hcb
    by_cases hfit : f.bits ≤ s.avail
    · obtain ⟨s1, g1, g2, g3, g4, g5, g6, g7, g8, g9⟩ := write_ok (e := e) (hl f List.mem_cons_self) h hcb hfit
      obtain ⟨s2, f1, f2, f3, f4, f5, f6, f7, f8⟩ := ih s1 (fun x hx => hl x (List.mem_cons_of_mem _ hx)) g2 g6
      rw [g4] at f1 f5 f7
      rw [g3] at f5 f6 f7
      have e1 : fits s.avail (f :: fs) = true :: fits (s.avail - f.bits) fs := by simp [fits, hfit]
      have e2 : accepted (f :: fs) (true :: fits (s.avail - f.bits) fs) = f :: accepted fs (fits (s.avail - f.bits) fs) := by simp [accepted]
      refine ⟨s2, ?_, f2, by rw [f3, g5], f4, ?_, ?_, ?_, ?_⟩
      · simp only [writeAll, g1, f1, e1]
      · rw [e1, e2, f5, total]; omega
      · intro q hq; rw [f6 q (by omega), g7 q hq]
      · rw [e1, e2]
        refine ⟨?_, f7⟩
        intro j hj; rw [f6 _ (by omega)]; exact g8 j hj
      · intro b hb; rw [f8 b hb, g9 b (by omega)]
    · obtain ⟨s2, f1, f2, f3, f4, f5, f6, f7, f8⟩ := ih s (fun x hx => hl x (List.mem_cons_of_mem _ hx)) h hcb
      have e1 : fits s.avail (f :: fs) = false :: fits s.avail fs := by simp [fits, hfit]
      have e2 : accepted (f :: fs) (false :: fits s.avail fs) = accepted fs (fits s.avail fs) := by simp [accepted]
      have g1 : writeField e s f = .ok (s, false) := by rw [writeField_eq e s f (hl f List.mem_cons_self).facts.2.1, if_neg hfit]
      exact ⟨s2, by simp only [writeAll, g1, f1, e1], f2, f3, f4, by rw [e1, e2, f5], f6, by rw [e1, e2]; exact f7, f8⟩

theorem readAll_ok {e : Endian} (fs : List Field) : ∀ (s : St), (∀ f ∈ fs, f.Legal) → Inv s → total fs ≤ s.avail → HoldsAll e s.buf (pos s) fs → ∃ s', readAll e s fs = .ok (s', fs.map (fun f => some f.value)) ∧ Inv s' ∧ pos s' = pos s + total fs ∧ s'.buf = s.buf ∧ s'.len = s.len := by
  induction fs with
  | nil => intro s _ h _ _; exact ⟨s, rfl, h, rfl, rfl, rfl⟩
  | cons f fs ih =>
    intro s hl h ht hh
    obtain ⟨s1, g1, g2, g3, g4, g5, g6⟩ := read_ok (hl f List.mem_cons_self) h (by simp only [total] at ht; omega) hh.1
    obtain ⟨s2, f1, f2, f3, f4, f5⟩ := ih s1 (fun x hx => hl x (List.mem_cons_of_mem _ hx)) g2 (by simp only [total] at ht; omega) (by rw [g5, g3]; exact hh.2)
    exact ⟨s2, by simp only [readAll, g1, f1, List.map_cons], f2, by simp only [total]; omega, f4.trans g5, f5.trans g6⟩

theorem accepted_mem {fs : List Field} {bs : List Bool} {f : Field} (h : f ∈ accepted fs bs) : f ∈ fs := by
  induction fs generalizing bs with
  | nil => simp [accepted] at h
  | cons x fs ih =>
    cases bs with
    | nil => simp [accepted] at h
    | cons b bs =>
      simp only [accepted] at h
      split_ifs at h
      · rcases List.mem_cons.mp h with e | e
        · exact e ▸ List.mem_cons_self
        · exact List.mem_cons_of_mem _ (ih e)
      · exact List.mem_cons_of_mem _ (ih h)

/-! ### Theorems -/

/-- C24: on a buffer of `len` bytes with any old contents, write any sequence of fields: exactly those are refused that do not fit, and a reader on the buffer reads the accepted ones back, for both endiannesses. -/
theorem C24_round_trip (e : Endian) (buf : Nat → Nat) (len : Nat) (fs : List Field) (hl : ∀ f ∈ fs, f.Legal) :
    ∃ w r, writeAll e (start buf len) fs = .ok (w, fits (8 * len) fs) ∧
      readAll e (start w.buf len) (accepted fs (fits (8 * len) fs)) = .ok (r, (accepted fs (fits (8 * len) fs)).map (fun f => some f.value)) := by
  obtain ⟨w, g1, g2, g3, g4, g5, g6, g7, g8⟩ := writeAll_ok (e := e) fs (start buf len) hl (start_inv _ _ _) rfl
  have hp : pos (start buf len) = 0 := by simp [pos, start]
  have hp' : pos (start w.buf len) = 0 := by simp [pos, start]
  have ha : (start buf len).avail = 8 * len := rfl
  rw [ha] at g1 g5 g7
  rw [hp] at g5 g7
  obtain ⟨r, f1, f2, f3, _⟩ := readAll_ok (e := e) (accepted fs (fits (8 * len) fs)) (start w.buf len) (fun f hf => hl f (accepted_mem hf)) (start_inv _ _ false).toInv (by
    have := g2.total
    have hlen : w.len = len := g3
    show _ ≤ 8 * len
    omega) (by rw [hp']; exact g7)
  exact ⟨w, r, g1, f1⟩

/-- C24: the sizes a writer reports: the bits of the accepted fields, the bytes they need, and full exactly if no bit is left. -/
theorem C24_sizes (e : Endian) (buf : Nat → Nat) (len : Nat) (fs : List Field) (hl : ∀ f ∈ fs, f.Legal) :
    ∃ w, writeAll e (start buf len) fs = .ok (w, fits (8 * len) fs) ∧ sizeBits w = total (accepted fs (fits (8 * len) fs)) ∧
      8 * sizeBytes w < total (accepted fs (fits (8 * len) fs)) + 8 ∧ total (accepted fs (fits (8 * len) fs)) ≤ 8 * sizeBytes w ∧
      (full w = true ↔ total (accepted fs (fits (8 * len) fs)) = 8 * len) ∧ total (accepted fs (fits (8 * len) fs)) ≤ 8 * len ∧
      (∀ b, sizeBytes w ≤ b → w.buf b = buf b) := by
  obtain ⟨w, g1, g2, g3, g4, g5, g6, g7, g8⟩ := writeAll_ok (e := e) fs (start buf len) hl (start_inv _ _ _) rfl
  have hp : pos (start buf len) = 0 := by simp [pos, start]
  have ha : (start buf len).avail = 8 * len := rfl
  have hlen : w.len = len := g3
  rw [ha] at g1 g5 g7
  rw [hp, Nat.zero_add] at g5
  have ht := g2.total
  have h1 := g2.lo
  have h2 := g2.hi
  have hpos : pos w = 8 * w.idx + (8 - w.bac) := rfl
  have hsz : sizeBytes w = w.idx + (if w.bac = 8 then 0 else 1) := by unfold sizeBytes; by_cases h : w.bac = 8 <;> simp [h]
  refine ⟨w, g1, ?_, ?_, ?_, ?_, by omega, ?_⟩
  · show 8 * w.len - w.avail = _; omega
  · rw [hsz]; split <;> omega
  · rw [hsz]; split <;> omega
  · show (w.avail == 0) = true ↔ _
    rw [beq_iff_eq]; omega
  · intro b hb
    refine g8 b ?_
    rw [hsz] at hb
    split at hb <;> omega

/-- A value that fits in its bits is read back as it is. -/
theorem value_nat {W n v : Nat} (h : v < 2 ^ n) : (Field.nat W n v).value = .nat v := by simp [Field.value, Nat.mod_eq_of_lt h]
theorem value_int {W n : Nat} {v : Int} (hn : 1 ≤ n) (h1 : -2 ^ (n - 1) ≤ v) (h2 : v < 2 ^ (n - 1)) : (Field.int W n v).value = .int v := by
  have hp : (2 : Nat) ^ n = 2 * 2 ^ (n - 1) := by
    obtain ⟨k, rfl⟩ : ∃ k, n = k + 1 := ⟨n - 1, by omega⟩
    rw [Nat.pow_succ]; simp; omega
  have c1 := two_pow_cast (n - 1)
  rw [← c1] at h1 h2
  simp only [Field.value]
  rw [Int.bmod_eq_of_le (by omega) (by omega)]

/-- C24: a write that does not fit answers `false` and changes nothing; this is so in any state. -/
theorem C24_refused (e : Endian) (s : St) (f : Field) (hf : f.Legal) (h : s.avail < f.bits) : writeField e s f = .ok (s, false) := by
  rw [writeField_eq e s f hf.facts.2.1, if_neg (by omega)]

/-- C24, the wire format: bit `j` of a field is bit `n - 1 - j` of the value for big endian, bit `j` for little endian; one field follows the other without gaps and nothing behind the last byte is touched. -/
theorem C24_layout (e : Endian) (buf : Nat → Nat) (len : Nat) (fs : List Field) (f : Field) (hl : ∀ g ∈ fs, g.Legal) (hf : f.Legal) (hfit : total (accepted fs (fits (8 * len) fs)) + f.bits ≤ 8 * len) :
    ∃ w w', writeAll e (start buf len) fs = .ok (w, fits (8 * len) fs) ∧ writeField e w f = .ok (w', true) ∧
      (∀ j, j < f.bits → bitAt w'.buf (total (accepted fs (fits (8 * len) fs)) + j) = f.pattern.testBit (match e with | .big => f.bits - 1 - j | .little => j)) ∧
      (∀ q, q < total (accepted fs (fits (8 * len) fs)) → bitAt w'.buf q = bitAt w.buf q) ∧ (∀ b, total (accepted fs (fits (8 * len) fs)) + f.bits ≤ 8 * b → w'.buf b = buf b) := by
  obtain ⟨w, g1, g2, g3, g4, g5, g6, g7, g8⟩ := writeAll_ok (e := e) fs (start buf len) hl (start_inv _ _ _) rfl
  have hp : pos (start buf len) = 0 := by simp [pos, start]
  have ha : (start buf len).avail = 8 * len := rfl
  rw [ha] at g1 g5 g7
  rw [hp, Nat.zero_add] at g5
  have ht := g2.total
  have hlen : w.len = len := g3
  obtain ⟨w', f1, f2, f3, f4, f5, f6, f7, f8, f9⟩ := write_ok (e := e) hf g2 g4 (by rw [hlen] at ht; omega)
  refine ⟨w, w', g1, f1, ?_, ?_, ?_⟩
  · intro j hj
    have := f8 j hj
    rw [g5] at this
    cases e <;> exact this
  · intro q hq; exact f7 q (by rw [g5]; exact hq)
  · intro b hb; rw [f9 b (by rw [g5]; exact hb), g8 b (by rw [g5]; omega)]; rfl

/-- C24, reading: on any buffer, any sequence of reads stays inside the buffer; a read that asks for more bits than are left gives nothing and moves nothing. -/
theorem C24_reader_safe (e : Endian) (buf : Nat → Nat) (len : Nat) (fs : List Field) (hl : ∀ f ∈ fs, f.Legal) :
    ∃ r os, readAll e (start buf len) fs = .ok (r, os) ∧ os.map Option.isSome = fits (8 * len) fs := by
  have go : ∀ (fs : List Field) (s : St), (∀ f ∈ fs, f.Legal) → Inv s → ∃ r os, readAll e s fs = .ok (r, os) ∧ os.map Option.isSome = fits s.avail fs := by
    intro fs
    induction fs with
    | nil => intro s _ _; exact ⟨s, [], rfl, rfl⟩
    | cons f fs ih =>
      intro s hl h
      have hl' : ∀ x ∈ fs, x.Legal := fun x hx => hl x (List.mem_cons_of_mem _ hx)
      obtain ⟨h1, h2, h3, h4⟩ := (hl f List.mem_cons_self).facts
      by_cases hfit : f.bits ≤ s.avail
      · have hone : ∃ s1 v, readField e s f = .ok (s1, some v) ∧ Inv s1 ∧ s1.avail = s.avail - f.bits := by
          cases f with
          | flag b =>
            have hfit' : 1 ≤ s.avail := hfit
            obtain ⟨g1, g2, g3⟩ := step_inv h (n := 1) h.lo hfit'
            refine ⟨step s 1, .flag ((s.buf s.idx &&& (1 <<< (s.bac - 1))) != 0), ?_, g1, g3⟩
            have hg : getBit s = .ok (step s 1, ((s.buf s.idx &&& (1 <<< (s.bac - 1))) != 0)) := by
              unfold getBit; rw [if_pos (h.room (n := 1) (by omega) hfit')]
            simp only [readField]
            unfold readBool
            rw [if_pos (by omega)]
            simp only [hg]
            rfl
          | nat W n v =>
            obtain ⟨s', u, g1, g2, g3, g4, _⟩ := readValue_spec (e := e) (s := s) false h1 h2 h3 hfit h
            refine ⟨s', .nat u, ?_, g2, g4⟩
            simp only [readField]
            unfold read
            rw [if_pos (show n ≤ s.avail from hfit)]
            have g1' : readValue e false s W n = .ok (s', u) := g1
            simp only [g1']
            rfl
          | int W n v =>
            obtain ⟨s', u, g1, g2, g3, g4, _⟩ := readValue_spec (e := e) (s := s) true h1 h2 h3 hfit h
            refine ⟨s', .int (toSigned W (toUnsigned W (Int.bmod u (2 ^ n)))), ?_, g2, g4⟩
            simp only [readField]
            unfold read
            rw [if_pos (show n ≤ s.avail from hfit)]
            have g1' : readValue e true s W n = .ok (s', toUnsigned W (Int.bmod u (2 ^ n))) := g1
            simp only [g1']
            rfl
        obtain ⟨s1, v, g1, g2, g3⟩ := hone
        obtain ⟨r, os, f1, f2⟩ := ih s1 hl' g2
        refine ⟨r, some v :: os, by simp only [readAll, g1, f1], ?_⟩
        rw [g3] at f2
        simp [fits, hfit, f2]
      · have g1 : readField e s f = .ok (s, none) := by
          cases f with
          | flag b =>
            have hfit' : ¬ s.avail > 0 := fun hh => hfit (by show 1 ≤ s.avail; omega)
            simp only [readField]
            unfold readBool; rw [if_neg hfit']; rfl
          | nat W n v =>
            have hfit' : ¬ n ≤ s.avail := hfit
            simp only [readField]
            unfold read; rw [if_neg hfit']; rfl
          | int W n v =>
            have hfit' : ¬ n ≤ s.avail := hfit
            simp only [readField]
            unfold read; rw [if_neg hfit']; rfl
        obtain ⟨r, os, f1, f2⟩ := ih s hl' h
        exact ⟨r, none :: os, by simp only [readAll, g1, f1], by simp [fits, hfit, f2]⟩
  obtain ⟨r, os, g1, g2⟩ := go fs (start buf len) hl (start_inv _ _ false).toInv
  exact ⟨r, os, g1, g2⟩

theorem total_append (a b : List Field) : total (a ++ b) = total a + total b := by
  induction a with
  | nil => simp [total]
  | cons f fs ih => simp only [List.cons_append, total, ih]; omega
theorem holdsAll_append {e : Endian} {buf : Nat → Nat} {p : Nat} {a b : List Field} (h : HoldsAll e buf p (a ++ b)) : HoldsAll e buf p a ∧ HoldsAll e buf (p + total a) b := by
  induction a generalizing p with
  | nil => exact ⟨trivial, h⟩
  | cons f fs ih =>
    obtain ⟨h1, h2⟩ := h
    obtain ⟨h3, h4⟩ := ih h2
    refine ⟨⟨h1, h3⟩, ?_⟩
    rw [total, ← Nat.add_assoc]; exact h4

theorem skipLoopR_ok (fuel : Nat) : ∀ (n : Nat) (s : St), n < fuel → n ≤ s.avail → Inv s → ∃ m s', skipLoopR fuel n s = .ok (m, s') ∧ m ≤ s'.bac ∧ m ≤ s'.avail ∧ Inv s' ∧ pos s' + m = pos s + n ∧ s'.buf = s.buf ∧ s'.len = s.len := by
  induction fuel with
  | zero => intro n s h; omega
  | succ fuel ih =>
    intro n s h1 h2 h
    have hlo := h.lo
    by_cases hn : n > s.bac
    · obtain ⟨g1, g2, g3⟩ := step_inv h (n := s.bac) (Nat.le_refl _) (by omega)
      obtain ⟨m, s', f1, f2, f3, f4, f5, f6, f7⟩ := ih (n - s.bac) (step s s.bac) (by omega) (by omega) g1
      refine ⟨m, s', ?_, f2, f3, f4, by omega, by rw [f6, step_buf], by rw [f7, step_len]⟩
      simp only [skipLoopR]; rw [if_pos hn]; exact f1
    · exact ⟨n, s, by simp only [skipLoopR]; rw [if_neg hn], by omega, h2, h, rfl, rfl, rfl⟩
theorem skipR_ok {s : St} {n : Nat} (h : Inv s) (ha : n ≤ s.avail) : ∃ s', skipR s n = .ok (s', true) ∧ Inv s' ∧ pos s' = pos s + n ∧ s'.buf = s.buf ∧ s'.len = s.len := by
  obtain ⟨m, s1, f1, f2, f3, f4, f5, f6, f7⟩ := skipLoopR_ok (n + 1) n s (by omega) ha h
  by_cases hm : m ≠ 0
  · obtain ⟨g1, g2, g3⟩ := step_inv f4 (n := m) f2 f3
    refine ⟨step s1 m, ?_, g1, by omega, by rw [step_buf, f6], by rw [step_len, f7]⟩
    unfold skipR
    rw [if_pos ha]
    simp only [f1]
    rw [if_pos hm]
  · refine ⟨s1, ?_, f4, by omega, f6, f7⟩
    unfold skipR
    rw [if_pos ha]
    simp only [f1]
    rw [if_neg hm]

/-- C24, skipping while reading: of the accepted fields read any first part, skip the bits of the next ones, and the rest reads back as written; a skip over the end answers `false` and moves nothing. -/
theorem C24_reader_skip (e : Endian) (buf : Nat → Nat) (len : Nat) (fs pre mid post : List Field) (hl : ∀ f ∈ fs, f.Legal) (hs : accepted fs (fits (8 * len) fs) = pre ++ (mid ++ post)) :
    ∃ w r1 r2 r3, writeAll e (start buf len) fs = .ok (w, fits (8 * len) fs) ∧
      readAll e (start w.buf len) pre = .ok (r1, pre.map (fun f => some f.value)) ∧
      skipR r1 (total mid) = .ok (r2, true) ∧
      readAll e r2 post = .ok (r3, post.map (fun f => some f.value)) ∧
      ∀ n, 8 * len < total pre + n → skipR r1 n = .ok (r1, false) := by
  obtain ⟨w, g1, g2, g3, g4, g5, g6, g7, g8⟩ := writeAll_ok (e := e) fs (start buf len) hl (start_inv _ _ _) rfl
  have hp : pos (start buf len) = 0 := by simp [pos, start]
  have hp' : pos (start w.buf len) = 0 := by simp [pos, start]
  have ha : (start buf len).avail = 8 * len := rfl
  rw [ha] at g1 g5 g7
  rw [hp] at g5 g7
  rw [hs] at g5 g7
  have hmem : ∀ f, f ∈ pre ++ (mid ++ post) → f.Legal := fun f hf => hl f (accepted_mem (hs ▸ hf))
  obtain ⟨a1, a2⟩ := holdsAll_append g7
  obtain ⟨a3, a4⟩ := holdsAll_append a2
  have ht := g2.total
  have hlen : w.len = len := g3
  rw [hlen] at ht
  rw [total_append, total_append] at g5
  obtain ⟨r1, f1, f2, f3, f4, f5⟩ := readAll_ok (e := e) pre (start w.buf len) (fun f hf => hmem f (List.mem_append_left _ hf)) (start_inv _ _ false).toInv (by show _ ≤ 8 * len; omega) (by rw [hp']; exact a1)
  have t1 := f2.total
  have hl1 : r1.len = len := f5
  rw [hl1] at t1
  obtain ⟨r2, b1, b2, b3, b4, b5⟩ := skipR_ok (s := r1) (n := total mid) f2 (by omega)
  have t2 := b2.total
  rw [b5, hl1] at t2
  obtain ⟨r3, c1, c2, c3, c4, c5⟩ := readAll_ok (e := e) post r2 (fun f hf => hmem f (List.mem_append_right _ (List.mem_append_right _ hf))) b2 (by omega) (by
    rw [b4, f4, b3, f3, hp']; exact a4)
  refine ⟨w, r1, r2, r3, g1, f1, b1, c1, ?_⟩
  intro n hn
  unfold skipR
  rw [if_neg (by omega)]

/-! ### Examples and findings -/

/-- write, then read back on the model -/
def roundTrip (e : Endian) (buf : Nat → Nat) (len : Nat) (fs : List Field) : Res (List Bool × List (Option Val)) := match writeAll e (start buf len) fs with
  | .error u => .error u
  | .ok (w, bs) => match readAll e (start w.buf len) (accepted fs bs) with
    | .error u => .error u
    | .ok (_, vs) => .ok (bs, vs)

/-- fields across byte borders, signs, a value that is cut, one that does not fit; the buffer is full of old ones -/
example : roundTrip .big (fun _ => 255) 6 [.flag true, .int 16 11 (-300), .nat 8 3 13, .nat 64 40 5, .nat 32 31 0x12345678, .flag false] =
    .ok ([true, true, true, false, true, true], [some (.flag true), some (.int (-300)), some (.nat 5), some (.nat 0x12345678), some (.flag false)]) := by decide +kernel
example : roundTrip .little (fun _ => 255) 6 [.flag true, .int 16 11 (-300), .nat 8 3 13, .nat 64 40 5, .nat 32 31 0x12345678, .flag false] =
    .ok ([true, true, true, false, true, true], [some (.flag true), some (.int (-300)), some (.nat 5), some (.nat 0x12345678), some (.flag false)]) := by decide +kernel
example : ∀ f ∈ [Field.flag true, .int 16 11 (-300), .nat 8 3 13, .nat 64 40 5, .nat 32 31 0x12345678], f.Legal := by
  simp [Field.Legal, IsWidth]

/-- FINDING: `skip` of the writer inside a byte: three bits are used, seven are to be skipped; five are skipped, then eight instead of five are subtracted: the rest wraps below zero. -/
theorem writer_skip_unaligned_wraps : (match write .big (start (fun _ => 0) 4) 8 5 3 with
    | .ok (s, _) => (match skipW s 7 with | .error .overflow => true | _ => false)
    | _ => false) = true := by decide +kernel
/-- and when it does not wrap it skips too little: 3 bits used, 14 to skip: the place afterwards is 14 and not 17 -/
theorem writer_skip_unaligned_wrong : (match write .big (start (fun _ => 0) 4) 8 5 3 with
    | .ok (s, _) => (match skipW s 14 with | .ok (s', true) => pos s == 3 && pos s' == 14 | _ => false)
    | _ => false) = true := by decide +kernel
/-- FINDING: after a skip into a byte the next write does not clear it: old contents of the buffer are mixed into the value. -/
theorem write_after_skip_mixes : (match skipW (start (fun _ => 255) 4) 3 with
    | .ok (s, _) => (match write .big s 8 0 5 with
      | .ok (w, true) => (match skipR (start w.buf 4) 3 with
        | .ok (r, true) => (match read .big false r 8 5 with | .ok (_, some v) => v == 31 | _ => false)
        | _ => false)
      | _ => false)
    | _ => false) = true := by decide +kernel
/-- FINDING: `empty()` compares bits with bytes: a new writer is not empty, a writer with 28 of 32 bits used is. -/
theorem empty_wrong : empty (start (fun _ => 0) 4) = false ∧ (match write .big (start (fun _ => 0) 4) 32 0 28 with | .ok (s, true) => empty s | _ => false) = true := by decide +kernel
/-- FINDING: with a callback, a write that fills the buffer to the last bit reads the byte behind the buffer. -/
theorem callback_full_out_of_bounds : (match write .big (start (fun _ => 0) 4 true) 32 1 32 with | .error .outOfBounds => true | _ => false) = true := by decide +kernel
/-- FINDING: `flush()` with nothing pending gives the callback a byte. -/
theorem flush_nothing_sends : (match flush (start (fun _ => 7) 4 true) with | .ok s => s.out == [7] | _ => false) = true := by decide +kernel
/-- FINDING: a width of zero divides by zero. -/
theorem write_zero_bits_undefined (s : St) : write .big s 8 0 0 = .error .divByZero := rfl

end Etl.BitStream
