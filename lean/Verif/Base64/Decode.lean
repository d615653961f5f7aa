import Verif.Base64.Props
import Mathlib.Tactic.Tauto
/-!
# C22 (decoder half) and C55 (what the decoder accepts)
-/
namespace Etl.Base64

/-! ## Specification -/

/-- The six bits of a sextet, most significant first. -/
def sixBits (n : Nat) : List Bool := (List.range 6).map fun i => n.testBit (5 - i)

/-- A bit stream cut into whole bytes; left-over bits are dropped. -/
def bytesOf : List Bool → List Byte
  | b0 :: b1 :: b2 :: b3 :: b4 :: b5 :: b6 :: b7 :: rest => BitVec.ofNat 8 (bitsVal [b0, b1, b2, b3, b4, b5, b6, b7]) :: bytesOf rest
  | _ => []

/-- The bytes denoted by a base64 text: padding is removed, each character stands for its six bit position in the alphabet. -/
def rfcDecode (t : List Char) (s : List Char) : List Byte := bytesOf ((s.takeWhile (· ≠ '=')).flatMap fun c => sixBits (t.idxOf c))

/-- The texts the decoder accepts: data characters, then only `=`; every data character is in the alphabet (a single left-over character
after the last whole group of four carries no byte and is not examined by the code). -/
def Valid (t : List Char) (s : List Char) : Prop :=
  let core := s.takeWhile (· ≠ '=')
  (∀ c ∈ s.dropWhile (· ≠ '='), c = '=') ∧ ∀ c ∈ (if core.length % 4 = 1 then core.dropLast else core), c ∈ t

/-- What the three supplied alphabets satisfy. -/
structure Alphabet (t : List Char) : Prop where
  length : t.length = 64
  nodup : t.Nodup
  noPad : '=' ∉ t

theorem charset1_ok : Alphabet charset1 := ⟨by decide +kernel, by decide +kernel, by decide +kernel⟩
theorem charset2_ok : Alphabet charset2 := ⟨by decide +kernel, by decide +kernel, by decide +kernel⟩
theorem charset3_ok : Alphabet charset3 := ⟨by decide +kernel, by decide +kernel, by decide +kernel⟩

/-! ## Bits -/

def tb (n i : Nat) : Bool := n.testBit (5 - i)
theorem sixBits_eq (n : Nat) : sixBits n = [tb n 0, tb n 1, tb n 2, tb n 3, tb n 4, tb n 5] := rfl

theorem t6 : ∀ n : Fin 64, bitsVal [tb n 0, tb n 1, tb n 2, tb n 3, tb n 4, tb n 5] = n := by decide +kernel
theorem th2 : ∀ n : Fin 64, bitsVal [tb n 0, tb n 1] = n / 16 := by decide +kernel
theorem tl4 : ∀ n : Fin 64, bitsVal [tb n 2, tb n 3, tb n 4, tb n 5] = n % 16 := by decide +kernel
theorem th4 : ∀ n : Fin 64, bitsVal [tb n 0, tb n 1, tb n 2, tb n 3] = n / 4 := by decide +kernel
theorem tl2 : ∀ n : Fin 64, bitsVal [tb n 4, tb n 5] = n % 4 := by decide +kernel

theorem bytes1 {x y : Nat} (hx : x < 64) (hy : y < 64) : bitsVal [tb x 0, tb x 1, tb x 2, tb x 3, tb x 4, tb x 5, tb y 0, tb y 1] = x * 4 + y / 16 := by
  have := bitsVal_append [tb x 0, tb x 1, tb x 2, tb x 3, tb x 4, tb x 5] [tb y 0, tb y 1]
  have h1 := t6 ⟨x, hx⟩; have h2 := th2 ⟨y, hy⟩
  simp only at h1 h2
  rw [h1, h2] at this; exact this
theorem bytes2 {x y : Nat} (hx : x < 64) (hy : y < 64) : bitsVal [tb x 2, tb x 3, tb x 4, tb x 5, tb y 0, tb y 1, tb y 2, tb y 3] = x % 16 * 16 + y / 4 := by
  have := bitsVal_append [tb x 2, tb x 3, tb x 4, tb x 5] [tb y 0, tb y 1, tb y 2, tb y 3]
  have h1 := tl4 ⟨x, hx⟩; have h2 := th4 ⟨y, hy⟩
  simp only at h1 h2
  rw [h1, h2] at this; exact this
theorem bytes3 {x y : Nat} (hx : x < 64) (hy : y < 64) : bitsVal [tb x 4, tb x 5, tb y 0, tb y 1, tb y 2, tb y 3, tb y 4, tb y 5] = x % 4 * 64 + y := by
  have := bitsVal_append [tb x 4, tb x 5] [tb y 0, tb y 1, tb y 2, tb y 3, tb y 4, tb y 5]
  have h1 := tl2 ⟨x, hx⟩; have h2 := t6 ⟨y, hy⟩
  simp only at h1 h2
  rw [h1, h2] at this; exact this

/-- the bytes of a group of characters -/
def dec2 (x y : Nat) : List Byte := [BitVec.ofNat 8 (x * 4 + y / 16)]
def dec3 (x y z : Nat) : List Byte := [BitVec.ofNat 8 (x * 4 + y / 16), BitVec.ofNat 8 (y % 16 * 16 + z / 4)]
def dec4 (x y z u : Nat) : List Byte := [BitVec.ofNat 8 (x * 4 + y / 16), BitVec.ofNat 8 (y % 16 * 16 + z / 4), BitVec.ofNat 8 (z % 4 * 64 + u)]

theorem bytesOf4 {x y z u : Nat} (hx : x < 64) (hy : y < 64) (hz : z < 64) (hu : u < 64) (r : List Bool) :
    bytesOf (sixBits x ++ (sixBits y ++ (sixBits z ++ (sixBits u ++ r)))) = dec4 x y z u ++ bytesOf r := by
  simp only [sixBits_eq, List.cons_append, List.nil_append, bytesOf, bytes1 hx hy, bytes2 hy hz, bytes3 hz hu, dec4]
theorem bytesOf3 {x y z : Nat} (hx : x < 64) (hy : y < 64) (hz : z < 64) : bytesOf (sixBits x ++ (sixBits y ++ (sixBits z ++ []))) = dec3 x y z := by
  simp only [sixBits_eq, List.cons_append, List.nil_append, bytesOf, bytes1 hx hy, bytes2 hy hz, dec3]
theorem bytesOf2 {x y : Nat} (hx : x < 64) (hy : y < 64) : bytesOf (sixBits x ++ (sixBits y ++ [])) = dec2 x y := by
  simp only [sixBits_eq, List.cons_append, List.nil_append, bytesOf, bytes1 hx hy, dec2]
theorem bytesOf1 (x : Nat) : bytesOf (sixBits x ++ []) = [] := by simp only [sixBits_eq, List.cons_append, List.nil_append, bytesOf]

theorem idx_lt {t : List Char} (ht : t.length = 64) {c : Char} : c ∈ t ↔ t.idxOf c < 64 := by rw [← ht]; exact List.idxOf_lt_length_iff.symm

/-! ## The decoder, block by block -/

/-- the state reached by looking up a character that is in the alphabet, or not -/
theorem getIndex_ok (d : Dec) (c : Char) (h : d.table.idxOf c < 64) : getIndex d c = (d, d.table.idxOf c) := by unfold getIndex; simp only [h, if_true]
theorem getIndex_bad (d : Dec) (c : Char) (h : ¬ d.table.idxOf c < 64) : getIndex d c = ({ d with invalid := true }, 0) := by unfold getIndex; simp only [h, if_false]
theorem getIndex_inv (d : Dec) (c : Char) (h : d.invalid = true) : (getIndex d c).1.invalid = true := by unfold getIndex; simp only; split <;> simp [h]
theorem getIndex_table (d : Dec) (c : Char) : (getIndex d c).1.table = d.table := by unfold getIndex; simp only; split <;> rfl
theorem getIndex_bad1 (d : Dec) (c : Char) (h : ¬ d.table.idxOf c < 64) : (getIndex d c).1.invalid = true := by rw [getIndex_bad d c h]
theorem dpush_inv (d : Dec) (x : Nat) : (d.push x).invalid = d.invalid := rfl

theorem or3 {x y z : Nat} (hy : y < 64) (hz : z < 64) : ((x <<< 12) ||| (y <<< 6)) ||| z = x * 4096 + y * 64 + z := by
  have e : (x <<< 12) ||| (y <<< 6) = (x * 64 + y) <<< 6 := by
    rw [or_add (by rw [Nat.shiftLeft_eq]; omega), Nat.shiftLeft_eq, Nat.shiftLeft_eq]; omega
  rw [e, or_add (by omega)]; omega
theorem or4 {x y z u : Nat} (hy : y < 64) (hz : z < 64) (hu : u < 64) : (((x <<< 18) ||| (y <<< 12)) ||| (z <<< 6)) ||| u = x * 262144 + y * 4096 + z * 64 + u := by
  have e : (x <<< 18) ||| (y <<< 12) = (x * 64 + y) <<< 12 := by
    rw [or_add (by rw [Nat.shiftLeft_eq]; omega), Nat.shiftLeft_eq, Nat.shiftLeft_eq]; omega
  rw [e, or3 hz hu]; omega

def dpushAll (d : Dec) (l : List Byte) : Dec := { d with out := pushAll d.out l }

/-- the bytes produced from the characters in the input buffer -/
def decGroup (t : List Char) : List Char → List Byte
  | [a, b] => dec2 (t.idxOf a) (t.idxOf b)
  | [a, b, c] => dec3 (t.idxOf a) (t.idxOf b) (t.idxOf c)
  | [a, b, c, e] => dec4 (t.idxOf a) (t.idxOf b) (t.idxOf c) (t.idxOf e)
  | _ => []

theorem dpush_ofNat (d : Dec) (x y : Nat) (h : x % 256 = y % 256) : d.push x = dpushAll d [BitVec.ofNat 8 y] := by
  unfold Dec.push dpushAll pushAll
  have : BitVec.ofNat 8 (y % 256) = BitVec.ofNat 8 y := by apply BitVec.eq_of_toNat_eq; simp
  rw [and255, h, this]
  rfl

theorem decodeBlock_good (d : Dec) (ho : d.inp.length ≠ 1) (hl : d.inp.length ≤ 4) (h : ∀ c ∈ d.inp, d.table.idxOf c < 64) :
    (decodeBlock d).1 = dpushAll d (decGroup d.table d.inp) := by
  obtain ⟨t, inp, out, inv, pd⟩ := d
  simp only at ho hl h
  match inp, ho, hl, h with
  | [], _, _, _ => rfl
  | [a, b], _, _, h =>
    have g : ∀ q, t.idxOf q < 64 → getIndex ⟨t, [a, b], out, inv, pd⟩ q = (⟨t, [a, b], out, inv, pd⟩, t.idxOf q) := fun q hq => getIndex_ok ⟨t, [a, b], out, inv, pd⟩ q hq
    have ha := h a (by simp); have hb := h b (by simp)
    simp only [decodeBlock, g _ ha, g _ hb, decGroup, dec2]
    rw [or_add (by omega)]
    rw [dpush_ofNat _ _ (t.idxOf a * 4 + t.idxOf b / 16) (by rw [Nat.shiftRight_eq_div_pow]; congr 1; omega)]
  | [a, b, c], _, _, h =>
    have g : ∀ q, t.idxOf q < 64 → getIndex ⟨t, [a, b, c], out, inv, pd⟩ q = (⟨t, [a, b, c], out, inv, pd⟩, t.idxOf q) := fun q hq => getIndex_ok ⟨t, [a, b, c], out, inv, pd⟩ q hq
    have ha := h a (by simp); have hb := h b (by simp); have hc := h c (by simp)
    simp only [decodeBlock, g _ ha, g _ hb, g _ hc, decGroup, dec3]
    rw [or3 hb hc]
    generalize t.idxOf a = x at *; generalize t.idxOf b = y at *; generalize t.idxOf c = z at *
    rw [dpush_ofNat _ ((x * 4096 + y * 64 + z) >>> 10) (x * 4 + y / 16) (by rw [Nat.shiftRight_eq_div_pow]; omega),
      dpush_ofNat _ ((x * 4096 + y * 64 + z) >>> 2) (y % 16 * 16 + z / 4) (by rw [Nat.shiftRight_eq_div_pow]; omega)]
    rfl
  | [a, b, c, e], _, _, h =>
    have g : ∀ q, t.idxOf q < 64 → getIndex ⟨t, [a, b, c, e], out, inv, pd⟩ q = (⟨t, [a, b, c, e], out, inv, pd⟩, t.idxOf q) := fun q hq => getIndex_ok ⟨t, [a, b, c, e], out, inv, pd⟩ q hq
    have ha := h a (by simp); have hb := h b (by simp); have hc := h c (by simp); have he := h e (by simp)
    simp only [decodeBlock, g _ ha, g _ hb, g _ hc, g _ he, decGroup, dec4]
    rw [or4 hb hc he]
    generalize t.idxOf a = x at *; generalize t.idxOf b = y at *; generalize t.idxOf c = z at *; generalize t.idxOf e = u at *
    rw [dpush_ofNat _ ((x * 262144 + y * 4096 + z * 64 + u) >>> 16) (x * 4 + y / 16) (by rw [Nat.shiftRight_eq_div_pow]; omega),
      dpush_ofNat _ ((x * 262144 + y * 4096 + z * 64 + u) >>> 8) (y % 16 * 16 + z / 4) (by rw [Nat.shiftRight_eq_div_pow]; omega),
      dpush_ofNat _ ((x * 262144 + y * 4096 + z * 64 + u) >>> 0) (z % 4 * 64 + u) (by rw [Nat.shiftRight_eq_div_pow]; omega)]
    rfl

theorem decodeBlock_bad (d : Dec) (ho : d.inp.length ≠ 1) (hl : d.inp.length ≤ 4) (h : ¬ ∀ c ∈ d.inp, d.table.idxOf c < 64) : (decodeBlock d).1.invalid = true := by
  obtain ⟨t, inp, out, inv, pd⟩ := d
  simp only at ho hl h
  have key : ∀ (d : Dec) (c : Char), (d.invalid = true ∨ ¬ d.table.idxOf c < 64) → (getIndex d c).1.invalid = true := by
    intro d c hh
    rcases hh with hh | hh
    · exact getIndex_inv d c hh
    · exact getIndex_bad1 d c hh
  match inp, ho, hl, h with
  | [], _, _, h => exact absurd (by simp) h
  | [a, b], _, _, h =>
    simp only [List.mem_cons, List.not_mem_nil, or_false, forall_eq_or_imp, forall_eq] at h
    simp only [decodeBlock, dpush_inv]
    apply key
    rw [getIndex_table]
    by_cases ha : t.idxOf a < 64
    · right; simp only; tauto
    · left; exact getIndex_bad1 _ _ ha
  | [a, b, c], _, _, h =>
    simp only [List.mem_cons, List.not_mem_nil, or_false, forall_eq_or_imp, forall_eq] at h
    simp only [decodeBlock, dpush_inv]
    apply key
    rw [getIndex_table, getIndex_table]
    by_cases hc : t.idxOf c < 64
    · left; apply key; rw [getIndex_table]
      by_cases ha : t.idxOf a < 64
      · right; simp only; tauto
      · left; exact getIndex_bad1 _ _ ha
    · right; exact hc
  | [a, b, c, e], _, _, h =>
    simp only [List.mem_cons, List.not_mem_nil, or_false, forall_eq_or_imp, forall_eq] at h
    simp only [decodeBlock, dpush_inv]
    apply key
    rw [getIndex_table, getIndex_table, getIndex_table]
    by_cases he : t.idxOf e < 64
    · left; apply key; rw [getIndex_table, getIndex_table]
      by_cases hc : t.idxOf c < 64
      · left; apply key; rw [getIndex_table]
        by_cases ha : t.idxOf a < 64
        · right; simp only; tauto
        · left; exact getIndex_bad1 _ _ ha
      · right; exact hc
    · right; exact he

theorem decodeBlock_snd (d : Dec) : (decodeBlock d).2 = (!(decodeBlock d).1.invalid && !(decodeBlock d).1.out.overflowed) := rfl

/-- the state between blocks -/
structure DInv (T : List Byte) (d : Dec) : Prop where
  inp : d.inp = []
  inv : d.invalid = false
  pad : d.padded = false
  out : OutInv 3 T d.out

theorem decode_short (core : List Char) (d : Dec) (T : List Byte) (h : DInv T d) (hl : core.length < 4) (hc : '=' ∉ core) (rest : List Char) :
    decodeRange d (core ++ rest) = decodeRange { d with inp := core } rest := by
  obtain ⟨t, inp, out, inv, pd⟩ := d
  obtain ⟨h1, h2, h3, h4⟩ := h
  simp only at h1 h2 h3 h4
  subst h1 h2 h3
  have ho := h4.over
  match core, hl, hc with
  | [], _, _ => rfl
  | [a], _, hc =>
    have ha : a ≠ '=' := by rintro rfl; simp at hc
    simp [decodeRange, decode1, pushIn, ha, Dec.error, ho]
  | [a, b], _, hc =>
    have ha : a ≠ '=' := by rintro rfl; simp at hc
    have hb : b ≠ '=' := by rintro rfl; simp at hc
    simp [decodeRange, decode1, pushIn, ha, hb, Dec.error, ho]
  | [a, b, c], _, hc =>
    have ha : a ≠ '=' := by rintro rfl; simp at hc
    have hb : b ≠ '=' := by rintro rfl; simp at hc
    have hc : c ≠ '=' := by rintro rfl; simp at hc
    simp [decodeRange, decode1, pushIn, ha, hb, hc, Dec.error, ho]

/-- one block of four data characters -/
theorem decode4 (d : Dec) (T : List Byte) (h : DInv T d) (a b c e : Char) (hc : '=' ∉ [a, b, c, e]) (rest : List Char) :
    ((∀ x ∈ [a, b, c, e], d.table.idxOf x < 64) → (pushAll d.out (decGroup d.table [a, b, c, e])).overflowed = false →
      (sendIfFull (pushAll d.out (decGroup d.table [a, b, c, e]))).overflowed = false →
      decodeRange d (a :: b :: c :: e :: rest) = decodeRange { d with out := sendIfFull (pushAll d.out (decGroup d.table [a, b, c, e])) } rest) ∧
    ((¬ ∀ x ∈ [a, b, c, e], d.table.idxOf x < 64) ∨ (pushAll d.out (decGroup d.table [a, b, c, e])).overflowed = true →
      ∃ d', decodeRange d (a :: b :: c :: e :: rest) = .ok (d', false)) := by
  have hs := decode_short [a, b, c] d T h (by simp) (by simp at hc ⊢; tauto) (e :: rest)
  have he : e ≠ '=' := by rintro rfl; simp at hc
  simp only [List.cons_append, List.nil_append] at hs
  rw [hs]
  obtain ⟨t, inp, out, inv, pd⟩ := d
  obtain ⟨h1, h2, h3, h4⟩ := h
  simp only at h1 h2 h3 h4
  subst h1 h2 h3
  simp only
  rw [decodeRange]
  have hp : pushIn ⟨t, [a, b, c], out, false, false⟩ e = .ok ⟨t, [a, b, c, e], out, false, false⟩ := by simp [pushIn, he]
  have hd : decode1 ⟨t, [a, b, c], out, false, false⟩ e = (let (d, ok) := decodeBlock ⟨t, [a, b, c, e], out, false, false⟩
      let d := if ok then { d with out := sendIfFull d.out } else d
      let d := { d with inp := [] }
      .ok (d, !d.error)) := by
    unfold decode1; rw [hp]; rfl
  constructor
  · intro hg hov hov2
    have hb := decodeBlock_good ⟨t, [a, b, c, e], out, false, false⟩ (by simp) (by simp) hg
    have hb2 := decodeBlock_snd ⟨t, [a, b, c, e], out, false, false⟩
    rw [hb] at hb2
    have hbb : decodeBlock ⟨t, [a, b, c, e], out, false, false⟩ = (dpushAll ⟨t, [a, b, c, e], out, false, false⟩ (decGroup t [a, b, c, e]), true) := by
      rw [← Prod.eta (decodeBlock _), hb, hb2]
      simp [dpushAll, hov]
    rw [hd, hbb]
    simp [dpushAll, Dec.error, hov2]
  · intro hbad
    have hbb : (decodeBlock ⟨t, [a, b, c, e], out, false, false⟩).1.error = true := by
      by_cases hg : ∀ x ∈ [a, b, c, e], t.idxOf x < 64
      · rw [decodeBlock_good _ (by simp) (by simp) hg]
        simp only [Dec.error, dpushAll, Bool.or_eq_true]
        left
        rcases hbad with hbad | hbad
        · exact absurd hg hbad
        · exact hbad
      · have := decodeBlock_bad ⟨t, [a, b, c, e], out, false, false⟩ (by simp) (by simp) hg
        simp [Dec.error, this]
    have h2 : (decodeBlock ⟨t, [a, b, c, e], out, false, false⟩).2 = false := by
      rw [decodeBlock_snd, ← Bool.not_or, Bool.or_comm]
      have hbb' : ((decodeBlock ⟨t, [a, b, c, e], out, false, false⟩).1.out.overflowed || (decodeBlock ⟨t, [a, b, c, e], out, false, false⟩).1.invalid) = true := hbb
      rw [hbb']; rfl
    rw [hd]
    generalize decodeBlock ⟨t, [a, b, c, e], out, false, false⟩ = r at hbb h2
    obtain ⟨r1, r2⟩ := r
    simp only at hbb h2
    subst h2
    have : ({ r1 with inp := [] } : Dec).error = true := hbb
    exact ⟨{ r1 with inp := [] }, by simp [this]⟩

/-- after the data characters: only padding is accepted -/
theorem decode_pads (d : Dec) (he : d.error = false) (hl : d.inp.length < 4) (hp : d.padded = true) (rest : List Char) :
    ((∀ c ∈ rest, c = '=') → decodeRange d rest = .ok (d, true)) ∧ ((¬ ∀ c ∈ rest, c = '=') → ∃ d', decodeRange d rest = .ok (d', false)) := by
  induction rest with
  | nil => exact ⟨fun _ => rfl, fun h => absurd (by simp) h⟩
  | cons c rest ih =>
    by_cases hc : c = '='
    · subst hc
      have e1 : decode1 d '=' = .ok (d, true) := by
        obtain ⟨t, inp, out, inv, pd⟩ := d
        simp only at hp hl
        subst hp
        have hl' : inp.length ≠ 4 := by omega
        simp only [Dec.error] at he
        simp [decode1, pushIn, hl', Dec.error, he]
      simp only [decodeRange, e1, List.mem_cons, forall_eq_or_imp, true_and]
      exact ih
    · refine ⟨fun h => absurd (h c (by simp)) hc, fun _ => ?_⟩
      have hl' : d.inp.length ≠ 4 := by omega
      have e1 : decode1 d c = .ok ({ d with invalid := true }, false) := by
        simp [decode1, pushIn, hc, hp, hl', Dec.error]
      exact ⟨_, by simp only [decodeRange, e1]; rfl⟩

theorem decode_rest (d : Dec) (he : d.error = false) (hl : d.inp.length < 4) (rest : List Char) (hr : rest = [] ∨ ∃ r, rest = '=' :: r) :
    ((∀ c ∈ rest, c = '=') → ∃ p, decodeRange d rest = .ok ({ d with padded := p }, true)) ∧ ((¬ ∀ c ∈ rest, c = '=') → ∃ d', decodeRange d rest = .ok (d', false)) := by
  rcases hr with rfl | ⟨r, rfl⟩
  · exact ⟨fun _ => ⟨d.padded, rfl⟩, fun h => absurd (by simp) h⟩
  · have e1 : decode1 d '=' = .ok ({ d with padded := true }, true) := by
      have hl' : d.inp.length ≠ 4 := by omega
      simp only [Dec.error] at he
      simp [decode1, pushIn, hl', Dec.error, he]
    have := decode_pads { d with padded := true } he hl rfl r
    simp only [decodeRange, e1, List.mem_cons, forall_eq_or_imp, true_and]
    exact ⟨fun h => ⟨true, this.1 h⟩, this.2⟩

theorem takeWhile_core (core rest : List Char) (hc : '=' ∉ core) (hr : rest = [] ∨ ∃ r, rest = '=' :: r) :
    (core ++ rest).takeWhile (· ≠ '=') = core ∧ (core ++ rest).dropWhile (· ≠ '=') = rest := by
  induction core with
  | nil => rcases hr with rfl | ⟨r, rfl⟩ <;> simp
  | cons a core ih =>
    have ha : a ≠ '=' := by rintro rfl; simp at hc
    have := ih (by simp at hc; tauto)
    simp only [List.cons_append]
    rw [List.takeWhile_cons_of_pos (by simpa using ha), List.dropWhile_cons_of_pos (by simpa using ha), this.1, this.2]
    exact ⟨rfl, rfl⟩

theorem valid_block (t : List Char) (a b c e : Char) (hc : '=' ∉ [a, b, c, e]) (rest : List Char) :
    Valid t (a :: b :: c :: e :: rest) ↔ (∀ x ∈ [a, b, c, e], x ∈ t) ∧ Valid t rest := by
  have ha : a ≠ '=' := by rintro rfl; simp at hc
  have hb : b ≠ '=' := by rintro rfl; simp at hc
  have he : e ≠ '=' := by rintro rfl; simp at hc
  have hc : c ≠ '=' := by rintro rfl; simp at hc
  unfold Valid
  simp only
  repeat rw [List.takeWhile_cons_of_pos (by simpa using (by assumption))]
  repeat rw [List.dropWhile_cons_of_pos (by simpa using (by assumption))]
  generalize rest.takeWhile (· ≠ '=') = core
  have hlen : (a :: b :: c :: e :: core).length % 4 = core.length % 4 := by simp only [List.length_cons]; omega
  rw [hlen]
  by_cases h1 : core.length % 4 = 1
  · have hd : (a :: b :: c :: e :: core).dropLast = a :: b :: c :: e :: core.dropLast := by
      cases core with
      | nil => simp at h1
      | cons x xs => rfl
    simp only [if_pos h1, hd, List.mem_cons, List.not_mem_nil, or_false, forall_eq_or_imp, forall_eq]
    tauto
  · simp only [if_neg h1, List.mem_cons, List.not_mem_nil, or_false, forall_eq_or_imp, forall_eq]
    tauto

theorem rfcDecode_block (t : List Char) (ht : t.length = 64) (a b c e : Char) (hc : '=' ∉ [a, b, c, e]) (hv : ∀ x ∈ [a, b, c, e], x ∈ t) (rest : List Char) :
    rfcDecode t (a :: b :: c :: e :: rest) = decGroup t [a, b, c, e] ++ rfcDecode t rest := by
  have ha : a ≠ '=' := by rintro rfl; simp at hc
  have hb : b ≠ '=' := by rintro rfl; simp at hc
  have he : e ≠ '=' := by rintro rfl; simp at hc
  have hc : c ≠ '=' := by rintro rfl; simp at hc
  unfold rfcDecode
  repeat rw [List.takeWhile_cons_of_pos (by simpa using (by assumption))]
  simp only [List.flatMap_cons]
  rw [bytesOf4 ((idx_lt ht).1 (hv a (by simp))) ((idx_lt ht).1 (hv b (by simp))) ((idx_lt ht).1 (hv c (by simp))) ((idx_lt ht).1 (hv e (by simp)))]
  rfl

/-- the first four data characters, or the whole (short) data part -/
theorem split4 (s : List Char) : (∃ a b c e rest, s = a :: b :: c :: e :: rest ∧ '=' ∉ [a, b, c, e]) ∨
    ∃ core rest, s = core ++ rest ∧ core.length < 4 ∧ '=' ∉ core ∧ (rest = [] ∨ ∃ r, rest = '=' :: r) := by
  have hsplit : s = s.takeWhile (· ≠ '=') ++ s.dropWhile (· ≠ '=') := by simp
  have hcore : '=' ∉ s.takeWhile (· ≠ '=') := by
    intro h; have := List.all_takeWhile (p := (· ≠ '=')) (l := s); rw [List.all_eq_true] at this; exact absurd (this _ h) (by simp)
  have hrest : s.dropWhile (· ≠ '=') = [] ∨ ∃ r, s.dropWhile (· ≠ '=') = '=' :: r := by
    cases h : s.dropWhile (· ≠ '=') with
    | nil => exact .inl rfl
    | cons x r =>
      have := List.head_dropWhile_not (· ≠ '=') (l := s) (by rw [h]; simp)
      simp only [h, List.head_cons] at this
      exact .inr ⟨r, by rw [show x = '=' by simpa using this]⟩
  generalize s.takeWhile (· ≠ '=') = core at *
  generalize s.dropWhile (· ≠ '=') = rest at *
  by_cases hl : core.length < 4
  · exact .inr ⟨core, rest, hsplit, hl, hcore, hrest⟩
  · left
    match core, hl with
    | [], hl => exact absurd (by simp) hl
    | [_], hl => exact absurd (by simp) hl
    | [_, _], hl => exact absurd (by simp) hl
    | [_, _, _], hl => exact absurd (by simp) hl
    | a :: b :: c :: e :: core, _ => exact ⟨a, b, c, e, core ++ rest, hsplit, by simp at hcore ⊢; tauto⟩

theorem decodeRange_append (e : Dec) (x y : List Char) : decodeRange e (x ++ y) = (match decodeRange e x with
    | .error u => .error u
    | .ok (e, false) => .ok (e, false)
    | .ok (e, true) => decodeRange e y) := by
  induction x generalizing e with
  | nil => rfl
  | cons b x ih =>
    rw [List.cons_append, decodeRange, decodeRange]
    cases h : decode1 e b with
    | error u => rfl
    | ok r => obtain ⟨e', ok⟩ := r; cases ok <;> simp only [ih]

/-- a range, then `flush` -/
def decFlush (d : Dec) (s : List Char) : Res (Dec × Bool) :=
  match decodeRange d s with
  | .error u => .error u
  | .ok (d, false) => .ok (d, false)
  | .ok (d, true) => .ok (flushDec d)

theorem decodeAll_eq (d : Dec) (ps : List (List Char)) : decodeAll d ps = decFlush d ps.flatten := by
  unfold decFlush
  induction ps generalizing d with
  | nil => rfl
  | cons p ps ih =>
    rw [List.flatten_cons, decodeRange_append, decodeAll]
    cases h : decodeRange d p with
    | error u => rfl
    | ok r => obtain ⟨e', ok⟩ := r; cases ok <;> simp only [ih]

theorem decGroup_len (t : List Char) (l : List Char) (h : l.length < 4) : (decGroup t l).length ≤ 3 := by
  match l, h with
  | [], _ => simp [decGroup]
  | [_], _ => simp [decGroup]
  | [_, _], _ => simp [decGroup, dec2]
  | [_, _, _], _ => simp [decGroup, dec3]

theorem decode_main (n : Nat) : ∀ (s : List Char) (d : Dec) (T : List Byte), s.length = n → d.table.length = 64 → DInv T d →
    ∃ d' b, decFlush d s = .ok (d', b) ∧
      (b = true ↔ Valid d.table s ∧ (d.out.cb = false → T.length + (rfcDecode d.table s).length ≤ d.out.max)) ∧
      (b = true → Delivered (T ++ rfcDecode d.table s) d'.out ∧ d'.out.cb = d.out.cb ∧ d'.out.max = d.out.max ∧ DInv [] { d' with out := { d'.out with buf := [], emitted := [], cb := false } }) := by
  induction n using Nat.strongRecOn with
  | ind n ih =>
  intro s d T hn ht h
  have hcont : d.out.cb = false → d.out.buf = T := by
    intro hc
    have h1 := h.out.noCb hc
    have h2 := h.out.content
    rw [h1.1] at h2
    simpa using h2
  have hbl : d.out.buf.length ≤ d.out.max := by
    cases hc : d.out.cb
    · rw [hcont hc]; exact (h.out.noCb hc).2
    · exact Nat.le_of_lt (h.out.withCb hc).2.2.1
  rcases split4 s with ⟨a, b, c, e, rest, rfl, hne⟩ | ⟨core, rest, rfl, hl, hne, hr⟩
  · have hstep := decode4 d T h a b c e hne rest
    rw [valid_block _ _ _ _ _ hne]
    by_cases hv : ∀ x ∈ [a, b, c, e], x ∈ d.table
    · have hv' : ∀ x ∈ [a, b, c, e], d.table.idxOf x < 64 := fun x hx => (idx_lt ht).1 (hv x hx)
      rw [rfcDecode_block _ ht _ _ _ _ hne hv]
      have hlen : (decGroup d.table [a, b, c, e]).length = 3 := rfl
      by_cases hroom : d.out.cb = false → T.length + 3 ≤ d.out.max
      · obtain ⟨h1, h2, h3⟩ := block_ok h.out hlen hroom (by omega)
        have hov : (pushAll d.out (decGroup d.table [a, b, c, e])).overflowed = false := by
          cases ho : (pushAll d.out (decGroup d.table [a, b, c, e])).overflowed
          · rfl
          · have := h1.over
            unfold sendIfFull at this
            split at this
            · split at this
              · rw [ho] at this; cases this
              · rw [ho] at this; cases this
            · rw [ho] at this; cases this
        have he := hstep.1 hv' hov h1.over
        obtain ⟨d', b', r1, r2, r3⟩ := ih rest.length (by simp at hn; omega) rest { d with out := sendIfFull (pushAll d.out (decGroup d.table [a, b, c, e])) } _ rfl ht ⟨h.inp, h.inv, h.pad, h1⟩
        refine ⟨d', b', ?_, ?_, ?_⟩
        · unfold decFlush at r1 ⊢; rw [he]; exact r1
        · rw [r2]
          simp only [h2, h3, List.length_append, hlen]
          constructor
          · rintro ⟨x, y⟩; exact ⟨⟨hv, x⟩, fun hc => by have := y hc; omega⟩
          · rintro ⟨x, y⟩; exact ⟨x.2, fun hc => by have := y hc; omega⟩
        · intro hb
          obtain ⟨x1, x2, x3, x4⟩ := r3 hb
          simp only [h2, h3] at x2 x3
          exact ⟨by simpa using x1, x2, x3, x4⟩
      · have hc : d.out.cb = false := by
          cases hc : d.out.cb
          · rfl
          · exact absurd (fun h => by rw [hc] at h; cases h) hroom
        have hroom' : d.out.max < T.length + 3 := by
          by_contra hx; exact hroom (fun _ => by omega)
        obtain ⟨d', hd'⟩ := hstep.2 (.inr (pushAll_overflows _ _ hbl (by rw [hcont hc, hlen]; exact hroom')))
        refine ⟨d', false, by unfold decFlush; rw [hd'], ⟨fun hx => (by cases hx), fun hx => ?_⟩, fun hx => by cases hx⟩
        have := hx.2 hc
        rw [List.length_append, hlen] at this; omega
    · obtain ⟨d', hd'⟩ := hstep.2 (.inl (fun hh => hv (fun x hx => (idx_lt ht).2 (hh x hx))))
      exact ⟨d', false, by unfold decFlush; rw [hd'], ⟨fun hx => (by cases hx), fun hx => absurd hx.1.1 hv⟩, fun hx => by cases hx⟩
  · have hs := decode_short core d T h hl hne rest
    obtain ⟨hw1, hw2⟩ := takeWhile_core core rest hne hr
    have hval : Valid d.table (core ++ rest) ↔ (∀ c ∈ rest, c = '=') ∧ (core.length ≠ 1 → ∀ c ∈ core, c ∈ d.table) := by
      unfold Valid
      simp only
      rw [hw1, hw2]
      by_cases h1 : core.length % 4 = 1
      · have h1' : core.length = 1 := by omega
        rw [if_pos h1]
        have : core.dropLast = [] := by
          match core, h1' with
          | [x], _ => rfl
        rw [this]; simp [h1']
      · rw [if_neg h1]
        have h1' : core.length ≠ 1 := by omega
        simp [h1']
    have hrd : (core.length ≠ 1 → ∀ c ∈ core, c ∈ d.table) → rfcDecode d.table (core ++ rest) = decGroup d.table core := by
      intro hv
      unfold rfcDecode
      rw [hw1]
      match core, hl, hv with
      | [], _, _ => rfl
      | [x], _, _ => simp only [List.flatMap_cons, List.flatMap_nil]; rw [bytesOf1]; rfl
      | [x, y], _, hv =>
        have hv := hv (by simp)
        simp only [List.flatMap_cons, List.flatMap_nil]; rw [bytesOf2 ((idx_lt ht).1 (hv x (by simp))) ((idx_lt ht).1 (hv y (by simp)))]; rfl
      | [x, y, z], _, hv =>
        have hv := hv (by simp)
        simp only [List.flatMap_cons, List.flatMap_nil]; rw [bytesOf3 ((idx_lt ht).1 (hv x (by simp))) ((idx_lt ht).1 (hv y (by simp))) ((idx_lt ht).1 (hv z (by simp)))]; rfl
    have hde : ({ d with inp := core } : Dec).error = false := by simp [Dec.error, h.inv, h.out.over]
    have hrest := decode_rest { d with inp := core } hde hl rest hr
    by_cases hpad : ∀ c ∈ rest, c = '='
    · obtain ⟨p, hp⟩ := hrest.1 hpad
      have hfl : decFlush d (core ++ rest) = .ok (flushDec { d with inp := core, padded := p }) := by
        unfold decFlush; rw [hs, hp]
      rw [hfl]
      have hb2 := decodeBlock_snd { d with inp := core, padded := p }
      by_cases hv : core.length ≠ 1 → ∀ c ∈ core, c ∈ d.table
      · have hb : (decodeBlock { d with inp := core, padded := p }).1 = dpushAll { d with inp := core, padded := p } (decGroup d.table core) := by
          by_cases h1 : core.length = 1
          · match core, h1 with
            | [x], _ => rfl
          · exact decodeBlock_good { d with inp := core, padded := p } h1 (by simp only; omega) (fun c hc => (idx_lt ht).1 (hv h1 c hc))
        rw [hb] at hb2
        rw [hrd hv, hval]
        have hglen := decGroup_len d.table core hl
        by_cases hroom : d.out.cb = false → T.length + (decGroup d.table core).length ≤ d.out.max
        · have hfin := final_ok h.out hglen hroom
          have hbb : decodeBlock { d with inp := core, padded := p } = (dpushAll { d with inp := core, padded := p } (decGroup d.table core), true) := by
            rw [← Prod.eta (decodeBlock _), hb, hb2]; simp [dpushAll, hfin.1, h.inv]
          have hff : flushDec { d with inp := core, padded := p } = ({ d with inp := [], padded := false, out := sendFinal (pushAll d.out (decGroup d.table core)) }, true) := by
            unfold flushDec; rw [hbb]; rfl
          rw [hff]
          have hfr := pushAll_frame (decGroup d.table core) d.out
          have hsf : ∀ o : Out Byte, (sendFinal o).cb = o.cb ∧ (sendFinal o).max = o.max ∧ (sendFinal o).overflowed = o.overflowed := by
            intro o; unfold sendFinal; split
            · simp only; split <;> exact ⟨rfl, rfl, rfl⟩
            · exact ⟨rfl, rfl, rfl⟩
          refine ⟨_, true, rfl, ⟨fun _ => ⟨⟨hpad, hv⟩, hroom⟩, fun _ => rfl⟩, fun _ => ⟨hfin.2, ?_, ?_, ?_⟩⟩
          · simp only [(hsf _).1, hfr.2.1]
          · simp only [(hsf _).2.1, hfr.1]
          · exact ⟨rfl, h.inv, rfl, ⟨by simp only [(hsf _).2.2]; exact hfin.1, rfl, fun _ => ⟨rfl, by simp⟩, fun hx => by cases hx⟩⟩
        · have hc : d.out.cb = false := by
            cases hc : d.out.cb
            · rfl
            · exact absurd (fun h => by rw [hc] at h; cases h) hroom
          have hroom' : d.out.max < T.length + (decGroup d.table core).length := by
            by_contra hx; exact hroom (fun _ => by omega)
          have hov := pushAll_overflows _ _ hbl (by rw [hcont hc]; exact hroom')
          have hbs : (decodeBlock { d with inp := core, padded := p }).2 = false := by rw [hb2]; simp [dpushAll, hov]
          have hff : (flushDec { d with inp := core, padded := p }).2 = false := by
            unfold flushDec; exact hbs
          refine ⟨(flushDec { d with inp := core, padded := p }).1, false, ?_, ⟨fun hx => (by cases hx), fun hx => absurd hx.2 hroom⟩, fun hx => by cases hx⟩
          rw [← hff]
      · have h1 : core.length ≠ 1 := by intro h1; exact hv (fun hx => absurd h1 hx)
        have hv' : ¬ ∀ c ∈ core, d.table.idxOf c < 64 := fun hh => hv (fun _ c hc => (idx_lt ht).2 (hh c hc))
        have hbad := decodeBlock_bad { d with inp := core, padded := p } h1 (by simp only; omega) hv'
        have hff : (flushDec { d with inp := core, padded := p }).2 = false := by
          unfold flushDec
          show (decodeBlock { d with inp := core, padded := p }).2 = false
          rw [hb2, hbad]; rfl
        refine ⟨(flushDec { d with inp := core, padded := p }).1, false, ?_, ⟨fun hx => (by cases hx), fun hx => absurd (hval.1 hx.1).2 hv⟩, fun hx => by cases hx⟩
        rw [← hff]
    · obtain ⟨d', hd'⟩ := hrest.2 hpad
      exact ⟨d', false, by unfold decFlush; rw [hs, hd'], ⟨fun hx => (by cases hx), fun hx => absurd (hval.1 hx.1).1 hpad⟩, fun hx => by cases hx⟩

/-- C55.  For every 64 character alphabet, every buffer size, with or without callback (buffer a positive multiple of three then), and
every text in any split into `decode` calls followed by `flush`: all calls return true exactly when the text is data characters of the
alphabet followed only by padding and - without a callback - the bytes fit in the buffer; and then the bytes denoted by the text are
delivered, in the buffer or as the concatenation of the callback's spans followed by an empty span.  The four character input buffer is
never overrun. -/
theorem C55_decode (t : List Char) (ht : t.length = 64) (max : Nat) (cb : Bool) (hcb : cb = true → 3 ∣ max ∧ 0 < max) (pieces : List (List Char)) :
    ∃ d ok, decodeAll (decoder t max cb) pieces = .ok (d, ok) ∧
      (ok = true ↔ Valid t pieces.flatten ∧ (cb = false → (rfcDecode t pieces.flatten).length ≤ max)) ∧
      (ok = true → Delivered (rfcDecode t pieces.flatten) d.out ∧ d.out.cb = cb ∧ d.out.max = max) := by
  have hinv : DInv [] (decoder t max cb) := ⟨rfl, rfl, rfl, rfl, rfl, fun _ => ⟨rfl, by simp⟩, fun hc => ⟨by simp [decoder], (hcb hc).1, (hcb hc).2, by simp [decoder]⟩⟩
  obtain ⟨d, b, h1, h2, h3⟩ := decode_main _ pieces.flatten (decoder t max cb) [] rfl ht hinv
  rw [← decodeAll_eq] at h1
  refine ⟨d, b, h1, ?_, fun hb => ?_⟩
  · rw [h2]; simp [decoder]
  · obtain ⟨x1, x2, x3, _⟩ := h3 hb
    exact ⟨by simpa [decoder] using x1, x2, x3⟩

/-! ## Round trip -/

theorem idx_c0 {t : List Char} (h : Alphabet t) {i : Nat} (hi : i < 64) : t.idxOf (c0 t i) = i := by
  have hi' : i < t.length := by rw [h.length]; exact hi
  have : c0 t i = t[i] := by unfold c0; rw [List.getD_eq_getElem?_getD, List.getElem?_eq_getElem hi']; rfl
  rw [this]; exact h.nodup.idxOf_getElem i hi'
theorem c0_mem {t : List Char} (h : Alphabet t) {i : Nat} (hi : i < 64) : c0 t i ∈ t := by rw [idx_lt h.length, idx_c0 h hi]; exact hi
theorem c0_ne {t : List Char} (h : Alphabet t) {i : Nat} (hi : i < 64) : c0 t i ≠ '=' := fun he => h.noPad (he ▸ c0_mem h hi)

theorem ofNat_eq (a : Byte) (n : Nat) (h : n = a.toNat) : BitVec.ofNat 8 n = a := by rw [h]; simp

theorem roundTrip (t : List Char) (h : Alphabet t) (pad : Bool) (bs : List Byte) : Valid t (rfcEncode t pad bs) ∧ rfcDecode t (rfcEncode t pad bs) = bs := by
  match bs with
  | [] =>
    have : rfcEncode t pad [] = [] := by cases pad <;> simp [rfcEncode, sextets]
    rw [this]
    exact ⟨by simp [Valid], rfl⟩
  | [a] =>
    have ha := a.isLt
    have i1 : a.toNat / 4 < 64 := by omega
    have i2 : a.toNat % 4 * 16 < 64 := by omega
    obtain ⟨k, hk⟩ : ∃ k, rfcEncode t pad [a] = [c0 t (a.toNat / 4), c0 t (a.toNat % 4 * 16)] ++ List.replicate k '=' := by
      rw [rfcEncode_eq]; simp only [encFull, tail3, List.nil_append]; rw [encTail1_eq]
      cases pad
      · exact ⟨0, rfl⟩
      · exact ⟨2, rfl⟩
    obtain ⟨w1, w2⟩ := takeWhile_core [c0 t (a.toNat / 4), c0 t (a.toNat % 4 * 16)] (List.replicate k '=') (by simp [(c0_ne h i1).symm, (c0_ne h i2).symm]) (by cases k <;> simp [List.replicate_succ])
    rw [hk]
    refine ⟨?_, ?_⟩
    · unfold Valid; simp only; rw [w1, w2]; simp [c0_mem h i1, c0_mem h i2]
    · unfold rfcDecode; rw [w1]
      simp only [List.flatMap_cons, List.flatMap_nil, idx_c0 h i1, idx_c0 h i2]
      rw [bytesOf2 i1 i2]; unfold dec2; rw [ofNat_eq a _ (by omega)]
  | [a, b] =>
    have ha := a.isLt
    have hb := b.isLt
    have i1 : a.toNat / 4 < 64 := by omega
    have i2 : a.toNat % 4 * 16 + b.toNat / 16 < 64 := by omega
    have i3 : b.toNat % 16 * 4 < 64 := by omega
    obtain ⟨k, hk⟩ : ∃ k, rfcEncode t pad [a, b] = [c0 t (a.toNat / 4), c0 t (a.toNat % 4 * 16 + b.toNat / 16), c0 t (b.toNat % 16 * 4)] ++ List.replicate k '=' := by
      rw [rfcEncode_eq]; simp only [encFull, tail3, List.nil_append]; rw [encTail2_eq]
      cases pad
      · exact ⟨0, rfl⟩
      · exact ⟨1, rfl⟩
    obtain ⟨w1, w2⟩ := takeWhile_core [c0 t (a.toNat / 4), c0 t (a.toNat % 4 * 16 + b.toNat / 16), c0 t (b.toNat % 16 * 4)] (List.replicate k '=') (by simp [(c0_ne h i1).symm, (c0_ne h i2).symm, (c0_ne h i3).symm]) (by cases k <;> simp [List.replicate_succ])
    rw [hk]
    refine ⟨?_, ?_⟩
    · unfold Valid; simp only; rw [w1, w2]; simp [c0_mem h i1, c0_mem h i2, c0_mem h i3]
    · unfold rfcDecode; rw [w1]
      simp only [List.flatMap_cons, List.flatMap_nil, idx_c0 h i1, idx_c0 h i2, idx_c0 h i3]
      rw [bytesOf3 i1 i2 i3]; unfold dec3; rw [ofNat_eq a _ (by omega), ofNat_eq b _ (by omega)]
  | a :: b :: c :: rest =>
    obtain ⟨h1, h2⟩ := roundTrip t h pad rest
    have ha := a.isLt
    have hb := b.isLt
    have hc := c.isLt
    have i1 : a.toNat / 4 < 64 := by omega
    have i2 : a.toNat % 4 * 16 + b.toNat / 16 < 64 := by omega
    have i3 : b.toNat % 16 * 4 + c.toNat / 64 < 64 := by omega
    have i4 : c.toNat % 64 < 64 := by omega
    have he : rfcEncode t pad (a :: b :: c :: rest) = c0 t (a.toNat / 4) :: c0 t (a.toNat % 4 * 16 + b.toNat / 16) :: c0 t (b.toNat % 16 * 4 + c.toNat / 64) :: c0 t (c.toNat % 64) :: rfcEncode t pad rest := by
      rw [rfcEncode_eq, rfcEncode_eq, encFull, tail3, enc3_eq]; rfl
    have hne : '=' ∉ [c0 t (a.toNat / 4), c0 t (a.toNat % 4 * 16 + b.toNat / 16), c0 t (b.toNat % 16 * 4 + c.toNat / 64), c0 t (c.toNat % 64)] := by
      simp [(c0_ne h i1).symm, (c0_ne h i2).symm, (c0_ne h i3).symm, (c0_ne h i4).symm]
    have hmem : ∀ x ∈ [c0 t (a.toNat / 4), c0 t (a.toNat % 4 * 16 + b.toNat / 16), c0 t (b.toNat % 16 * 4 + c.toNat / 64), c0 t (c.toNat % 64)], x ∈ t := by
      simp [c0_mem h i1, c0_mem h i2, c0_mem h i3, c0_mem h i4]
    rw [he, valid_block _ _ _ _ _ hne, rfcDecode_block _ h.length _ _ _ _ hne hmem, h2]
    refine ⟨⟨hmem, h1⟩, ?_⟩
    simp only [decGroup]
    rw [idx_c0 h i1, idx_c0 h i2, idx_c0 h i3, idx_c0 h i4]
    unfold dec4
    rw [ofNat_eq a _ (by omega), ofNat_eq b _ (by omega), ofNat_eq c _ (by omega)]
    rfl

/-- C22, decoder: every split of the RFC 4648 text (padded or not) of any bytes, fed to the decoder and flushed, is accepted and delivers
exactly those bytes. -/
theorem C22_decode (t : List Char) (h : Alphabet t) (pad : Bool) (bs : List Byte) (max : Nat) (cb : Bool) (hcb : cb = true → 3 ∣ max ∧ 0 < max)
    (hmax : cb = false → bs.length ≤ max) (pieces : List (List Char)) (hp : pieces.flatten = rfcEncode t pad bs) :
    ∃ d, decodeAll (decoder t max cb) pieces = .ok (d, true) ∧ Delivered bs d.out ∧ d.out.cb = cb ∧ d.out.max = max := by
  obtain ⟨d, ok, h1, h2, h3⟩ := C55_decode t h.length max cb hcb pieces
  obtain ⟨r1, r2⟩ := roundTrip t h pad bs
  rw [hp, r2] at h2 h3
  have : ok = true := h2.2 ⟨r1, hmax⟩
  subst this
  exact ⟨d, h1, h3 rfl⟩

/-- C22, round trip through both objects: whatever the splits on the encoder's input and on the text between them, decoding what the encoder
delivered gives back the input. -/
theorem C22_round_trip (t : List Char) (h : Alphabet t) (pad : Bool) (pieces : List (List Byte)) (emax dmax : Nat)
    (he : (rfcEncode t pad pieces.flatten).length ≤ emax) (hd : pieces.flatten.length ≤ dmax) :
    ∃ e, encodeAll (encoder t pad emax false) pieces = .ok (e, true) ∧ ∀ texts : List (List Char), texts.flatten = e.out.buf →
      ∃ d, decodeAll (decoder t dmax false) texts = .ok (d, true) ∧ d.out.buf = pieces.flatten := by
  obtain ⟨e, h1, h2, h3, h4⟩ := C22_encode t pad emax false pieces (fun hc => by cases hc) (fun _ => he)
  refine ⟨e, h1, fun texts ht => ?_⟩
  obtain ⟨d, r1, r2, r3, r4⟩ := C22_decode t h pad pieces.flatten dmax false (fun hc => by cases hc) (fun _ => hd) texts (by rw [ht]; exact (h2.noCb h3).1)
  exact ⟨d, r1, (r2.noCb r3).1⟩

/-- C22, documented size: the size the decoder's documentation gives for a valid input length suffices. -/
theorem C22_decoded_size (t : List Char) (pad : Bool) (bs : List Byte) : bs.length ≤ decodedSize (rfcEncode t pad bs).length := by
  have h := C22_encoded_size t bs
  unfold decodedSize
  cases pad
  · rw [h.2.2.2]; omega
  · rw [h.2.1]; omega

/-! ## Non-vacuity and findings -/

example : ∃ d, decodeAll (decoder charset1 5 false) ["Zm9".toList, "vYmE=".toList] = .ok (d, true) ∧ d.out.buf = [0x66, 0x6f, 0x6f, 0x62, 0x61] := ⟨_, by rfl, by rfl⟩
example : Valid charset1 "Zm9vYmE=".toList := by unfold Valid; decide +kernel
example : ¬ Valid charset1 "Zm9v=YmE".toList := by unfold Valid; decide +kernel

/-- Finding: with a callback the decoder needs a buffer size that is a multiple of three; nothing checks it (only the encoder has the
static assert), and a valid text is then reported as an overflow. -/
theorem decoder_callback_size_unchecked : ∃ d, decodeAll (decoder charset1 4 true) ["Zm9vYmFy".toList] = .ok (d, false) ∧ d.out.overflowed = true := ⟨_, by rfl, by rfl⟩

/-- Finding: a single left-over character is accepted without being looked at, even one outside the alphabet. -/
theorem lone_character_accepted : ∃ d, decodeAll (decoder charset1 3 false) ["Zm9v#".toList] = .ok (d, true) ∧ d.out.buf = [0x66, 0x6f, 0x6f] := ⟨_, by rfl, by rfl⟩

/-- Finding: `restart()` of the encoder does not clear its overflow flag: every later encode fails. -/
theorem encoder_restart_keeps_overflow : ∃ e, encodeAll (encoder charset1 true 2 false) [[1, 2, 3]] = .ok (e, false) ∧
    ∃ e', encodeAll (restartEnc e) [[1]] = .ok (e', false) := ⟨_, by rfl, _, by rfl⟩

end Etl.Base64
