import Verif.Crc.Model
import Verif.Binary.Props
import Mathlib.Tactic.ByContra
import Mathlib.Tactic.Tauto
/-!
# C23, C52: the CRCs
-/
namespace Etl.Crc
open Fcs
variable {w : Nat}

/-! ## Specification: the bit-serial ("Rocksoft") definition -/

/-- The bits of a byte, most significant first. -/
def byteBits (b : Byte) : List Bool := (List.range 8).map fun i => b.getLsbD (7 - i)

/-- One step of the shift register: shift left by one, xor the generator in when the bit leaving the register differs from the
message bit. -/
def shiftIn (g : BitVec w) (r : BitVec w) (b : Bool) : BitVec w := if r.msb ^^ b then (r <<< 1) ^^^ g else r <<< 1

/-- The order in which the bits of a message are fed: reflected algorithms take the least significant bit of each byte first. -/
def messageBits (reflect : Bool) (msg : List Byte) : List Bool := msg.flatMap fun b => if reflect then (byteBits b).reverse else byteBits b

/-- The CRC of a message, by definition. -/
def crcSpec (p : Params w) (msg : List Byte) : BitVec w :=
  let r := (messageBits p.reflect msg).foldl (shiftIn p.poly) p.init
  (if p.reflect then r.reverse else r) ^^^ p.xorOut

/-! ## Linearity of the register -/

/-- the register step with message bit 0 -/
def f (g : BitVec w) (r : BitVec w) : BitVec w := if r.msb then (r <<< 1) ^^^ g else r <<< 1
/-- a bit at the top of the register -/
def top (w : Nat) (b : Bool) : BitVec w := if b then 1#w <<< (w - 1) else 0#w

theorem getLsbD_f (g r : BitVec w) (i : Nat) : (f g r).getLsbD i = (((decide (i < w) && !decide (i < 1)) && r.getLsbD (i - 1)) ^^ (r.msb && g.getLsbD i)) := by
  unfold f
  cases h : r.msb <;> simp [BitVec.getLsbD_shiftLeft]

theorem f_xor (g x y : BitVec w) : f g (x ^^^ y) = f g x ^^^ f g y := by
  apply BitVec.eq_of_getLsbD_eq
  intro i hi
  rw [BitVec.getLsbD_xor, getLsbD_f, getLsbD_f, getLsbD_f, BitVec.msb_xor, BitVec.getLsbD_xor]
  cases x.msb <;> cases y.msb <;> cases g.getLsbD i <;> cases x.getLsbD (i - 1) <;> cases y.getLsbD (i - 1) <;> cases decide (i < w) <;> cases decide (i < 1) <;> rfl

theorem rep_xor {F : BitVec w → BitVec w} (hF : ∀ x y, F (x ^^^ y) = F x ^^^ F y) (n : Nat) (x y : BitVec w) : rep n F (x ^^^ y) = rep n F x ^^^ rep n F y := by
  induction n generalizing x y with
  | zero => rfl
  | succ n ih => simp only [rep, hF, ih]

theorem getLsbD_top (b : Bool) (i : Nat) : (top w b).getLsbD i = (b && decide (i = w - 1 ∧ 0 < w)) := by
  unfold top
  cases b
  · simp
  · simp only [if_true, BitVec.getLsbD_shiftLeft, BitVec.getLsbD_one, Bool.true_and]
    by_cases h : i = w - 1 ∧ 0 < w
    · have : i < w := by omega
      simp [h.1]
    · by_cases h1 : i < w
      · by_cases h2 : i < w - 1
        · simp [h2]; omega
        · omega
      · simp [h1]; omega

theorem shiftIn_eq (hw : 0 < w) (g r : BitVec w) (b : Bool) : shiftIn g r b = f g (r ^^^ top w b) := by
  have hm : (r ^^^ top w b).msb = (r.msb ^^ b) := by
    rw [BitVec.msb_xor]
    congr 1
    rw [BitVec.msb_eq_getLsbD_last, getLsbD_top]; simp [hw]
  have hs : (r ^^^ top w b) <<< 1 = r <<< 1 := by
    apply BitVec.eq_of_getLsbD_eq
    intro i hi
    rw [BitVec.getLsbD_shiftLeft, BitVec.getLsbD_shiftLeft, BitVec.getLsbD_xor, getLsbD_top]
    have : ¬ (i - 1 = w - 1 ∧ 0 < w ∧ 1 ≤ i) := by omega
    by_cases hi1 : i < 1
    · simp [hi1]
    · have : ¬ (i - 1 = w - 1 ∧ 0 < w) := by omega
      simp [this]
  unfold shiftIn f
  rw [hm, hs]

/-- message bits laid out from the top of the register downwards -/
def place (w : Nat) : List Bool → BitVec w
  | [] => 0#w
  | b :: bs => top w b ^^^ (place w bs >>> 1)

theorem getLsbD_place (bs : List Bool) (i : Nat) (hi : i < w) : (place w bs).getLsbD i = (bs[w - 1 - i]?).getD false := by
  induction bs generalizing i with
  | nil => simp [place]
  | cons b bs ih =>
    rw [place, BitVec.getLsbD_xor, getLsbD_top, BitVec.getLsbD_ushiftRight]
    by_cases h : i = w - 1
    · subst h
      rw [show w - 1 - (w - 1) = 0 by omega]
      have : (place w bs).getLsbD (1 + (w - 1)) = false := BitVec.getLsbD_of_ge _ _ (by omega)
      rw [this]; simp; omega
    · rw [ih (1 + i) (by omega), show w - 1 - i = (w - 1 - (1 + i)) + 1 by omega, List.getElem?_cons_succ]
      simp [h]

theorem f_shift {g x : BitVec w} (h : x.getLsbD 0 = false) : f g (x >>> 1) = x := by
  have hm : (x >>> 1).msb = false := by
    rw [BitVec.msb_eq_getLsbD_last, BitVec.getLsbD_ushiftRight]
    by_cases hw : w = 0
    · subst hw; simp
    · exact BitVec.getLsbD_of_ge _ _ (by omega)
  apply BitVec.eq_of_getLsbD_eq
  intro i hi
  rw [getLsbD_f, hm, BitVec.getLsbD_ushiftRight]
  by_cases h0 : i < 1
  · have : i = 0 := by omega
    subst this; simp [h]
  · rw [show 1 + (i - 1) = i by omega]; simp [hi]; omega

theorem feed (g : BitVec w) (bs : List Bool) (hb : bs.length ≤ w) (r : BitVec w) : bs.foldl (shiftIn g) r = rep bs.length (f g) (r ^^^ place w bs) := by
  induction bs generalizing r with
  | nil => simp [place, rep]
  | cons b bs ih =>
    simp only [List.length_cons] at hb
    rw [List.foldl_cons, ih (by omega), List.length_cons, rep, place, ← BitVec.xor_assoc, f_xor, shiftIn_eq (by omega), f_shift]
    rw [getLsbD_place _ _ (by omega), List.getElem?_eq_none (by omega)]; rfl

/-- a register whose top `c` bits are clear is only shifted by `c` steps -/
theorem rep_low (g : BitVec w) (c : Nat) (x : BitVec w) (h : ∀ i, w - c ≤ i → x.getLsbD i = false) : rep c (f g) x = x <<< c := by
  induction c generalizing x with
  | zero => simp [rep]
  | succ c ih =>
    have hf : f g x = x <<< 1 := by
      unfold f
      have : x.msb = false := by rw [BitVec.msb_eq_getLsbD_last]; exact h _ (by omega)
      rw [this]; rfl
    rw [rep, hf, ih]
    · rw [← BitVec.shiftLeft_add, Nat.add_comm]
    · intro i hi
      rw [BitVec.getLsbD_shiftLeft]
      by_cases h1 : i < 1
      · simp [h1]
      · rw [h _ (by omega)]; simp

/-- The table step: with `V` and `T` (the top `c` bits of the register) confined to the top `c` bits. -/
theorem core (g : BitVec w) (c : Nat) (r V T : BitVec w) (hT : ∀ i, w - c ≤ i → T.getLsbD i = r.getLsbD i) (hT0 : ∀ i, i < w - c → T.getLsbD i = false) :
    (r <<< c) ^^^ rep c (f g) (T ^^^ V) = rep c (f g) (r ^^^ V) := by
  have h1 : r ^^^ V = (r ^^^ T) ^^^ (T ^^^ V) := by
    rw [BitVec.xor_assoc, ← BitVec.xor_assoc T, BitVec.xor_self, BitVec.zero_xor]
  rw [h1, rep_xor (f_xor g) c (r ^^^ T) (T ^^^ V), rep_low g c (r ^^^ T)]
  · congr 1
    apply BitVec.eq_of_getLsbD_eq
    intro i hi
    rw [BitVec.getLsbD_shiftLeft, BitVec.getLsbD_shiftLeft, BitVec.getLsbD_xor]
    by_cases h : i < c
    · simp [h]
    · rw [hT0 _ (by omega), Bool.xor_false]
  · intro i hi
    rw [BitVec.getLsbD_xor, hT i hi, Bool.xor_self]

/-! ## The model's pieces -/

theorem getLsbD_rev (x : BitVec w) {i : Nat} (hi : i < w) : x.reverse.getLsbD i = x.getLsbD (w - 1 - i) := by
  rw [BitVec.getLsbD_reverse, BitVec.getMsbD_eq_getLsbD]; simp [hi]

theorem revConst_eq (hw : w = 8 ∨ w = 16 ∨ w = 32 ∨ w = 64) (v : BitVec w) : revConst w v = v.reverse := by
  have key : ∀ (x : Nat), x < 2 ^ w → (∀ i, i < w → x.testBit i = v.toNat.testBit (w - 1 - i)) → BitVec.ofNat w x = v.reverse := by
    intro x hx h
    apply BitVec.eq_of_getLsbD_eq
    intro i hi
    rw [BitVec.getLsbD_ofNat, getLsbD_rev _ hi, h i hi, BitVec.testBit_toNat]; simp [hi]
  have hb := Binary.C27_reverse_bits v.toNat
  have hv := v.isLt
  unfold revConst
  rcases hw with rfl | rfl | rfl | rfl
  · exact key _ (hb.1 hv).1 (hb.1 hv).2
  · exact key _ (hb.2.1 hv).1 (hb.2.1 hv).2
  · exact key _ (hb.2.2.1 hv).1 (hb.2.2.1 hv).2
  · exact key _ (hb.2.2.2 hv).1 (hb.2.2.2 hv).2

theorem rev_rev (x : BitVec w) : x.reverse.reverse = x := by
  apply BitVec.eq_of_getLsbD_eq
  intro i hi
  rw [getLsbD_rev _ hi, getLsbD_rev _ (by omega), show w - 1 - (w - 1 - i) = i by omega]

theorem rev_xor (x y : BitVec w) : (x ^^^ y).reverse = x.reverse ^^^ y.reverse := by
  apply BitVec.eq_of_getLsbD_eq
  intro i hi
  rw [BitVec.getLsbD_xor, getLsbD_rev _ hi, getLsbD_rev _ hi, getLsbD_rev _ hi, BitVec.getLsbD_xor]

theorem rev_shr (x : BitVec w) (c : Nat) : (x >>> c).reverse = x.reverse <<< c := by
  apply BitVec.eq_of_getLsbD_eq
  intro i hi
  rw [getLsbD_rev _ hi, BitVec.getLsbD_shiftLeft, BitVec.getLsbD_ushiftRight]
  by_cases h : i < c
  · rw [BitVec.getLsbD_of_ge _ _ (by omega)]; simp [h]
  · rw [getLsbD_rev _ (by omega), show w - 1 - (i - c) = c + (w - 1 - i) by omega]; simp [hi]; omega

theorem and_top (hw : 0 < w) (e : BitVec w) : ((e &&& (1#w <<< (w - 1))) ≠ 0#w) ↔ e.msb = true := by
  rw [BitVec.msb_eq_getLsbD_last]
  constructor
  · intro h
    by_contra hc
    apply h
    apply BitVec.eq_of_getLsbD_eq
    intro i hi
    have := getLsbD_top (w := w) true i
    rw [top, if_pos rfl] at this
    rw [BitVec.getLsbD_and, this]
    by_cases h2 : i = w - 1
    · subst h2; simp at hc; simp [hc]
    · simp [h2]
  · intro h hc
    have h3 := congrArg (fun x => x.getLsbD (w - 1)) hc
    have := getLsbD_top (w := w) true (w - 1)
    rw [top, if_pos rfl] at this
    simp only [BitVec.getLsbD_and, this, h] at h3
    simp [hw] at h3

theorem and_one (hw : 0 < w) (e : BitVec w) : ((e &&& 1#w) ≠ 0#w) ↔ e.getLsbD 0 = true := by
  constructor
  · intro h
    by_contra hc
    apply h
    apply BitVec.eq_of_getLsbD_eq
    intro i hi
    rw [BitVec.getLsbD_and, BitVec.getLsbD_one]
    by_cases h2 : i = 0
    · subst h2; simp at hc; simp [hc]
    · simp [h2]
  · intro h hc
    have h3 := congrArg (fun x => x.getLsbD 0) hc
    simp only [BitVec.getLsbD_and, BitVec.getLsbD_one, h] at h3
    simp [hw] at h3

theorem partialEntry_fwd (hw : 0 < w) {p : Params w} (hr : p.reflect = false) (e : BitVec w) : partialEntry p e = f p.poly e := by
  unfold partialEntry f
  rw [hr, if_neg (by decide)]
  cases h : e.msb
  · rw [if_neg (by rw [and_top hw, h]; decide)]; rfl
  · rw [if_pos (by rw [and_top hw, h])]; rfl

theorem partialEntry_rev (hw : w = 8 ∨ w = 16 ∨ w = 32 ∨ w = 64) {p : Params w} (hr : p.reflect = true) (e : BitVec w) :
    (partialEntry p e).reverse = f p.poly e.reverse := by
  have h0 : 0 < w := by omega
  have hm : e.reverse.msb = e.getLsbD 0 := by
    rw [BitVec.msb_eq_getLsbD_last, getLsbD_rev _ (by omega)]; congr 1; omega
  unfold partialEntry f
  rw [hr, if_pos rfl, hm]
  cases h : e.getLsbD 0
  · rw [if_neg (by rw [and_one h0, h]; decide), rev_shr]; rfl
  · rw [if_pos (by rw [and_one h0, h]), rev_xor, rev_shr, revConst_eq hw, rev_rev]; rfl

theorem rep_fwd (hw : 0 < w) {p : Params w} (hr : p.reflect = false) (n : Nat) (e : BitVec w) : rep n (partialEntry p) e = rep n (f p.poly) e := by
  induction n generalizing e with
  | zero => rfl
  | succ n ih => rw [rep, rep, partialEntry_fwd hw hr, ih]

theorem rep_rev (hw : w = 8 ∨ w = 16 ∨ w = 32 ∨ w = 64) {p : Params w} (hr : p.reflect = true) (n : Nat) (e : BitVec w) :
    (rep n (partialEntry p) e).reverse = rep n (f p.poly) e.reverse := by
  induction n generalizing e with
  | zero => rfl
  | succ n ih => rw [rep, rep, ih, partialEntry_rev hw hr]

/-- the bits of the low `c` bits of a number, most significant first -/
def chunkBits (c v : Nat) : List Bool := (List.range c).map fun i => v.testBit (c - 1 - i)

@[simp] theorem chunkBits_length (c v : Nat) : (chunkBits c v).length = c := by simp [chunkBits]

theorem chunk_get (c v k : Nat) : ((chunkBits c v)[k]?).getD false = (decide (k < c) && v.testBit (c - 1 - k)) := by
  unfold chunkBits
  by_cases h : k < c
  · simp [h]
  · simp [h]

theorem chunk_get_rev (c v k : Nat) : ((chunkBits c v).reverse[k]?).getD false = (decide (k < c) && v.testBit k) := by
  by_cases h : k < c
  · rw [List.getElem?_reverse (by simpa using h), chunkBits_length, chunk_get]
    rw [show c - 1 - (c - 1 - k) = k by omega]
    have : c - 1 - k < c := by omega
    simp [this, h]
  · rw [List.getElem?_eq_none (by simpa using h)]; simp [h]

theorem lt_pow_of_and (a c : Nat) : a &&& (2 ^ c - 1) < 2 ^ c := by
  rw [Nat.and_two_pow_sub_one_eq_mod]; exact Nat.mod_lt _ (Nat.two_pow_pos c)

/-- One chunk of the non reflected table algorithm feeds the `c` low bits of `v`, most significant first. -/
theorem updateChunk_fwd (hw : 0 < w) {p : Params w} (hr : p.reflect = false) {c : Nat} (hc : c ≤ w) (hc8 : c ≤ 8) (r : BitVec w) (v : Nat) :
    updateChunk p c r v = .ok ((chunkBits c v).foldl (shiftIn p.poly) r) := by
  have hhi : r.toNat >>> (w - c) < 2 ^ c := by
    rw [Nat.shiftRight_eq_div_pow, Nat.div_lt_iff_lt_mul (Nat.two_pow_pos _), ← Nat.pow_add, show c + (w - c) = w by omega]
    exact r.isLt
  have hidx : (r.toNat >>> (w - c)) ^^^ (v &&& (2 ^ c - 1)) < 2 ^ c := Nat.xor_lt_two_pow hhi (lt_pow_of_and v c)
  have h256 : 2 ^ c ≤ 256 := by
    calc 2 ^ c ≤ 2 ^ 8 := Nat.pow_le_pow_right (by omega) hc8
      _ = 256 := rfl
  rw [feed _ _ (by simpa using hc), chunkBits_length]
  unfold updateChunk
  simp only [hr, Bool.false_eq_true, if_false]
  rw [Nat.mod_eq_of_lt (by omega)]
  unfold table
  rw [List.getElem?_map, List.getElem?_range hidx]
  simp only [Option.map_some, tableEntry, hr, Bool.false_eq_true, if_false]
  rw [rep_fwd hw hr]
  have hsplit : BitVec.ofNat w ((r.toNat >>> (w - c)) ^^^ (v &&& (2 ^ c - 1))) <<< (w - c) = (BitVec.ofNat w (r.toNat >>> (w - c)) <<< (w - c)) ^^^ place w (chunkBits c v) := by
    apply BitVec.eq_of_getLsbD_eq
    intro i hi
    rw [BitVec.getLsbD_xor, getLsbD_place _ _ hi, chunk_get, BitVec.getLsbD_shiftLeft, BitVec.getLsbD_shiftLeft, BitVec.getLsbD_ofNat, BitVec.getLsbD_ofNat, Nat.testBit_xor,
      Nat.testBit_and, Nat.testBit_two_pow_sub_one]
    by_cases h : i < w - c
    · have h2 : ¬ (w - 1 - i < c) := by omega
      simp [h, h2]
    · have h2 : w - 1 - i < c := by omega
      have h3 : i - (w - c) < w := by omega
      have h4 : i - (w - c) < c := by omega
      have h5 : c - 1 - (w - 1 - i) = i - (w - c) := by omega
      simp [h, h2, h3, h4, h5, hi]
  have hmain := core p.poly c r (place w (chunkBits c v)) (BitVec.ofNat w (r.toNat >>> (w - c)) <<< (w - c)) (by
    intro i hi
    by_cases hiw : i < w
    · rw [BitVec.getLsbD_shiftLeft, BitVec.getLsbD_ofNat, Nat.testBit_shiftRight, BitVec.testBit_toNat, show w - c + (i - (w - c)) = i by omega]
      have h3 : i - (w - c) < w := by omega
      have h4 : ¬ i < w - c := by omega
      simp [h3, h4, hiw]
    · rw [BitVec.getLsbD_of_ge _ _ (by omega), BitVec.getLsbD_of_ge _ _ (by omega)]) (by
    intro i hi
    rw [BitVec.getLsbD_shiftLeft]; simp [hi])
  rw [hsplit]
  by_cases hwc : w > c
  · rw [if_pos hwc, hmain]
  · have : c = w := by omega
    subst this
    rw [if_neg hwc, ← hmain]
    simp

/-- One chunk of the reflected table algorithm, seen in the mirrored register, feeds the `c` low bits of `v`, least significant first. -/
theorem updateChunk_rev (hw : w = 8 ∨ w = 16 ∨ w = 32 ∨ w = 64) {p : Params w} (hr : p.reflect = true) {c : Nat} (hc : c ≤ w) (hc8 : c ≤ 8) (r : BitVec w) (v : Nat) :
    updateChunk p c r.reverse v = .ok ((chunkBits c v).reverse.foldl (shiftIn p.poly) r).reverse := by
  have hidx : (r.reverse.toNat &&& (2 ^ c - 1)) ^^^ (v &&& (2 ^ c - 1)) < 2 ^ c := Nat.xor_lt_two_pow (lt_pow_of_and _ c) (lt_pow_of_and v c)
  have h256 : 2 ^ c ≤ 256 := by
    calc 2 ^ c ≤ 2 ^ 8 := Nat.pow_le_pow_right (by omega) hc8
      _ = 256 := rfl
  rw [feed _ _ (by simpa using hc), List.length_reverse, chunkBits_length]
  unfold updateChunk
  simp only [hr, if_true]
  rw [Nat.mod_eq_of_lt (by omega)]
  unfold table
  rw [List.getElem?_map, List.getElem?_range hidx]
  simp only [Option.map_some, tableEntry, hr, if_true]
  have hrev : ∀ x y : BitVec w, x.reverse = y → x = y.reverse := by
    intro x y h; rw [← h, rev_rev]
  have hsplit : (BitVec.ofNat w ((r.reverse.toNat &&& (2 ^ c - 1)) ^^^ (v &&& (2 ^ c - 1)))).reverse = (BitVec.ofNat w (r.reverse.toNat &&& (2 ^ c - 1))).reverse ^^^ place w (chunkBits c v).reverse := by
    apply BitVec.eq_of_getLsbD_eq
    intro i hi
    rw [BitVec.getLsbD_xor, getLsbD_place _ _ hi, chunk_get_rev, getLsbD_rev _ hi, getLsbD_rev _ hi, BitVec.getLsbD_ofNat, BitVec.getLsbD_ofNat, Nat.testBit_xor,
      Nat.testBit_and v, Nat.testBit_two_pow_sub_one]
    have h3 : w - 1 - i < w := by omega
    simp [h3, Bool.and_comm]
  have hmain := core p.poly c r (place w (chunkBits c v).reverse) (BitVec.ofNat w (r.reverse.toNat &&& (2 ^ c - 1))).reverse (by
    intro i hi
    by_cases hiw : i < w
    · rw [getLsbD_rev _ hiw, BitVec.getLsbD_ofNat, Nat.testBit_and, Nat.testBit_two_pow_sub_one, BitVec.testBit_toNat, getLsbD_rev _ (by omega), show w - 1 - (w - 1 - i) = i by omega]
      have h3 : w - 1 - i < w := by omega
      have h4 : w - 1 - i < c := by omega
      simp [h3, h4]
    · rw [BitVec.getLsbD_of_ge _ _ (by omega), BitVec.getLsbD_of_ge _ _ (by omega)]) (by
    intro i hi
    rw [getLsbD_rev _ (by omega), BitVec.getLsbD_ofNat, Nat.testBit_and, Nat.testBit_two_pow_sub_one]
    have h4 : ¬ (w - 1 - i < c) := by omega
    simp [h4])
  by_cases hwc : w > c
  · rw [if_pos hwc]
    congr 1
    apply hrev
    rw [rev_xor, rep_rev hw hr, hsplit, rev_shr, rev_rev, hmain]
  · have : c = w := by omega
    subst this
    rw [if_neg hwc]
    congr 1
    apply hrev
    rw [rep_rev hw hr, hsplit, ← hmain]
    simp

/-! ## A whole byte -/

theorem chunk_append (a b v : Nat) : chunkBits (a + b) v = chunkBits a (v >>> b) ++ chunkBits b v := by
  apply List.ext_getElem?
  intro k
  by_cases h : k < a
  · rw [List.getElem?_append_left (by simpa using h)]
    unfold chunkBits
    have h2 : k < a + b := by omega
    simp only [List.getElem?_map, List.getElem?_range h, List.getElem?_range h2, Option.map_some, Nat.testBit_shiftRight]
    congr 2; omega
  · rw [List.getElem?_append_right (by simpa using h), chunkBits_length]
    unfold chunkBits
    by_cases h2 : k < a + b
    · have h3 : k - a < b := by omega
      simp only [List.getElem?_map, List.getElem?_range h3, List.getElem?_range h2, Option.map_some]
      congr 2; omega
    · rw [List.getElem?_eq_none (by simpa using h2), List.getElem?_eq_none (by simp; omega)]

theorem byteBits_eq (b : Byte) : byteBits b = chunkBits 8 b.toNat := by
  unfold byteBits chunkBits
  apply List.map_congr_left
  intro i _
  rw [BitVec.testBit_toNat]

theorem byteBits2 (b : Byte) : byteBits b = chunkBits 2 (b.toNat >>> (2 * 3)) ++ (chunkBits 2 (b.toNat >>> (2 * 2)) ++ (chunkBits 2 (b.toNat >>> (2 * 1)) ++ chunkBits 2 b.toNat)) := by
  rw [byteBits_eq]
  generalize b.toNat = v
  rw [show 8 = 2 + (2 + (2 + 2)) from rfl, chunk_append, chunk_append, chunk_append]
theorem byteBits4 (b : Byte) : byteBits b = chunkBits 4 (b.toNat >>> 4) ++ chunkBits 4 b.toNat := by
  rw [byteBits_eq]
  generalize b.toNat = v
  rw [show 8 = 4 + 4 from rfl, chunk_append]

theorem add_fwd (hw : 8 ≤ w) {p : Params w} (hr : p.reflect = false) {c : Nat} (hc : c = 2 ∨ c = 4 ∨ c = 8) (r : BitVec w) (b : Byte) :
    add p c r b = .ok ((byteBits b).foldl (shiftIn p.poly) r) := by
  have u : ∀ (r : BitVec w) (v : Nat), updateChunk p c r v = .ok ((chunkBits c v).foldl (shiftIn p.poly) r) :=
    fun r v => updateChunk_fwd (by omega) hr (by omega) (by omega) r v
  unfold add
  rcases hc with rfl | rfl | rfl
  · simp only [if_true, hr, Bool.false_eq_true, if_false, u, bind, Except.bind]
    rw [byteBits2, List.foldl_append, List.foldl_append, List.foldl_append]
  · simp only [show ¬ (4 = 2) by decide, if_true, hr, Bool.false_eq_true, if_false, u, bind, Except.bind]
    rw [byteBits4, List.foldl_append]
  · simp only [show ¬ (8 = 2) by decide, show ¬ (8 = 4) by decide, if_false, u]
    rw [byteBits_eq]

theorem add_rev (hw : w = 8 ∨ w = 16 ∨ w = 32 ∨ w = 64) {p : Params w} (hr : p.reflect = true) {c : Nat} (hc : c = 2 ∨ c = 4 ∨ c = 8) (r : BitVec w) (b : Byte) :
    add p c r.reverse b = .ok ((byteBits b).reverse.foldl (shiftIn p.poly) r).reverse := by
  have u : ∀ (r : BitVec w) (v : Nat), updateChunk p c r.reverse v = .ok ((chunkBits c v).reverse.foldl (shiftIn p.poly) r).reverse :=
    fun r v => updateChunk_rev hw hr (by omega) (by omega) r v
  unfold add
  rcases hc with rfl | rfl | rfl
  · simp only [if_true, hr, u, bind, Except.bind]
    rw [byteBits2, List.reverse_append, List.reverse_append, List.reverse_append, List.foldl_append, List.foldl_append, List.foldl_append]
  · simp only [show ¬ (4 = 2) by decide, if_true, if_false, hr, u, bind, Except.bind]
    rw [byteBits4, List.reverse_append, List.foldl_append]
  · simp only [show ¬ (8 = 2) by decide, show ¬ (8 = 4) by decide, if_false, u]
    rw [byteBits_eq]

/-- the register of the implementation: mirrored for reflected algorithms -/
def view (p : Params w) (r : BitVec w) : BitVec w := if p.reflect then r.reverse else r

theorem view_view (p : Params w) (r : BitVec w) : view p (view p r) = r := by
  unfold view; split
  · exact rev_rev r
  · rfl

theorem policy_pure (hw : w = 8 ∨ w = 16 ∨ w = 32 ∨ w = 64) (p : Params w) {c : Nat} (hc : c = 2 ∨ c = 4 ∨ c = 8) :
    Pure (policy p c) (view p p.init) (fun v b => view p ((if p.reflect then (byteBits b).reverse else byteBits b).foldl (shiftIn p.poly) (view p v))) (· ^^^ p.xorOut) := by
  refine ⟨?_, ?_, fun v => rfl⟩
  · simp only [policy, view, revConst_eq hw]
  · intro v b
    show add p c v b = _
    unfold view
    cases hr : p.reflect
    · exact add_fwd (by omega) hr hc v b
    · have := add_rev hw hr hc v.reverse b
      rw [rev_rev] at this
      exact this

theorem fold_view (p : Params w) (bs : List Byte) (r : BitVec w) :
    bs.foldl (fun v b => view p ((if p.reflect then (byteBits b).reverse else byteBits b).foldl (shiftIn p.poly) (view p v))) (view p r) =
      view p ((messageBits p.reflect bs).foldl (shiftIn p.poly) r) := by
  induction bs generalizing r with
  | nil => rfl
  | cons b bs ih =>
    rw [List.foldl_cons, view_view, ih]
    simp only [messageBits, List.flatMap_cons, List.foldl_append]

/-- C23.  For every accumulator width ETL supports, every polynomial, initial value, final xor and reflection setting, and each of the
three table sizes (4, 16 and 256 entries: chunks of 2, 4 and 8 bits): whatever the history of `add` calls, range `add`s, `reset`s and
`value` calls on a default constructed object, no call fails (no table access is out of bounds) and every `value()` is the bit-serial
CRC of the bytes added since the last reset, however they were split. -/
theorem C23_crc (hw : w = 8 ∨ w = 16 ∨ w = 32 ∨ w = 64) (p : Params w) {c : Nat} (hc : c = 2 ∨ c = 4 ∨ c = 8) (ops : List Op) :
    ∃ s, run (policy p c) (construct (policy p c) () 0#w) ops = .ok (s, observations (crcSpec p) ops []) := by
  have hp := policy_pure hw p hc
  obtain ⟨s, h⟩ := run_pure hp ops (construct (policy p c) () 0#w) [] (by simp only [construct, reset, hp.initial]; rfl)
  refine ⟨s, h.trans ?_⟩
  have : (fun bs => (bs.foldl (fun v b => view p ((if p.reflect then (byteBits b).reverse else byteBits b).foldl (shiftIn p.poly) (view p v))) (view p p.init)) ^^^ p.xorOut) = crcSpec p := by
    funext bs
    rw [fold_view]; rfl
  rw [this]

/-- C23 for the constructor from a range: `crc_type(begin, end).value()`. -/
theorem C23_range (hw : w = 8 ∨ w = 16 ∨ w = 32 ∨ w = 64) (p : Params w) {c : Nat} (hc : c = 2 ∨ c = 4 ∨ c = 8) (msg : List Byte) :
    ∃ s, constructRange (policy p c) () 0#w msg = .ok s ∧ (value (policy p c) s).2 = crcSpec p msg := by
  have hp := policy_pure hw p hc
  refine ⟨_, addRange_pure hp _ _, ?_⟩
  show _ ^^^ p.xorOut = _
  simp only [construct, reset, hp.initial]
  rw [fold_view]; rfl

/-- The "check" values of the CRC catalogue ("123456789"), computed by the specification. -/
example : crcSpec (w := 16) ⟨0x1021#16, 0xFFFF#16, 0#16, false⟩ [0x31, 0x32, 0x33, 0x34, 0x35, 0x36, 0x37, 0x38, 0x39] = 0x29B1#16 := by decide +kernel
example : crcSpec (w := 32) ⟨0x04C11DB7#32, 0xFFFFFFFF#32, 0xFFFFFFFF#32, true⟩ [0x31, 0x32, 0x33, 0x34, 0x35, 0x36, 0x37, 0x38, 0x39] = 0xCBF43926#32 := by decide +kernel
example : crcSpec (w := 16) ⟨0x8005#16, 0x0000#16, 0#16, true⟩ [0x31, 0x32, 0x33, 0x34, 0x35, 0x36, 0x37, 0x38, 0x39] = 0xBB3D#16 := by decide +kernel

/-! ### The published parameter sets

For every CRC that ETL names, the value of the ASCII message "123456789", as listed in the public catalogue of CRC algorithms (a table independent of the source). -/

def checkMessage : List Byte := [0x31, 0x32, 0x33, 0x34, 0x35, 0x36, 0x37, 0x38, 0x39].map (BitVec.ofNat 8)
/-- CRC-8/SMBUS, ROHC, CDMA2000, DARC, DVB-S2, TECH-3250, I-CODE, I-432-1, MAXIM-DOW, WCDMA, SAE-J1850, GSM-A -/
def checks8 : List (String × Nat) := [
  ("crc8_ccitt", 0xF4), ("crc8_rohc", 0xD0), ("crc8_cdma2000", 0xDA), ("crc8_darc", 0x15), ("crc8_dvbs2", 0xBC), ("crc8_ebu", 0x97), ("crc8_icode", 0x7E), ("crc8_itu", 0xA1),
  ("crc8_maxim", 0xA1), ("crc8_wcdma", 0x25), ("crc8_j1850", 0x4B), ("crc8_j1850_zero", 0x37)]
def checks16 : List (String × Nat) := [
  ("crc16", 0xBB3D), ("crc16_ccitt", 0x29B1), ("crc16_aug_ccitt", 0xE5CC), ("crc16_buypass", 0xFEE8), ("crc16_genibus", 0xD64E), ("crc16_profibus", 0xA819), ("crc16_kermit", 0x2189),
  ("crc16_modbus", 0x4B37), ("crc16_usb", 0xB4C8), ("crc16_x25", 0x906E), ("crc16_xmodem", 0x31C3), ("crc16_cdma2000", 0x4C06), ("crc16_dds110", 0x9ECF), ("crc16_dect_r", 0x007E),
  ("crc16_dect_x", 0x007F), ("crc16_dnp", 0xEA82), ("crc16_en13757", 0xC2B7), ("crc16_maxim", 0x44C2), ("crc16_mcrf4xx", 0x6F91), ("crc16_riello", 0x63D0), ("crc16_t10dif", 0xD0DB),
  ("crc16_teledisk", 0x0FB3), ("crc16_tms37157", 0x26B1), ("crc16_a", 0xBF05), ("crc16_arc", 0xBB3D), ("crc16_m17", 0x772B)]
def checks32 : List (String × Nat) := [
  ("crc32", 0xCBF43926), ("crc32_c", 0xE3069283), ("crc32_bzip2", 0xFC891918), ("crc32_mpeg2", 0x0376E6E7), ("crc32_posix", 0x765E7680), ("crc32_d", 0x87315576), ("crc32_q", 0x3010BF7F),
  ("crc32_jamcrc", 0x340BC6D9), ("crc32_xfer", 0xBD0BE338)]
def checks64 : List (String × Nat) := [("crc64_ecma", 0x6C40DF5F0B497347)]

/-- A table of checks holds of a table of parameter sets: the same names, and for each the implementation (with `c` bits a chunk) computes the check value. -/
def Published (c : Nat) (ps : List (String × Params w)) (checks : List (String × Nat)) : Prop :=
  ps.map Prod.fst = checks.map Prod.fst ∧
    ∀ x ∈ ps.zip checks, ∃ s, constructRange (policy x.1.2 c) () 0#w checkMessage = .ok s ∧ (value (policy x.1.2 c) s).2.toNat = x.2.2

theorem published_of_spec (hw : w = 8 ∨ w = 16 ∨ w = 32 ∨ w = 64) {c : Nat} (hc : c = 2 ∨ c = 4 ∨ c = 8) {ps : List (String × Params w)} {checks : List (String × Nat)}
    (h : ps.map Prod.fst = checks.map Prod.fst ∧ ∀ x ∈ ps.zip checks, (crcSpec x.1.2 checkMessage).toNat = x.2.2) : Published c ps checks := by
  refine ⟨h.1, fun x hx => ?_⟩
  obtain ⟨s, e1, e2⟩ := C23_range hw x.1.2 hc checkMessage
  exact ⟨s, e1, by rw [e2]; exact h.2 x hx⟩

/-- C23: every published parameter set, with each of the three table sizes, is the CRC of that name. -/
theorem C23_published {c : Nat} (hc : c = 2 ∨ c = 4 ∨ c = 8) : Published c params8 checks8 ∧ Published c params16 checks16 ∧ Published c params32 checks32 ∧ Published c params64 checks64 :=
  ⟨published_of_spec (by decide) hc (by decide +kernel), published_of_spec (by decide) hc (by decide +kernel), published_of_spec (by decide) hc (by decide +kernel),
   published_of_spec (by decide) hc (by decide +kernel)⟩

/-- C23, `crc1`: the parity of the number of set bits added since the last reset. -/
theorem C23_crc1 (ops : List Op) :
    ∃ s, run crc1Policy (construct crc1Policy () 0#8) ops = .ok (s, observations (fun bs => BitVec.ofNat 8 ((bs.map fun b => (byteBits b).count true).sum % 2)) ops []) := by
  have pc : ∀ b : Byte, Binary.parity8 b.toNat = (byteBits b).count true % 2 := by decide +kernel
  have hp : Pure crc1Policy 0#8 (fun v b => BitVec.ofNat 8 (v.toNat ^^^ Binary.parity8 b.toNat)) id := ⟨rfl, fun _ _ => rfl, fun _ => rfl⟩
  obtain ⟨s, h⟩ := run_pure hp ops (construct crc1Policy () 0#8) [] rfl
  refine ⟨s, h.trans ?_⟩
  have hx : ∀ a b : Nat, (a % 2) ^^^ (b % 2) = (a + b) % 2 := by
    intro a b
    rcases Nat.mod_two_eq_zero_or_one a with h1 | h1 <;> rcases Nat.mod_two_eq_zero_or_one b with h2 | h2 <;> rw [h1, h2, Nat.add_mod, h1, h2] <;> rfl
  have : (fun bs : List Byte => id (bs.foldl (fun v b => BitVec.ofNat 8 (v.toNat ^^^ Binary.parity8 b.toNat)) 0#8)) =
      (fun bs => BitVec.ofNat 8 ((bs.map fun b => (byteBits b).count true).sum % 2)) := by
    funext bs
    have key : ∀ (bs : List Byte) (n : Nat), bs.foldl (fun v b => BitVec.ofNat 8 (v.toNat ^^^ Binary.parity8 b.toNat)) (BitVec.ofNat 8 (n % 2)) =
        BitVec.ofNat 8 ((n + (bs.map fun b => (byteBits b).count true).sum) % 2) := by
      intro bs
      induction bs with
      | nil => intro n; simp
      | cons b bs ih =>
        intro n
        rw [List.foldl_cons, pc, BitVec.toNat_ofNat, Nat.mod_eq_of_lt (by omega), hx, ih]
        simp [Nat.add_assoc]
    have := key bs 0
    simpa using this
  rw [this]

/-! ## C52: error detection -/

theorem f_zero {g x : BitVec w} (hg : g.getLsbD 0 = true) (h : f g x = 0#w) : x = 0#w := by
  have hw : 0 < w := by
    by_contra hc
    rw [BitVec.getLsbD_of_ge _ _ (by omega)] at hg; cases hg
  have hm : x.msb = false := by
    have h0 := congrArg (fun y => y.getLsbD 0) h
    simp only [getLsbD_f, hg, BitVec.getLsbD_zero] at h0
    simpa using h0
  apply BitVec.eq_of_getLsbD_eq
  intro i hi
  by_cases hl : i = w - 1
  · subst hl; rw [← BitVec.msb_eq_getLsbD_last, hm]; simp
  · have h0 := congrArg (fun y => y.getLsbD (i + 1)) h
    simp only [getLsbD_f, hm, BitVec.getLsbD_zero] at h0
    have : i + 1 < w := by omega
    simpa [this] using h0

theorem xor_eq_zero {x y : BitVec w} (h : x ^^^ y = 0#w) : x = y := by
  have := congrArg (· ^^^ y) h
  simpa [BitVec.xor_assoc] using this

theorem f_inj {g x y : BitVec w} (hg : g.getLsbD 0 = true) (h : f g x = f g y) : x = y := by
  apply xor_eq_zero
  apply f_zero hg
  rw [f_xor, h, BitVec.xor_self]

theorem rep_inj {g x y : BitVec w} (hg : g.getLsbD 0 = true) (n : Nat) (h : rep n (f g) x = rep n (f g) y) : x = y := by
  induction n generalizing x y with
  | zero => exact h
  | succ n ih => exact f_inj hg (ih h)

theorem foldl_inj {g x y : BitVec w} (hg : g.getLsbD 0 = true) (bs : List Bool) (h : bs.foldl (shiftIn g) x = bs.foldl (shiftIn g) y) : x = y := by
  have hw : 0 < w := by
    by_contra hc
    rw [BitVec.getLsbD_of_ge _ _ (by omega)] at hg; cases hg
  induction bs generalizing x y with
  | nil => exact h
  | cons b bs ih =>
    have h1 := ih h
    rw [shiftIn_eq hw, shiftIn_eq hw] at h1
    have h2 := f_inj hg h1
    have := congrArg (· ^^^ top w b) h2
    simpa [BitVec.xor_assoc] using this

theorem place_inj {a b : List Bool} (hl : a.length = b.length) (hw : a.length ≤ w) (h : place w a = place w b) : a = b := by
  apply List.ext_getElem hl
  intro k h1 h2
  have h0 : (place w a).getLsbD (w - 1 - k) = (place w b).getLsbD (w - 1 - k) := by rw [h]
  rw [getLsbD_place _ _ (by omega), getLsbD_place _ _ (by omega), show w - 1 - (w - 1 - k) = k by omega] at h0
  simpa [List.getElem?_eq_getElem h1, List.getElem?_eq_getElem h2] using h0

/-- C52, burst errors.  Take any CRC whose polynomial has its lowest bit set.  If two messages, as bit streams in transmission order,
agree except inside a window of at most `w` (the CRC width) consecutive bits, where they differ, then the check values computed by the
implementation differ: every error burst of up to `w` bits (in particular every single bit error) is detected. -/
theorem C52_burst_detected (hw : w = 8 ∨ w = 16 ∨ w = 32 ∨ w = 64) (p : Params w) (hodd : p.poly.getLsbD 0 = true) {c : Nat} (hc : c = 2 ∨ c = 4 ∨ c = 8)
    (m₁ m₂ : List Byte) (pre b₁ b₂ post : List Bool)
    (h₁ : messageBits p.reflect m₁ = pre ++ b₁ ++ post) (h₂ : messageBits p.reflect m₂ = pre ++ b₂ ++ post)
    (hl : b₁.length = b₂.length) (hlen : b₁.length ≤ w) (hne : b₁ ≠ b₂) :
    ∃ s₁ s₂, constructRange (policy p c) () 0#w m₁ = .ok s₁ ∧ constructRange (policy p c) () 0#w m₂ = .ok s₂ ∧
      (value (policy p c) s₁).2 ≠ (value (policy p c) s₂).2 := by
  obtain ⟨s₁, e₁, v₁⟩ := C23_range hw p hc m₁
  obtain ⟨s₂, e₂, v₂⟩ := C23_range hw p hc m₂
  refine ⟨s₁, s₂, e₁, e₂, ?_⟩
  rw [v₁, v₂]
  intro h
  apply hne
  unfold crcSpec at h
  rw [h₁, h₂] at h
  have h3 : ∀ a b x : BitVec w, a ^^^ x = b ^^^ x → a = b := by
    intro a b x hh
    have := congrArg (· ^^^ x) hh
    simpa [BitVec.xor_assoc] using this
  have h4 := congrArg (view p) (h3 _ _ _ h)
  have h5 := (view_view p _).symm.trans (h4.trans (view_view p _))
  rw [List.foldl_append, List.foldl_append, List.foldl_append, List.foldl_append] at h5
  have h6 := foldl_inj hodd post h5
  rw [feed _ b₁ hlen, feed _ b₂ (by omega), hl] at h6
  have h7 := rep_inj hodd _ h6
  apply place_inj hl hlen
  have := congrArg (fun z => pre.foldl (shiftIn p.poly) p.init ^^^ z) h7
  simpa [← BitVec.xor_assoc] using this

/-- The hypothesis on the polynomial is met by every parameter set ETL publishes. -/
theorem C52_all_polynomials_odd :
    (∀ p ∈ params8, p.2.poly.getLsbD 0 = true) ∧ (∀ p ∈ params16, p.2.poly.getLsbD 0 = true) ∧ (∀ p ∈ params32, p.2.poly.getLsbD 0 = true) ∧
    (∀ p ∈ params64, p.2.poly.getLsbD 0 = true) := by decide +kernel

/-- A two bit burst across a byte boundary meets the hypotheses. -/
example : messageBits false [0x01, 0x80] = [false, false, false, false, false, false, false] ++ [true, true] ++ [false, false, false, false, false, false, false] ∧
    messageBits false [0x00, 0x00] = [false, false, false, false, false, false, false] ++ [false, false] ++ [false, false, false, false, false, false, false] := by decide +kernel

/-! ## C53: the residue -/

/-- The `n` bytes of a number, most significant first. -/
def bytesBE : Nat → Nat → List Byte
  | 0, _ => []
  | n + 1, v => BitVec.ofNat 8 (v >>> (8 * n)) :: bytesBE n v

/-- The bytes of a check value in the order in which it is transmitted: most significant first, or least significant first for
reflected CRCs. -/
def trailer (p : Params w) (v : BitVec w) : List Byte := if p.reflect then (bytesBE (w / 8) v.toNat).reverse else bytesBE (w / 8) v.toNat

theorem byteBits_ofNat (v : Nat) : byteBits (BitVec.ofNat 8 v) = chunkBits 8 v := by
  unfold byteBits chunkBits
  apply List.map_congr_left
  intro i hi
  rw [BitVec.getLsbD_ofNat]
  have : 7 - i < 8 := by omega
  simp [this]

theorem bits_bytesBE (n v : Nat) : messageBits false (bytesBE n v) = chunkBits (8 * n) v := by
  induction n with
  | zero => rfl
  | succ n ih =>
    rw [bytesBE, show 8 * (n + 1) = 8 + 8 * n by omega, chunk_append, ← ih, ← byteBits_ofNat]
    rfl

theorem bits_rev (bs : List Byte) : messageBits true bs.reverse = (messageBits false bs).reverse := by
  induction bs with
  | nil => rfl
  | cons b bs ih =>
    have e1 : messageBits true (bs.reverse ++ [b]) = messageBits true bs.reverse ++ (byteBits b).reverse := by
      simp [messageBits, List.flatMap_append]
    have e2 : messageBits false (b :: bs) = byteBits b ++ messageBits false bs := by simp [messageBits]
    rw [List.reverse_cons, e1, e2, List.reverse_append, ih]

theorem place_chunk (x : BitVec w) : place w (chunkBits w x.toNat) = x := by
  apply BitVec.eq_of_getLsbD_eq
  intro i hi
  rw [getLsbD_place _ _ hi, chunk_get, BitVec.testBit_toNat, show w - 1 - (w - 1 - i) = i by omega]
  have : w - 1 - i < w := by omega
  simp [this]

theorem place_chunk_rev (x : BitVec w) : place w (chunkBits w x.toNat).reverse = x.reverse := by
  apply BitVec.eq_of_getLsbD_eq
  intro i hi
  rw [getLsbD_place _ _ hi, chunk_get_rev, BitVec.testBit_toNat, getLsbD_rev _ hi]
  have : w - 1 - i < w := by omega
  simp [this]

/-- C53.  For every CRC, running the implementation over a message followed by its own check value (transmitted most significant byte
first, or least significant first for reflected CRCs) gives a value that does not depend on the message; with no final xor it is 0. -/
theorem C53_residue (hw : w = 8 ∨ w = 16 ∨ w = 32 ∨ w = 64) (p : Params w) {c : Nat} (hc : c = 2 ∨ c = 4 ∨ c = 8) :
    ∃ residue : BitVec w, (p.xorOut = 0#w → residue = 0#w) ∧
      ∀ msg : List Byte, ∃ s s', constructRange (policy p c) () 0#w msg = .ok s ∧
        constructRange (policy p c) () 0#w (msg ++ trailer p (value (policy p c) s).2) = .ok s' ∧ (value (policy p c) s').2 = residue := by
  refine ⟨view p (rep w (f p.poly) (view p p.xorOut)) ^^^ p.xorOut, ?_, ?_⟩
  · intro h
    have hz : ∀ n, rep n (f p.poly) 0#w = 0#w := by
      intro n
      induction n with
      | zero => rfl
      | succ n ih =>
        have : f p.poly 0#w = 0#w := by unfold f; simp
        rw [rep, this, ih]
    have hv : view p 0#w = 0#w := by
      unfold view; split
      · apply BitVec.eq_of_getLsbD_eq
        intro i hi; rw [getLsbD_rev _ hi]; simp
      · rfl
    rw [h, hv, hz, hv, BitVec.xor_self]
  · intro msg
    obtain ⟨s, e, v⟩ := C23_range hw p hc msg
    obtain ⟨s', e', v'⟩ := C23_range hw p hc (msg ++ trailer p (value (policy p c) s).2)
    refine ⟨s, s', e, e', ?_⟩
    rw [v', v]
    have h8 : 8 * (w / 8) = w := by omega
    have hrest : (messageBits p.reflect (trailer p (crcSpec p msg))).foldl (shiftIn p.poly) ((messageBits p.reflect msg).foldl (shiftIn p.poly) p.init) = rep w (f p.poly) (view p p.xorOut) := by
      generalize hr : (messageBits p.reflect msg).foldl (shiftIn p.poly) p.init = r
      have hs : crcSpec p msg = view p r ^^^ p.xorOut := by rw [← hr]; rfl
      rw [hs]
      unfold trailer view
      cases h : p.reflect
      · simp only [Bool.false_eq_true, if_false]
        rw [bits_bytesBE, h8, feed _ _ (by simp), chunkBits_length, place_chunk, ← BitVec.xor_assoc, BitVec.xor_self, BitVec.zero_xor]
      · simp only [if_true]
        rw [bits_rev, bits_bytesBE, h8, feed _ _ (by simp), List.length_reverse, chunkBits_length, place_chunk_rev, rev_xor, rev_rev, ← BitVec.xor_assoc, BitVec.xor_self, BitVec.zero_xor]
    have hm : messageBits p.reflect (msg ++ trailer p (crcSpec p msg)) = messageBits p.reflect msg ++ messageBits p.reflect (trailer p (crcSpec p msg)) := by
      simp [messageBits]
    show view p ((messageBits p.reflect (msg ++ trailer p (crcSpec p msg))).foldl (shiftIn p.poly) p.init) ^^^ p.xorOut = _
    rw [hm, List.foldl_append, hrest]

end Etl.Crc
