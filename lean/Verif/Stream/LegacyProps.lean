import Verif.Stream.LegacyModel
import Verif.Stream.BitProps
import Mathlib.Tactic.SplitIfs

/-!
# C74: the older class bit_stream, one cursor for reading and writing
-/
namespace Etl.BitStream.Legacy
open Etl.Binary Etl.BitStream

/-! ### Specification -/

/-- One value: a bool or an integral value with its number of bits (`Field`, see C24), or a floating point value with its bytes in the memory of the machine. -/
inductive Item where
  | scalar (f : Field) | float (mem : List Nat)

/-- What is read. -/
inductive Got where
  | val (v : Val) | float (mem : List Nat)
  deriving DecidableEq

/-- As in C24, but a signed type of 32 or 64 bits cannot be sent with one bit less than its width: see `sign_extend_overflows`. -/
def Item.Legal : Item → Prop
  | .scalar (.int W n v) => (Field.int W n v).Legal ∧ ¬ (32 ≤ W ∧ n = W - 1)
  | .scalar f => f.Legal
  | .float mem => ∀ x ∈ mem, x < 256

def Item.bits : Item → Nat
  | .scalar f => f.bits
  | .float mem => 8 * mem.length

def Item.value : Item → Got
  | .scalar f => .val f.value
  | .float mem => .float mem

/-- What `put` answers, and what is in the stream, when `room` bits are left.  A value that does not fit is left out; but of a floating point value that does not fit, as many bytes as fit, in network order, are in the stream. -/
def sent (host : Endian) (room : Nat) : List Item → List Bool × List Item
  | [] => ([], [])
  | .scalar f :: is =>
    if f.bits ≤ room then (true :: (sent host (room - f.bits) is).1, .scalar f :: (sent host (room - f.bits) is).2)
    else (false :: (sent host room is).1, (sent host room is).2)
  | .float mem :: is =>
    if 8 * mem.length ≤ room then (true :: (sent host (room - 8 * mem.length) is).1, .float mem :: (sent host (room - 8 * mem.length) is).2)
    else (false :: (sent host (room % 8) is).1, ((network host mem).take (room / 8)).map (fun x => .scalar (.nat 8 8 x)) ++ (sent host (room % 8) is).2)

/-- The values of the caller's variables before a `get`. -/
structure Old where
  flag : Bool
  int : Nat
  float : List Nat

/-! ### The calls on the model -/

def put (host : Endian) (b : Bs) : Item → Res (Bs × Bool)
  | .scalar (.flag v) => putBool b v
  | .scalar (.nat W n v) => putNat b W n v
  | .scalar (.int W n v) => putInt b W n v
  | .float mem => putFloat host b mem

def putAll (host : Endian) (b : Bs) : List Item → Res (Bs × List Bool)
  | [] => .ok (b, [])
  | i :: is => match put host b i with
    | .error u => .error u
    | .ok (b, r) => match putAll host b is with
      | .error u => .error u
      | .ok (b, rs) => .ok (b, r :: rs)

/-- `get` for the type and the number of bits of the item (its value is not looked at): the answer, and the variable afterwards -/
def get (host : Endian) (old : Old) (b : Bs) : Item → Res (Bs × Bool × Got)
  | .scalar (.flag _) => (match getBool b old.flag with
    | .error u => .error u
    | .ok (b, r, v) => .ok (b, r, .val (.flag v)))
  | .scalar (.nat W n _) => (match getIntegral false b W n old.int with
    | .error u => .error u
    | .ok (b, r, v) => .ok (b, r, .val (.nat v)))
  | .scalar (.int W n _) => (match getIntegral true b W n old.int with
    | .error u => .error u
    | .ok (b, r, v) => .ok (b, r, .val (.int (toSigned W v))))
  | .float mem => (match getFloat host b mem.length old.float with
    | .error u => .error u
    | .ok (b, r, v) => .ok (b, r, .float v))

def getAll (host : Endian) (old : Old) (b : Bs) : List Item → Res (Bs × List (Bool × Got))
  | [] => .ok (b, [])
  | i :: is => match get host old b i with
    | .error u => .error u
    | .ok (b, r) => match getAll host old b is with
      | .error u => .error u
      | .ok (b, rs) => .ok (b, r :: rs)

/-! ### Writing -/

theorem network_network (host : Endian) (l : List Nat) : network host (network host l) = l := by
  unfold network; split_ifs <;> simp
theorem network_length (host : Endian) (l : List Nat) : (network host l).length = l.length := by
  unfold network; split_ifs <;> simp
theorem network_mem (host : Endian) (l : List Nat) (x : Nat) : x ∈ network host l ↔ x ∈ l := by
  unfold network; split_ifs <;> simp

/-- The fields of an item, in the order of the stream. -/
def fieldsOf (host : Endian) : Item → List Field
  | .scalar f => [f]
  | .float mem => (network host mem).map (fun x => .nat 8 8 x)

theorem total_append (a b : List Field) : total (a ++ b) = total a + total b := by
  induction a with
  | nil => simp [total]
  | cons x a ih => simp only [List.cons_append, total, ih]; omega

theorem holdsAll_app {e : Endian} {buf : Nat → Nat} (a : List Field) : ∀ (b : List Field) (p : Nat), HoldsAll e buf p a → HoldsAll e buf (p + total a) b → HoldsAll e buf p (a ++ b) := by
  induction a with
  | nil => intro b p _ h; exact h
  | cons x a ih =>
    intro b p h1 h2
    refine ⟨h1.1, ih b _ h1.2 ?_⟩
    simp only [total] at h2; rwa [Nat.add_assoc]

theorem holdsAll_keep {e : Endian} {buf buf' : Nat → Nat} (a : List Field) : ∀ (p : Nat), HoldsAll e buf p a → (∀ q, q < p + total a → bitAt buf' q = bitAt buf q) → HoldsAll e buf' p a := by
  induction a with
  | nil => intro p _ _; trivial
  | cons x a ih =>
    intro p h1 h2
    simp only [total] at h2
    exact ⟨fun j hj => by rw [h2 _ (by omega)]; exact h1.1 j hj, ih _ h1.2 (fun q hq => h2 q (by omega))⟩

/-- What a put of the bits of `fs` does to the stream. -/
structure Wrote (b : Bs) (fs : List Field) (b' : Bs) : Prop where
  null : b'.null = false
  inv : WInv b'.st
  pos_ : pos b'.st = pos b.st + total fs
  avail : b'.st.avail = b.st.avail - total fs
  len : b'.st.len = b.st.len
  keep : ∀ q, q < pos b.st → bitAt b'.st.buf q = bitAt b.st.buf q
  holds : HoldsAll .big b'.st.buf (pos b.st) fs
  rest : ∀ k, pos b.st + total fs ≤ 8 * k → b'.st.buf k = b.st.buf k

theorem Wrote.nil {b : Bs} (hn : b.null = false) (h : WInv b.st) : Wrote b [] b := ⟨hn, h, rfl, rfl, rfl, fun _ _ => rfl, trivial, fun _ _ => rfl⟩

theorem Wrote.trans {a b c : Bs} {fs gs : List Field} (h1 : Wrote a fs b) (h2 : Wrote b gs c) : Wrote a (fs ++ gs) c := by
  have p1 := h1.pos_
  refine ⟨h2.null, h2.inv, ?_, ?_, h2.len.trans h1.len, ?_, ?_, ?_⟩
  · rw [total_append, h2.pos_, p1]; omega
  · rw [total_append, h2.avail, h1.avail]; omega
  · intro q hq; rw [h2.keep q (by omega), h1.keep q hq]
  · refine holdsAll_app fs gs _ (holdsAll_keep fs _ h1.holds (fun q hq => h2.keep q (by omega))) ?_
    rw [← p1]; exact h2.holds
  · intro k hk; rw [total_append] at hk; rw [h2.rest k (by omega), h1.rest k (by omega)]

theorem putIntegral_ok {b : Bs} {X v n : Nat} {f : Field} (hX : 8 ≤ X) (hn : b.null = false) (h : WInv b.st) (h2 : n ≤ X) (hfit : n ≤ b.st.avail) (hb : f.bits = n)
    (hf : ∀ i, i < n → f.pattern.testBit i = v.testBit i) : ∃ b', putIntegral b X v n = .ok (b', true) ∧ Wrote b [f] b' := by
  obtain ⟨s', f1, f2, f3, f4, f5, f6, f7, f8, f9, f10⟩ := putLoop_spec X v hX n n b.st (Nat.le_refl _) h2 hfit h
  have ht : total [f] = n := by simp [total, hb]
  refine ⟨{ b with st := s' }, ?_, hn, f2, by rw [ht]; exact f3, by rw [ht]; exact f4, f5, f8, ⟨?_, trivial⟩, by rw [ht]; exact f10⟩
  · unfold putIntegral
    rw [hn, if_neg (by decide), if_pos hfit]
    simp only [f1]
  · intro j hj
    rw [hb] at hj
    show bitAt s'.buf (pos b.st + j) = f.pattern.testBit (place .big f.bits j)
    rw [f9 j hj, hb]
    exact (hf _ (by omega)).symm

theorem putIntegral_no {b : Bs} {X v n : Nat} (hfit : b.st.avail < n) : putIntegral b X v n = .ok (b, false) := by
  unfold putIntegral
  split_ifs
  · rfl
  · omega
  · rfl

/-- The low bits of a signed value are the same for every width. -/
theorem toUnsigned_bits {W X n : Nat} (hW : n ≤ W) (hX : n ≤ X) (v : Int) (i : Nat) (hi : i < n) : (toUnsigned W v).testBit i = (toUnsigned X v).testBit i := by
  have h1 := toUnsigned_mod hW v
  have h2 := toUnsigned_mod hX v
  have : toUnsigned W v % 2 ^ n = toUnsigned X v % 2 ^ n := by omega
  have e := congrArg (fun x => x.testBit i) this
  simpa [Nat.testBit_mod_two_pow, hi] using e

theorem width_le {W : Nat} (h : IsWidth W) : W ≤ (if W = 64 then 64 else 32) := by
  rcases h with rfl | rfl | rfl | rfl <;> decide
theorem eight_le (W : Nat) : 8 ≤ (if W = 64 then 64 else 32) := by split_ifs <;> decide

theorem Item.Legal.field {f : Field} (h : Item.Legal (.scalar f)) : f.Legal := by
  cases f with
  | flag b => exact h
  | nat W n v => exact h
  | int W n v => exact h.1

theorem put_scalar_ok (host : Endian) {b : Bs} {f : Field} (hf : f.Legal) (hn : b.null = false) (h : WInv b.st) (hfit : f.bits ≤ b.st.avail) :
    ∃ b', put host b (.scalar f) = .ok (b', true) ∧ Wrote b [f] b' := by
  cases f with
  | flag v =>
    have hfit' : 1 ≤ b.st.avail := hfit
    obtain ⟨b', g1, g2⟩ := putIntegral_ok (X := 32) (v := if v then 1 else 0) (n := 1) (f := .flag v) (by decide) hn h (by decide) hfit' rfl (fun i _ => rfl)
    refine ⟨b', ?_, g2⟩
    show putBool b v = _
    unfold putBool
    rw [hn, if_neg (by decide), if_pos (by omega)]
    simp only [g1]
  | nat W n v =>
    exact putIntegral_ok (eight_le W) hn h (Nat.le_trans hf.2.2.1 (width_le hf.1)) hfit rfl (fun i _ => rfl)
  | int W n v =>
    exact putIntegral_ok (eight_le W) hn h (Nat.le_trans hf.2.2.1 (width_le hf.1)) hfit rfl
      (fun i hi => toUnsigned_bits hf.2.2.1 (Nat.le_trans hf.2.2.1 (width_le hf.1)) v i hi)

theorem put_scalar_no (host : Endian) {b : Bs} {f : Field} (hfit : b.st.avail < f.bits) : put host b (.scalar f) = .ok (b, false) := by
  cases f with
  | flag v =>
    show putBool b v = _
    have : b.st.avail < 1 := hfit
    unfold putBool
    by_cases hn : b.null = true
    · rw [if_pos hn]
    · rw [if_neg hn, if_neg (by omega)]
  | nat W n v => exact putIntegral_no hfit
  | int W n v => exact putIntegral_no hfit

theorem total_bytes (l : List Nat) : total (l.map (fun x => Field.nat 8 8 x)) = 8 * l.length := by
  induction l with
  | nil => rfl
  | cons x l ih => simp only [List.map_cons, total, ih, Field.bits, List.length_cons]; omega

theorem putBytes_ok (l : List Nat) : ∀ (b : Bs) (ok : Bool), b.null = false → WInv b.st →
    ∃ b', putBytes l b ok = .ok (b', ok && decide (8 * l.length ≤ b.st.avail)) ∧ Wrote b ((l.take (b.st.avail / 8)).map (fun x => .nat 8 8 x)) b' := by
  induction l with
  | nil => intro b ok hn h; exact ⟨b, by simp [putBytes], by simpa using Wrote.nil hn h⟩
  | cons x l ih =>
    intro b ok hn h
    by_cases hfit : 8 ≤ b.st.avail
    · obtain ⟨b1, g1, g2⟩ := putIntegral_ok (X := 32) (v := x) (n := 8) (f := .nat 8 8 x) (by decide) hn h (by decide) hfit rfl (fun i _ => rfl)
      obtain ⟨b2, k1, k2⟩ := ih b1 (ok && true) g2.null g2.inv
      have ha : b1.st.avail = b.st.avail - 8 := g2.avail
      refine ⟨b2, ?_, ?_⟩
      · simp only [putBytes, g1, k1, ha, List.length_cons]
        have : (8 * l.length ≤ b.st.avail - 8) ↔ (8 * (l.length + 1) ≤ b.st.avail) := by omega
        rw [Bool.and_true, decide_eq_decide.mpr this]
      · have := g2.trans k2
        rw [ha] at this
        rwa [show b.st.avail / 8 = (b.st.avail - 8) / 8 + 1 by omega, List.take_succ_cons, List.map_cons]
    · obtain ⟨b2, k1, k2⟩ := ih b (ok && false) hn h
      rw [show b.st.avail / 8 = 0 by omega, List.take_zero, List.map_nil] at k2
      refine ⟨b2, ?_, ?_⟩
      · simp only [putBytes, putIntegral_no (X := 32) (v := x) (show b.st.avail < 8 by omega), k1, List.length_cons]
        have : ¬ (8 * (l.length + 1) ≤ b.st.avail) := by omega
        rw [decide_eq_false this]; simp
      · rw [show b.st.avail / 8 = 0 by omega, List.take_zero, List.map_nil]; exact k2

theorem putAll_ok (host : Endian) (is : List Item) : ∀ (b : Bs), (∀ i ∈ is, i.Legal) → b.null = false → WInv b.st →
    ∃ b', putAll host b is = .ok (b', (sent host b.st.avail is).1) ∧ Wrote b ((sent host b.st.avail is).2.flatMap (fieldsOf host)) b' := by
  induction is with
  | nil => intro b _ hn h; exact ⟨b, rfl, Wrote.nil hn h⟩
  | cons i is ih =>
    intro b hl hn h
    have hl' : ∀ x ∈ is, x.Legal := fun x hx => hl x (List.mem_cons_of_mem _ hx)
    have hi := hl i List.mem_cons_self
    cases i with
    | scalar f =>
      by_cases hfit : f.bits ≤ b.st.avail
      · obtain ⟨b1, g1, g2⟩ := put_scalar_ok host hi.field hn h hfit
        obtain ⟨b2, k1, k2⟩ := ih b1 hl' g2.null g2.inv
        have ha : b1.st.avail = b.st.avail - f.bits := by rw [g2.avail]; simp [total]
        rw [ha] at k1 k2
        refine ⟨b2, ?_, ?_⟩
        · simp only [putAll, g1, k1, sent, if_pos hfit]
        · simp only [sent, if_pos hfit, List.flatMap_cons]
          exact g2.trans k2
      · obtain ⟨b2, k1, k2⟩ := ih b hl' hn h
        refine ⟨b2, ?_, ?_⟩
        · simp only [putAll, put_scalar_no host (show b.st.avail < f.bits by omega), k1, sent, if_neg hfit]
        · simp only [sent, if_neg hfit]; exact k2
    | float mem =>
      obtain ⟨b1, g1, g2⟩ := putBytes_ok (network host mem) b true hn h
      rw [network_length, Bool.true_and] at g1
      obtain ⟨b2, k1, k2⟩ := ih b1 hl' g2.null g2.inv
      have ha := g2.avail
      rw [total_bytes, List.length_take, network_length] at ha
      have hput : put host b (.float mem) = putBytes (network host mem) b true := rfl
      by_cases hfit : 8 * mem.length ≤ b.st.avail
      · rw [show b1.st.avail = b.st.avail - 8 * mem.length by omega] at k1 k2
        rw [List.take_of_length_le (by rw [network_length]; omega)] at g2
        refine ⟨b2, ?_, ?_⟩
        · simp only [putAll, hput, g1, k1, sent, if_pos hfit, decide_eq_true hfit]
        · simp only [sent, if_pos hfit, List.flatMap_cons]
          exact g2.trans k2
      · rw [show b1.st.avail = b.st.avail % 8 by omega] at k1 k2
        refine ⟨b2, ?_, ?_⟩
        · simp only [putAll, hput, g1, k1, sent, if_neg hfit, decide_eq_false hfit]
        · simp only [sent, if_neg hfit, List.flatMap_append]
          have : ((((network host mem).take (b.st.avail / 8)).map (fun x => Item.scalar (.nat 8 8 x))).flatMap (fieldsOf host)) = ((network host mem).take (b.st.avail / 8)).map (fun x => Field.nat 8 8 x) := by
            generalize (network host mem).take (b.st.avail / 8) = l
            induction l with
            | nil => rfl
            | cons x l ih => simp only [List.map_cons, List.flatMap_cons, ih]; rfl
          rw [this]
          exact g2.trans k2

/-! ### Reading -/

structure Took (b : Bs) (n : Nat) (b' : Bs) : Prop where
  null : b'.null = false
  inv : Inv b'.st
  pos_ : pos b'.st = pos b.st + n
  avail : b'.st.avail = b.st.avail - n
  len : b'.st.len = b.st.len
  buf : b'.st.buf = b.st.buf

theorem Took.trans {a b c : Bs} {m n : Nat} (h1 : Took a m b) (h2 : Took b n c) : Took a (m + n) c :=
  ⟨h2.null, h2.inv, by rw [h2.pos_, h1.pos_]; omega, by rw [h2.avail, h1.avail]; omega, h2.len.trans h1.len, h2.buf.trans h1.buf⟩

theorem getBits_ok {b : Bs} {W n : Nat} (old : Nat) (hn : b.null = false) (h : Inv b.st) (h2 : n ≤ W) (hfit : n ≤ b.st.avail) :
    ∃ b', ∃ u : Nat, getBits b W n old = .ok (b', true, u) ∧ Took b n b' ∧ u < 2 ^ n ∧ ∀ j, j < n → u.testBit (n - 1 - j) = bitAt b.st.buf (pos b.st + j) := by
  obtain ⟨s', v, f1, f2, f3, f4, f5, f6, f7, f8⟩ := getLoop_spec W n n b.st 0 (Nat.le_refl _) h2 hfit h (by simp)
  refine ⟨{ b with st := s' }, v, ?_, ⟨hn, f2, f3, f4, f5, f6⟩, Nat.lt_pow_two_of_testBit v (fun i hi => by rw [f7 i hi]; simp), f8⟩
  unfold getBits
  rw [hn, if_neg (by decide), if_pos hfit]
  simp only [f1]

theorem getBits_no {b : Bs} {W n : Nat} (old : Nat) (hfit : b.st.avail < n) : getBits b W n old = .ok (b, false, old) := by
  unfold getBits
  by_cases hn : b.null = true
  · rw [if_pos hn]
  · rw [if_neg hn, if_neg (by omega)]

theorem signExtend_eq {W v n : Nat} (h1 : 1 ≤ n) (h2 : n ≠ W) (h3 : ¬ (32 ≤ W ∧ n = W - 1)) : signExtend W v n = extend true W v n := by
  unfold signExtend extend
  rw [if_neg (by omega), if_neg h3, if_pos ⟨rfl, h2⟩, if_neg (by omega)]

theorem low_big {u v n : Nat} (hu : u < 2 ^ n) (h : ∀ j, j < n → u.testBit (n - 1 - j) = v.testBit (n - 1 - j)) : u = v % 2 ^ n := low_bits (e := .big) hu h

theorem get_scalar_ok (host : Endian) (old : Old) {b : Bs} {f : Field} (hf : Item.Legal (.scalar f)) (hn : b.null = false) (h : Inv b.st) (hfit : f.bits ≤ b.st.avail) (hh : Holds .big b.st.buf (pos b.st) f) :
    ∃ b', get host old b (.scalar f) = .ok (b', true, .val f.value) ∧ Took b f.bits b' := by
  cases f with
  | flag v =>
    have hfit' : 1 ≤ b.st.avail := hfit
    obtain ⟨g1, g2, g3⟩ := step_inv h (n := 1) h.lo hfit'
    have hbit := hh 0 (by simp [Field.bits])
    have hpl : place .big 1 0 = 0 := rfl
    have hval : ((b.st.buf b.st.idx &&& (1 <<< (b.st.bac - 1))) != 0) = v := by
      have e1 : (pos b.st + 0) / 8 = b.st.idx := by have := h.hi; have := h.lo; unfold pos; omega
      have e2 : 7 - (pos b.st + 0) % 8 = b.st.bac - 1 := by have := h.hi; have := h.lo; unfold pos; omega
      have e3 : (Field.flag v).pattern.testBit 0 = v := by cases v <;> rfl
      simp only [Field.bits] at hbit
      rw [hpl, e3, bitAt, e1, e2] at hbit
      rw [← hbit, Nat.one_shiftLeft, and_two_pow_ne]
    refine ⟨{ b with st := step b.st 1 }, ?_, ⟨hn, g1, g2, g3, step_len _, step_buf _⟩⟩
    have hg : getBit b.st = .ok (step b.st 1, v) := by
      unfold getBit; rw [if_pos (h.room (n := 1) (by omega) hfit'), hval]
    have hgb : getBool b old.flag = .ok ({ b with st := step b.st 1 }, true, v) := by
      unfold getBool
      rw [hn, if_neg (by decide), if_pos (by omega)]
      simp only [hg]
    simp only [get, hgb]; rfl
  | nat W n v =>
    obtain ⟨h1, h2, h3, h4⟩ : (Field.nat W n v).Legal := hf
    obtain ⟨b', u, g1, g2, g3, g4⟩ := getBits_ok old.int hn h h3 hfit
    have hu : u = v % 2 ^ n := low_big g3 (fun j hj => by rw [g4 j hj]; exact hh j hj)
    refine ⟨b', ?_, g2⟩
    have : getIntegral false b W n old.int = .ok (b', true, u) := by
      unfold getIntegral; simp only [g1]; rw [if_neg (by simp)]
    simp only [get, this, hu]; rfl
  | int W n v =>
    obtain ⟨⟨h1, h2, h3, h4, h5⟩, h6⟩ := hf
    obtain ⟨b', u, g1, g2, g3, g4⟩ := getBits_ok old.int hn h h3 hfit
    have hu : u = toUnsigned W v % 2 ^ n := low_big g3 (fun j hj => by rw [g4 j hj]; exact hh j hj)
    have hbm : Int.bmod (u : Int) (2 ^ n) = Int.bmod v (2 ^ n) := by
      rw [hu, toUnsigned_mod h3, Int.emod_bmod]
    have hr := bmod_range h2 v
    have hle : (2 : Nat) ^ (n - 1) ≤ 2 ^ (W - 1) := Nat.pow_le_pow_right (by decide) (by omega)
    have c1 := two_pow_cast (n - 1)
    have c2 := two_pow_cast (W - 1)
    have hs : toSigned W (toUnsigned W (Int.bmod v (2 ^ n))) = Int.bmod v (2 ^ n) := toSigned_toUnsigned (by omega) (by rw [← c2]; rw [← c1] at hr; omega) (by rw [← c2]; rw [← c1] at hr; omega)
    refine ⟨b', ?_, g2⟩
    by_cases hnW : n = W
    · have hg : getIntegral true b W n old.int = .ok (b', true, u) := by
        unfold getIntegral; simp only [g1]; rw [if_neg (by simp [hnW])]
      have huu : u = toUnsigned W v := by
        rw [hu, hnW, Nat.mod_eq_of_lt (toUnsigned_lt _ _)]
      have hv : Int.bmod v (2 ^ n) = v := by
        have hp : (2 : Nat) ^ n = 2 * 2 ^ (n - 1) := by
          obtain ⟨k, rfl⟩ : ∃ k, n = k + 1 := ⟨n - 1, by omega⟩
          rw [Nat.pow_succ]; simp; omega
        rw [← c2, ← hnW] at h4 h5
        exact Int.bmod_eq_of_le (by omega) (by omega)
      simp only [get, hg, Item.value, Field.value, hv]
      rw [huu, toSigned_toUnsigned (by omega) h4 h5]
    · have hg : getIntegral true b W n old.int = .ok (b', true, toUnsigned W (Int.bmod v (2 ^ n))) := by
        unfold getIntegral; rw [g1]
        show (if (true = true ∧ n ≠ W) then (match signExtend W u n with | .error u => .error u | .ok v => .ok (b', true, v)) else Except.ok (b', true, u)) = _
        rw [if_pos ⟨rfl, hnW⟩, signExtend_eq h2 hnW h6, extend_spec h2 h3 g3, hbm]
      simp only [get, hg, hs]; rfl

theorem getBytes_ok (l : List Nat) : ∀ (b : Bs), (∀ x ∈ l, x < 256) → b.null = false → Inv b.st → 8 * l.length ≤ b.st.avail → HoldsAll .big b.st.buf (pos b.st) (l.map (fun x => .nat 8 8 x)) →
    ∃ b', getBytes l.length b = .ok (b', l) ∧ Took b (8 * l.length) b' := by
  induction l with
  | nil => intro b _ hn h _ _; exact ⟨b, rfl, hn, h, rfl, rfl, rfl, rfl⟩
  | cons x l ih =>
    intro b hx hn h hfit hh
    rw [List.length_cons] at hfit
    obtain ⟨b1, u, g1, g2, g3, g4⟩ := getBits_ok (W := 8) (n := 8) 0 hn h (by decide) (by omega)
    have hu : u = x := by
      have := low_big (v := x) g3 (fun j hj => by rw [g4 j hj]; exact hh.1 j hj)
      have hx' := hx x List.mem_cons_self
      omega
    have hg : getIntegral false b 8 8 0 = .ok (b1, true, x) := by
      unfold getIntegral; simp only [g1, hu]; rw [if_neg (by simp)]
    obtain ⟨b2, k1, k2⟩ := ih b1 (fun y hy => hx y (List.mem_cons_of_mem _ hy)) g2.null g2.inv (by rw [g2.avail]; omega) (by rw [g2.buf, g2.pos_]; exact hh.2)
    refine ⟨b2, ?_, ?_⟩
    · simp only [List.length_cons, getBytes, hg, k1]
    · have := g2.trans k2
      rwa [show 8 + 8 * l.length = 8 * (x :: l).length by rw [List.length_cons]; omega] at this

theorem total_fields (host : Endian) (i : Item) : total (fieldsOf host i) = i.bits := by
  cases i with
  | scalar f => simp [fieldsOf, total, Item.bits]
  | float mem => simp only [fieldsOf, total_bytes, network_length, Item.bits]

theorem get_ok (host : Endian) (old : Old) {b : Bs} {i : Item} (hi : i.Legal) (hn : b.null = false) (h : Inv b.st) (hfit : i.bits ≤ b.st.avail) (hh : HoldsAll .big b.st.buf (pos b.st) (fieldsOf host i)) :
    ∃ b', get host old b i = .ok (b', true, i.value) ∧ Took b i.bits b' := by
  cases i with
  | scalar f => exact get_scalar_ok host old hi hn h hfit hh.1
  | float mem =>
    have hl := network_length host mem
    have hfit' : 8 * mem.length ≤ b.st.avail := hfit
    obtain ⟨b', g1, g2⟩ := getBytes_ok (network host mem) b (fun x hx => hi x ((network_mem host mem x).mp hx)) hn h (by rw [hl]; exact hfit) hh
    rw [hl] at g1 g2
    refine ⟨b', ?_, g2⟩
    have : getFloat host b mem.length old.float = .ok (b', true, mem) := by
      unfold getFloat
      rw [hn, if_neg (by decide), if_pos hfit']
      simp only [g1, network_network]
    simp only [get, this]; rfl

theorem getAll_ok (host : Endian) (old : Old) (is : List Item) : ∀ (b : Bs), (∀ i ∈ is, i.Legal) → b.null = false → Inv b.st → total (is.flatMap (fieldsOf host)) ≤ b.st.avail →
    HoldsAll .big b.st.buf (pos b.st) (is.flatMap (fieldsOf host)) → ∃ b', getAll host old b is = .ok (b', is.map (fun i => (true, i.value))) ∧ Took b (total (is.flatMap (fieldsOf host))) b' := by
  induction is with
  | nil => intro b _ hn h _ _; exact ⟨b, rfl, hn, h, rfl, rfl, rfl, rfl⟩
  | cons i is ih =>
    intro b hl hn h hfit hh
    rw [List.flatMap_cons, total_append, total_fields] at hfit
    rw [List.flatMap_cons] at hh
    obtain ⟨a1, a2⟩ := holdsAll_append hh
    obtain ⟨b1, g1, g2⟩ := get_ok host old (hl i List.mem_cons_self) hn h (by omega) a1
    rw [total_fields] at a2
    obtain ⟨b2, k1, k2⟩ := ih b1 (fun x hx => hl x (List.mem_cons_of_mem _ hx)) g2.null g2.inv (by rw [g2.avail]; omega) (by rw [g2.buf, g2.pos_]; exact a2)
    refine ⟨b2, ?_, ?_⟩
    · simp only [getAll, g1, k1, List.map_cons]
    · rw [List.flatMap_cons, total_append, total_fields]; exact g2.trans k2

/-! ### Theorems -/

theorem sent_legal (host : Endian) (is : List Item) : ∀ room, (∀ i ∈ is, i.Legal) → ∀ i ∈ (sent host room is).2, i.Legal := by
  induction is with
  | nil => intro room _ i hi; simp [sent] at hi
  | cons x is ih =>
    intro room hl i hi
    have hl' : ∀ y ∈ is, y.Legal := fun y hy => hl y (List.mem_cons_of_mem _ hy)
    cases x with
    | scalar f =>
      simp only [sent] at hi
      split_ifs at hi
      · rcases List.mem_cons.mp hi with e | e
        · exact e ▸ hl _ List.mem_cons_self
        · exact ih _ hl' i e
      · exact ih _ hl' i hi
    | float mem =>
      simp only [sent] at hi
      split_ifs at hi
      · rcases List.mem_cons.mp hi with e | e
        · exact e ▸ hl _ List.mem_cons_self
        · exact ih _ hl' i e
      · rcases List.mem_append.mp hi with e | e
        · obtain ⟨x, hx, rfl⟩ := List.mem_map.mp e
          have : x < 256 := hl _ List.mem_cons_self x ((network_mem host mem x).mp (List.mem_of_mem_take hx))
          exact ⟨Or.inl rfl, by decide, by decide, this⟩
        · exact ih _ hl' i e

theorem again_inv (b : Bs) : WInv (again b).st := by
  refine { lo := by simp [again, restart], hi := by simp [again, restart], total := by simp [again, restart, pos], zero := ?_ }
  intro h; simp [again, restart] at h

/-- C74: whatever the stream has been used for before: after `restart`, put any sequence of values; exactly those answer `false` that do not fit, and after another `restart`, `get` reads back what was accepted
(and, in the place of a floating point value that did not fit, those of its bytes that did). -/
theorem C74_round_trip (host : Endian) (old : Old) (b : Bs) (hn : b.null = false) (is : List Item) (hl : ∀ i ∈ is, i.Legal) :
    ∃ w r, putAll host (again b) is = .ok (w, (sent host (8 * b.st.len) is).1) ∧
      getAll host old (again w) (sent host (8 * b.st.len) is).2 = .ok (r, (sent host (8 * b.st.len) is).2.map (fun i => (true, i.value))) ∧ r.st.buf = w.st.buf := by
  have hp : pos (again b).st = 0 := by simp [pos, again, restart]
  obtain ⟨w, g1, g2⟩ := putAll_ok host is (again b) hl hn (again_inv b)
  have hav : (again b).st.avail = 8 * b.st.len := rfl
  rw [hav] at g1 g2
  have hlen : w.st.len = b.st.len := g2.len
  have hpw : pos (again w).st = 0 := by simp [pos, again, restart]
  have ht := g2.inv.total
  have hpos := g2.pos_
  rw [hp] at hpos
  obtain ⟨r, k1, k2⟩ := getAll_ok host old (sent host (8 * b.st.len) is).2 (again w) (sent_legal host is _ hl) g2.null (again_inv w).toInv (by
    show _ ≤ 8 * w.st.len
    omega) (by
    rw [hpw]
    show HoldsAll .big w.st.buf 0 _
    have := g2.holds
    rwa [hp] at this)
  exact ⟨w, r, g1, k1, k2.buf⟩

/-- C74, the layout: the next value is put behind what is in the stream, the most significant bit first; what is before it stays, and no byte behind it is touched. -/
theorem C74_layout (host : Endian) (b : Bs) (hn : b.null = false) (is : List Item) (hl : ∀ i ∈ is, i.Legal) (f : Field) (hf : f.Legal) :
    ∃ w, putAll host (again b) is = .ok (w, (sent host (8 * b.st.len) is).1) ∧ (bits w + f.bits ≤ 8 * b.st.len →
      ∃ w', put host w (.scalar f) = .ok (w', true) ∧ bits w' = bits w + f.bits ∧ (∀ j, j < f.bits → bitAt w'.st.buf (bits w + j) = f.pattern.testBit (f.bits - 1 - j)) ∧
        (∀ q, q < bits w → bitAt w'.st.buf q = bitAt w.st.buf q) ∧ ∀ k, bits w' ≤ 8 * k → w'.st.buf k = b.st.buf k) := by
  have hp : pos (again b).st = 0 := by simp [pos, again, restart]
  obtain ⟨w, g1, g2⟩ := putAll_ok host is (again b) hl hn (again_inv b)
  have hav : (again b).st.avail = 8 * b.st.len := rfl
  rw [hav] at g1 g2
  have hlen : w.st.len = b.st.len := g2.len
  have ht := g2.inv.total
  have hb : bits w = pos w.st := by unfold bits; omega
  refine ⟨w, g1, fun hfit => ?_⟩
  obtain ⟨w', k1, k2⟩ := put_scalar_ok host hf g2.null g2.inv (by omega)
  have ht' := k2.inv.total
  have kl := k2.len
  have kp := k2.pos_
  have h1 : total [f] = f.bits := by simp [total]
  have hb' : bits w' = bits w + f.bits := by unfold bits at *; omega
  refine ⟨w', k1, hb', ?_, ?_, ?_⟩
  · intro j hj; rw [hb]; exact k2.holds.1 j hj
  · intro q hq; exact k2.keep q (by omega)
  · intro k hk
    have hpos := g2.pos_
    rw [hp] at hpos
    rw [k2.rest k (by omega), g2.rest k (by omega)]
    rfl

/-! ### Any order of calls -/

/-- The calls. -/
inductive Op where
  | put (i : Item) | get (old : Old) (i : Item) | restart

def Op.Legal : Op → Prop
  | .put i => i.Legal
  | .get _ i => i.Legal
  | .restart => True

/-- The answer of a call and the number of bits used after it, for a stream of `N` bits of which `used` are used. -/
def Op.spec (N used : Nat) : Op → Bool × Nat
  | .put i => if used + i.bits ≤ N then (true, used + i.bits) else (false, match i with
    | .scalar _ => used
    | .float _ => used + 8 * ((N - used) / 8))
  | .get _ i => if used + i.bits ≤ N then (true, used + i.bits) else (false, used)
  | .restart => (true, 0)

def spec (N : Nat) : Nat → List Op → List Bool × Nat
  | used, [] => ([], used)
  | used, o :: os => ((o.spec N used).1 :: (spec N (o.spec N used).2 os).1, (spec N (o.spec N used).2 os).2)

def exec (host : Endian) (b : Bs) : Op → Res (Bs × Bool)
  | .put i => put host b i
  | .get old i => (match get host old b i with
    | .error u => .error u
    | .ok (b, r, _) => .ok (b, r))
  | .restart => .ok (again b, true)

def run (host : Endian) (b : Bs) : List Op → Res (Bs × List Bool)
  | [] => .ok (b, [])
  | o :: os => match exec host b o with
    | .error u => .error u
    | .ok (b, r) => match run host b os with
      | .error u => .error u
      | .ok (b, rs) => .ok (b, r :: rs)

/-- The cursor moved by `n` bits, inside the buffer. -/
structure Went (b : Bs) (n : Nat) (b' : Bs) : Prop where
  null : b'.null = false
  inv : Inv b'.st
  pos_ : pos b'.st = pos b.st + n
  len : b'.st.len = b.st.len
  out : ∀ k, b.st.len ≤ k → b'.st.buf k = b.st.buf k

theorem Took.went {b b' : Bs} {n : Nat} (h : Took b n b') : Went b n b' := ⟨h.null, h.inv, h.pos_, h.len, fun k _ => by rw [h.buf]⟩

theorem Went.avail {b b' : Bs} {n : Nat} (h : Inv b.st) (w : Went b n b') : b'.st.avail = b.st.avail - n := by
  have h1 := h.total
  have h2 := w.inv.total
  have h3 := w.pos_
  have h4 := w.len
  omega

theorem putLoop_safe (X v : Nat) (fuel : Nat) : ∀ (n : Nat) (s : St), n ≤ fuel → n ≤ s.avail → Inv s →
    ∃ s', putLoop X v fuel n s = .ok s' ∧ Inv s' ∧ pos s' = pos s + n ∧ s'.len = s.len ∧ ∀ k, s.len ≤ k → s'.buf k = s.buf k := by
  induction fuel with
  | zero =>
    intro n s h1 _ h
    have : n = 0 := by omega
    subst this
    exact ⟨s, by simp [putLoop], h, rfl, rfl, fun _ _ => rfl⟩
  | succ fuel ih =>
    intro n s h1 h2 h
    by_cases hn : n = 0
    · subst hn; exact ⟨s, by simp [putLoop], h, rfl, rfl, fun _ _ => rfl⟩
    · have hlo := h.lo
      have hroom := h.room (n := n) (by omega) h2
      have hi1 : Inv { s with buf := upd s.buf s.idx (base s ||| chunkOf X v s.bac (min n s.bac) (n - min n s.bac)) } := ⟨h.lo, h.hi, h.total⟩
      obtain ⟨g1, g2, g3⟩ := step_inv hi1 (n := min n s.bac) (Nat.min_le_right _ _) (by show min n s.bac ≤ s.avail; omega)
      obtain ⟨s', k1, k2, k3, k4, k5⟩ := ih (n - min n s.bac) _ (by omega) (by rw [g3]; show _ ≤ s.avail - _; omega) g1
      refine ⟨s', ?_, k2, ?_, ?_, ?_⟩
      · rw [putLoop, if_neg hn]
        simp only [writeChunk, if_pos hroom]
        exact k1
      · rw [k3, g2]
        show pos s + _ + _ = _
        omega
      · rw [k4, step_len]
      · intro k hk
        rw [k5 k (by rw [step_len]; exact hk), step_buf]
        show upd s.buf s.idx _ k = _
        rw [upd_other _ _ (by omega)]

theorem putIntegral_safe {b : Bs} (X v : Nat) {n : Nat} (hn : b.null = false) (h : Inv b.st) (hfit : n ≤ b.st.avail) : ∃ b', putIntegral b X v n = .ok (b', true) ∧ Went b n b' := by
  obtain ⟨s', k1, k2, k3, k4, k5⟩ := putLoop_safe X v n n b.st (Nat.le_refl _) hfit h
  refine ⟨{ b with st := s' }, ?_, hn, k2, k3, k4, k5⟩
  unfold putIntegral
  rw [hn, if_neg (by decide), if_pos hfit]
  simp only [k1]

theorem putBytes_safe (l : List Nat) : ∀ (b : Bs) (ok : Bool), b.null = false → Inv b.st →
    ∃ b', putBytes l b ok = .ok (b', ok && decide (8 * l.length ≤ b.st.avail)) ∧ Went b (8 * min l.length (b.st.avail / 8)) b' := by
  induction l with
  | nil => intro b ok hn h; exact ⟨b, by simp [putBytes], by simpa using (⟨hn, h, rfl, rfl, fun _ _ => rfl⟩ : Went b 0 b)⟩
  | cons x l ih =>
    intro b ok hn h
    by_cases hfit : 8 ≤ b.st.avail
    · obtain ⟨b1, g1, g2⟩ := putIntegral_safe 32 x hn h hfit
      obtain ⟨b2, k1, k2⟩ := ih b1 (ok && true) g2.null g2.inv
      have ha := g2.avail h
      have gp := g2.pos_
      have gl := g2.len
      refine ⟨b2, ?_, k2.null, k2.inv, ?_, ?_, ?_⟩
      · simp only [putBytes, g1, k1, ha, List.length_cons]
        have : (8 * l.length ≤ b.st.avail - 8) ↔ (8 * (l.length + 1) ≤ b.st.avail) := by omega
        rw [Bool.and_true, decide_eq_decide.mpr this]
      · rw [k2.pos_, ha, List.length_cons]; omega
      · rw [k2.len, gl]
      · intro k hk; rw [k2.out k (by omega), g2.out k hk]
    · obtain ⟨b2, k1, k2⟩ := ih b (ok && false) hn h
      have e : b.st.avail / 8 = 0 := by omega
      rw [e, Nat.min_zero] at k2
      refine ⟨b2, ?_, by rw [e, Nat.min_zero]; exact k2⟩
      simp only [putBytes, putIntegral_no (X := 32) (v := x) (show b.st.avail < 8 by omega), k1, List.length_cons]
      have : ¬ (8 * (l.length + 1) ≤ b.st.avail) := by omega
      rw [decide_eq_false this]; simp

theorem signExtend_total {W v n : Nat} (h1 : 1 ≤ n) (h2 : ¬ (32 ≤ W ∧ n = W - 1)) : ∃ x, signExtend W v n = .ok x := by
  unfold signExtend
  rw [if_neg (by omega), if_neg h2]
  exact ⟨_, rfl⟩

theorem get_integral_safe (signed : Bool) {b : Bs} {W n : Nat} (old : Nat) (hn : b.null = false) (h : Inv b.st) (h1 : 1 ≤ n) (h2 : n ≤ W) (h3 : signed = true → ¬ (32 ≤ W ∧ n = W - 1)) :
    ∃ b' v, getIntegral signed b W n old = .ok (b', decide (n ≤ b.st.avail), v) ∧ Went b (if n ≤ b.st.avail then n else 0) b' ∧ b'.st.buf = b.st.buf := by
  have key : ∃ b' v, getBits b W n old = .ok (b', decide (n ≤ b.st.avail), v) ∧ Went b (if n ≤ b.st.avail then n else 0) b' ∧ b'.st.buf = b.st.buf := by
    by_cases hfit : n ≤ b.st.avail
    · obtain ⟨b', u, g1, g2, _, _⟩ := getBits_ok old hn h h2 hfit
      exact ⟨b', u, by rw [g1, decide_eq_true hfit], by rw [if_pos hfit]; exact g2.went, g2.buf⟩
    · exact ⟨b, old, by rw [getBits_no old (by omega), decide_eq_false hfit], by rw [if_neg hfit]; exact ⟨hn, h, rfl, rfl, fun _ _ => rfl⟩, rfl⟩
  obtain ⟨b', v, g1, g2, g3⟩ := key
  unfold getIntegral
  rw [g1]
  by_cases hs : signed = true ∧ n ≠ W
  · obtain ⟨x, hx⟩ := signExtend_total (v := v) h1 (h3 hs.1)
    refine ⟨b', x, ?_, g2, g3⟩
    show (if (signed = true ∧ n ≠ W) then _ else _) = _
    rw [if_pos hs, hx]
  · refine ⟨b', v, ?_, g2, g3⟩
    show (if (signed = true ∧ n ≠ W) then _ else _) = _
    rw [if_neg hs]

theorem getBytes_safe (k : Nat) : ∀ (b : Bs), b.null = false → Inv b.st → 8 * k ≤ b.st.avail → ∃ b' l, getBytes k b = .ok (b', l) ∧ Went b (8 * k) b' ∧ b'.st.buf = b.st.buf := by
  induction k with
  | zero => intro b hn h _; exact ⟨b, [], rfl, ⟨hn, h, rfl, rfl, fun _ _ => rfl⟩, rfl⟩
  | succ k ih =>
    intro b hn h hfit
    obtain ⟨b1, v, g1, g2, g3⟩ := get_integral_safe false (W := 8) (n := 8) 0 hn h (by decide) (by decide) (by simp)
    rw [if_pos (by omega)] at g2
    obtain ⟨b2, l, k1, k2, k3⟩ := ih b1 g2.null g2.inv (by rw [g2.avail h]; omega)
    refine ⟨b2, v :: l, ?_, ⟨k2.null, k2.inv, by rw [k2.pos_, g2.pos_]; omega, k2.len.trans g2.len, fun j hj => by rw [k2.out j (by rw [g2.len]; exact hj), g2.out j hj]⟩, k3.trans g3⟩
    simp only [getBytes, g1, k1]

/-- A legal call ends, answers as specified, and stays inside the buffer; a `get` does not change the buffer. -/
theorem exec_ok (host : Endian) {b : Bs} {o : Op} (ho : o.Legal) (hn : b.null = false) (h : Inv b.st) :
    ∃ b', exec host b o = .ok (b', (o.spec (8 * b.st.len) (pos b.st)).1) ∧ b'.null = false ∧ Inv b'.st ∧ pos b'.st = (o.spec (8 * b.st.len) (pos b.st)).2 ∧ b'.st.len = b.st.len ∧
      (∀ k, b.st.len ≤ k → b'.st.buf k = b.st.buf k) ∧ ((∀ i, o ≠ .put i) → b'.st.buf = b.st.buf) := by
  have ht := h.total
  cases o with
  | restart => exact ⟨again b, rfl, hn, (again_inv b).toInv, by simp [Op.spec, pos, again, restart], rfl, fun _ _ => rfl, fun _ => rfl⟩
  | put i =>
    have nope : ∀ b' : Bs, ((∀ j, Op.put i ≠ .put j) → b'.st.buf = b.st.buf) := fun b' hh => absurd rfl (hh i)
    cases i with
    | scalar f =>
      have hf := Item.Legal.field ho
      by_cases hfit : f.bits ≤ b.st.avail
      · have he : pos b.st + (Item.scalar f).bits ≤ 8 * b.st.len := by show pos b.st + f.bits ≤ _; omega
        have : ∃ b', put host b (.scalar f) = .ok (b', true) ∧ Went b f.bits b' := by
          cases f with
          | flag v =>
            have hfit' : 1 ≤ b.st.avail := hfit
            obtain ⟨b', g1, g2⟩ := putIntegral_safe 32 (if v then 1 else 0) hn h hfit'
            refine ⟨b', ?_, g2⟩
            show putBool b v = _
            unfold putBool
            rw [hn, if_neg (by decide), if_pos (by omega)]
            simp only [g1]
          | nat W n v => exact putIntegral_safe _ _ hn h hfit
          | int W n v => exact putIntegral_safe _ _ hn h hfit
        obtain ⟨b', g1, g2⟩ := this
        simp only [Op.spec, if_pos he]
        exact ⟨b', g1, g2.null, g2.inv, g2.pos_, g2.len, g2.out, nope b'⟩
      · have he : ¬ pos b.st + (Item.scalar f).bits ≤ 8 * b.st.len := by show ¬ pos b.st + f.bits ≤ _; omega
        simp only [Op.spec, if_neg he]
        exact ⟨b, put_scalar_no host (by omega), hn, h, by simp, rfl, fun _ _ => rfl, nope b⟩
    | float mem =>
      obtain ⟨b', g1, g2⟩ := putBytes_safe (network host mem) b true hn h
      rw [network_length, Bool.true_and] at g1
      rw [network_length] at g2
      have gp := g2.pos_
      by_cases hfit : 8 * mem.length ≤ b.st.avail
      · have he : pos b.st + (Item.float mem).bits ≤ 8 * b.st.len := by show pos b.st + 8 * mem.length ≤ _; omega
        simp only [Op.spec, if_pos he]
        rw [decide_eq_true hfit] at g1
        exact ⟨b', g1, g2.null, g2.inv, by rw [gp]; show _ = pos b.st + 8 * mem.length; omega, g2.len, g2.out, nope b'⟩
      · have he : ¬ pos b.st + (Item.float mem).bits ≤ 8 * b.st.len := by show ¬ pos b.st + 8 * mem.length ≤ _; omega
        simp only [Op.spec, if_neg he]
        rw [decide_eq_false hfit] at g1
        exact ⟨b', g1, g2.null, g2.inv, by rw [gp]; omega, g2.len, g2.out, nope b'⟩
  | get old i =>
    have key : ∃ b' v, get host old b i = .ok (b', decide (i.bits ≤ b.st.avail), v) ∧ Went b (if i.bits ≤ b.st.avail then i.bits else 0) b' ∧ b'.st.buf = b.st.buf := by
      cases i with
      | scalar f =>
        cases f with
        | flag v =>
          show ∃ b' w, get host old b (.scalar (.flag v)) = .ok (b', decide (1 ≤ b.st.avail), w) ∧ Went b (if 1 ≤ b.st.avail then 1 else 0) b' ∧ b'.st.buf = b.st.buf
          simp only [get, getBool]
          rw [hn, if_neg (by decide)]
          by_cases hfit : 1 ≤ b.st.avail
          · obtain ⟨g1, g2, g3⟩ := step_inv h (n := 1) h.lo hfit
            rw [if_pos (show b.st.avail > 0 by omega), if_pos hfit, decide_eq_true hfit]
            have hroom := h.room (n := 1) (by omega) hfit
            simp only [getBit, if_pos hroom]
            exact ⟨_, _, rfl, ⟨rfl, g1, g2, step_len _, fun k _ => by rw [step_buf]⟩, step_buf _⟩
          · rw [if_neg (show ¬ b.st.avail > 0 by omega), if_neg hfit, decide_eq_false hfit]
            exact ⟨b, _, rfl, ⟨hn, h, rfl, rfl, fun _ _ => rfl⟩, rfl⟩
        | nat W n v =>
          have hf : (Field.nat W n v).Legal := ho
          obtain ⟨b', x, g1, g2, g3⟩ := get_integral_safe false old.int hn h hf.2.1 hf.2.2.1 (by simp)
          exact ⟨b', _, by simp only [get, g1]; rfl, g2, g3⟩
        | int W n v =>
          obtain ⟨hf, hf'⟩ := ho
          obtain ⟨b', x, g1, g2, g3⟩ := get_integral_safe true old.int hn h hf.2.1 hf.2.2.1 (fun _ => hf')
          exact ⟨b', _, by simp only [get, g1]; rfl, g2, g3⟩
      | float mem =>
        show ∃ b' w, get host old b (.float mem) = .ok (b', decide (8 * mem.length ≤ b.st.avail), w) ∧ Went b (if 8 * mem.length ≤ b.st.avail then 8 * mem.length else 0) b' ∧ b'.st.buf = b.st.buf
        simp only [get, getFloat]
        rw [hn, if_neg (by decide)]
        by_cases hfit : 8 * mem.length ≤ b.st.avail
        · obtain ⟨b', l, g1, g2, g3⟩ := getBytes_safe mem.length b hn h hfit
          rw [if_pos hfit, if_pos hfit, decide_eq_true hfit, g1]
          exact ⟨b', _, rfl, g2, g3⟩
        · rw [if_neg hfit, if_neg hfit, decide_eq_false hfit]
          exact ⟨b, _, rfl, ⟨hn, h, rfl, rfl, fun _ _ => rfl⟩, rfl⟩
    obtain ⟨b', v, g1, g2, g3⟩ := key
    refine ⟨b', ?_, g2.null, g2.inv, ?_, g2.len, g2.out, fun _ => g3⟩
    · simp only [exec, g1, Op.spec]
      by_cases hfit : i.bits ≤ b.st.avail
      · rw [if_pos (by omega), decide_eq_true hfit]
      · rw [if_neg (by omega), decide_eq_false hfit]
    · rw [g2.pos_]
      simp only [Op.spec]
      by_cases hfit : i.bits ≤ b.st.avail
      · rw [if_pos hfit, if_pos (by omega)]
      · rw [if_neg hfit, if_neg (by omega)]; rfl

/-- C74: puts, gets and restarts in any order: every call ends without touching a byte outside the buffer, the answers are exactly those of "there is room for it", and `bits`, `size` and `at_end` tell the bits used. -/
theorem C74_any_history (host : Endian) (buf : Nat → Nat) (len : Nat) (os : List Op) (hl : ∀ o ∈ os, o.Legal) :
    ∃ b, run host (make false buf len) os = .ok (b, (spec (8 * len) 0 os).1) ∧ bits b = (spec (8 * len) 0 os).2 ∧ bits b ≤ 8 * len ∧ size b = (bits b + 7) / 8 ∧ (atEnd b = true ↔ bits b = 8 * len) ∧
      (∀ k, len ≤ k → b.st.buf k = buf k) ∧ ((∀ i, Op.put i ∉ os) → b.st.buf = buf) := by
  have go : ∀ (os : List Op) (b : Bs), (∀ o ∈ os, o.Legal) → b.null = false → Inv b.st → ∃ b', run host b os = .ok (b', (spec (8 * b.st.len) (pos b.st) os).1) ∧ Inv b'.st ∧
      pos b'.st = (spec (8 * b.st.len) (pos b.st) os).2 ∧ b'.st.len = b.st.len ∧ (∀ k, b.st.len ≤ k → b'.st.buf k = b.st.buf k) ∧ ((∀ i, Op.put i ∉ os) → b'.st.buf = b.st.buf) := by
    intro os
    induction os with
    | nil => intro b _ _ h; exact ⟨b, rfl, h, rfl, rfl, fun _ _ => rfl, fun _ => rfl⟩
    | cons o os ih =>
      intro b hl hn h
      obtain ⟨b1, g1, g2, g3, g4, g5, g6, g7⟩ := exec_ok host (hl o List.mem_cons_self) hn h
      obtain ⟨b2, k1, k2, k3, k4, k5, k6⟩ := ih b1 (fun x hx => hl x (List.mem_cons_of_mem _ hx)) g2 g3
      rw [g4, g5] at k1 k3
      refine ⟨b2, ?_, k2, ?_, k4.trans g5, ?_, ?_⟩
      · simp only [run, g1, k1, spec]
      · rw [k3]; rfl
      · intro k hk; rw [k5 k (by omega), g6 k hk]
      · intro hnp
        rw [k6 (fun i hi => hnp i (List.mem_cons_of_mem _ hi)), g7 (fun i e => hnp i (e ▸ List.mem_cons_self))]
  have hp : pos (make false buf len).st = 0 := by simp [pos, make, start]
  obtain ⟨b, g1, g2, g3, g4, g5, g6⟩ := go os (make false buf len) hl rfl (start_inv _ _ _).toInv
  have hlen : (make false buf len).st.len = len := rfl
  rw [hp, hlen] at g1 g3
  rw [hlen] at g4 g5
  have ht := g2.total
  have hb : bits b = pos b.st := by unfold bits; omega
  refine ⟨b, g1, hb.trans g3, by omega, ?_, ?_, g5, g6⟩
  · rw [hb]
    have := g2.lo; have := g2.hi
    unfold size pos
    split_ifs <;> omega
  · unfold atEnd
    rw [beq_iff_eq, hb]; omega

/-- C74: a call on a stream without a buffer answers `false`. -/
theorem C74_null (host : Endian) (b : Bs) (hn : b.null = true) (i : Item) (hk : i ≠ .float []) : put host b i = .ok (b, false) := by
  have hi : ∀ X v n, putIntegral b X v n = .ok (b, false) := fun X v n => by unfold putIntegral; rw [if_pos hn]
  cases i with
  | scalar f =>
    cases f with
    | flag v => show putBool b v = _; unfold putBool; rw [if_pos hn]
    | nat W n v => exact hi _ _ _
    | int W n v => exact hi _ _ _
  | float mem =>
    show putBytes (network host mem) b true = _
    have key : ∀ (l : List Nat) (ok : Bool), putBytes l b ok = .ok (b, ok && decide (l = [])) := by
      intro l
      induction l with
      | nil => intro ok; simp [putBytes]
      | cons x l ih => intro ok; simp only [putBytes, hi, ih]; simp
    rw [key]
    have : network host mem ≠ [] := by
      intro e
      have := congrArg List.length e
      rw [network_length] at this
      exact hk (by rw [List.length_eq_zero_iff.mp this])
    simp [this]

/-! ### Examples and findings -/

def old0 : Old := ⟨false, 0, []⟩
def trip (len : Nat) (is : List Item) : Res (List Bool × List (Bool × Got)) := match putAll .little (again (make false (fun _ => 255) len)) is with
  | .error u => .error u
  | .ok (w, bs) => match getAll .little old0 (again w) (sent .little (8 * len) is).2 with
    | .error u => .error u
    | .ok (_, vs) => .ok (bs, vs)

example : trip 8 [.scalar (.flag true), .scalar (.int 16 11 (-300)), .float [1, 2, 3, 4], .scalar (.nat 64 40 5), .scalar (.nat 8 3 13)] =
    .ok ([true, true, true, false, true], [(true, .val (.flag true)), (true, .val (.int (-300))), (true, .float [1, 2, 3, 4]), (true, .val (.nat 5))]) := by decide +kernel
/-- of the second floating point value two bytes are in the stream -/
example : trip 6 [.float [1, 2, 3, 4], .float [5, 6, 7, 8]] = .ok ([true, false], [(true, .float [1, 2, 3, 4]), (true, .val (.nat 8)), (true, .val (.nat 7))]) := by decide +kernel
example : ∀ i ∈ [Item.scalar (.flag true), .scalar (.int 16 11 (-300)), .float [1, 2, 3, 4], .scalar (.nat 64 40 5)], i.Legal := by
  simp [Item.Legal, Field.Legal, IsWidth]

/-- FINDING: `get(int32_t&, 31)` and `get(int64_t&, 63)` compute `(1 << (W - 1)) - 1` in the signed type: overflow, in every state and also when there are no bits to read. -/
theorem sign_extend_overflows (b : Bs) (old v : Nat) (W : Nat) (hW : W = 32 ∨ W = 64) (s : Bs) (ok : Bool) (h : getBits b W (W - 1) old = .ok (s, ok, v)) : getIntegral true b W (W - 1) old = .error .overflow := by
  have : signExtend W v (W - 1) = .error .overflow := by
    unfold signExtend; rcases hW with rfl | rfl <;> rfl
  unfold getIntegral
  rw [h]
  show (if (true = true ∧ W - 1 ≠ W) then _ else _) = _
  rw [if_pos ⟨rfl, by omega⟩, this]

/-- FINDING: a `get` of a signed value that fails changes the caller's variable: 200 (`int16_t`) becomes -56 when 8 bits were asked for. -/
theorem failed_get_changes_variable : (match get .little ⟨false, 200, []⟩ (make false (fun _ => 0) 0) (.scalar (.int 16 8 0)) with | .ok (_, r, v) => r == false && v == .val (.int (-56)) | _ => false) = true := by decide +kernel

/-- FINDING: a `put` of a floating point value that fails moves the stream: nothing else can be put although there was room. -/
theorem failed_put_uses_the_room : (match putAll .little (make false (fun _ => 0) 3) [.float [1, 2, 3, 4], .scalar (.nat 8 8 9)] with | .ok (b, rs) => rs == [false, false] && atEnd b | _ => false) = true := by decide +kernel

/-- FINDING: a `put` after a `get` inside a byte is mixed with the old contents. -/
theorem put_after_get_mixes : (match get .little old0 (make false (fun _ => 255) 1) (.scalar (.nat 8 3 0)) with
    | .ok (b, _, _) => (match put .little b (.scalar (.nat 8 5 0)) with
      | .ok (b, true) => b.st.buf 0 == 255
      | _ => false)
    | _ => false) = true := by decide +kernel

end Etl.BitStream.Legacy
