import Verif.Unaligned.Model
import Verif.Binary.Props

/-!
# Properties of unaligned_type.h and of hton, ntoh (C84)
-/
namespace Etl.Unaligned
open Etl.Algo

/-! ## Specification -/

/-- The `n` bytes of the memory from `p` on are those of the number `v`, the most significant one first if `e`, else the least significant one first. -/
def Encodes (e : Bool) (n v : Nat) (m : Mem) (p : Nat) : Prop := ∀ i, i < n → m[p + i]? = some (v / 256 ^ (if e then n - 1 - i else i) % 256)

/-- The memory is the same outside of these `n` bytes. -/
def SameElse (m m' : Mem) (p n : Nat) : Prop := m'.length = m.length ∧ ∀ j, j < p ∨ p + n ≤ j → m'[j]? = m[j]?

/-- The sizes a type can have: those of `reverse_bytes` for an integral type. -/
def Size (isFloat : Bool) (n : Nat) : Prop := 0 < n ∧ (isFloat = true ∨ n = 1 ∨ n = 2 ∨ n = 4 ∨ n = 8)

/-! ## Lists of bytes -/

def enc (e : Bool) (n v : Nat) : List Nat := if e then (le n v).reverse else le n v
def dec (e : Bool) (bs : List Nat) : Nat := if e then val bs.reverse else val bs

theorem le_length (n : Nat) : ∀ v, (le n v).length = n := by
  induction n with
  | zero => intro v; rfl
  | succ n ih => intro v; rw [le, List.length_cons, ih]

theorem le_get (n : Nat) : ∀ v i, i < n → (le n v)[i]? = some (v / 256 ^ i % 256) := by
  induction n with
  | zero => intro v i h; omega
  | succ n ih =>
    intro v i h
    rw [le]
    cases i with
    | zero => simp
    | succ i =>
      rw [List.getElem?_cons_succ, ih _ i (by omega), Nat.div_div_eq_div_mul, Nat.pow_succ, Nat.mul_comm]

theorem le_lt (n v : Nat) : ∀ b ∈ le n v, b < 256 := by
  intro b hb
  obtain ⟨i, hi⟩ := List.mem_iff_getElem?.mp hb
  have hlt : i < n := by have := (List.getElem?_eq_some_iff.mp hi).1; rw [le_length] at this; exact this
  rw [le_get n v i hlt] at hi
  cases hi; exact Nat.mod_lt _ (by omega)

theorem val_lt (bs : List Nat) (h : ∀ b ∈ bs, b < 256) : val bs < 256 ^ bs.length := by
  induction bs with
  | nil => simp [val]
  | cons b bs ih =>
    have h1 := ih (fun b hb => h b (List.mem_cons_of_mem _ hb))
    have h2 := h b List.mem_cons_self
    rw [val, List.length_cons, Nat.pow_succ]
    have : (val bs + 1) * 256 ≤ 256 ^ bs.length * 256 := Nat.mul_le_mul_right _ h1
    omega

theorem val_le (n : Nat) : ∀ v, v < 256 ^ n → val (le n v) = v := by
  induction n with
  | zero => intro v h; simp at h; subst h; rfl
  | succ n ih =>
    intro v h
    rw [le, val, ih]
    · omega
    · rw [Nat.pow_succ] at h; exact Nat.div_lt_of_lt_mul (by omega)

theorem le_val (bs : List Nat) (h : ∀ b ∈ bs, b < 256) : le bs.length (val bs) = bs := by
  induction bs with
  | nil => rfl
  | cons b bs ih =>
    have h1 := ih (fun b hb => h b (List.mem_cons_of_mem _ hb))
    have h2 := h b List.mem_cons_self
    rw [List.length_cons, le, val]
    have e1 : (b + 256 * val bs) % 256 = b := by omega
    have e2 : (b + 256 * val bs) / 256 = val bs := by omega
    rw [e1, e2, h1]

theorem enc_length (e : Bool) (n v : Nat) : (enc e n v).length = n := by
  unfold enc; split <;> simp [le_length]

theorem enc_get (e : Bool) (n v i : Nat) (h : i < n) : (enc e n v)[i]? = some (v / 256 ^ (if e then n - 1 - i else i) % 256) := by
  unfold enc
  cases e with
  | false => simpa using le_get n v i h
  | true =>
    simp only [if_true]
    rw [List.getElem?_reverse (by rw [le_length]; exact h), le_length, le_get n v _ (by omega)]

theorem enc_not (e : Bool) (n v : Nat) : (enc e n v).reverse = enc (!e) n v := by
  unfold enc; cases e <;> simp
theorem dec_not (e : Bool) (bs : List Nat) : dec e bs.reverse = dec (!e) bs := by
  unfold dec; cases e <;> simp

theorem dec_enc (e : Bool) (n v : Nat) (h : v < 256 ^ n) : dec e (enc e n v) = v := by
  unfold dec enc; cases e <;> simp [val_le n v h]
theorem enc_dec (e : Bool) (bs : List Nat) (h : ∀ b ∈ bs, b < 256) : enc e bs.length (dec e bs) = bs := by
  unfold dec enc
  cases e with
  | false => simpa using le_val bs h
  | true =>
    have := le_val bs.reverse (fun b hb => h b (List.mem_reverse.mp hb))
    rw [List.length_reverse] at this
    simp only [if_true]; rw [this, List.reverse_reverse]
theorem dec_lt (e : Bool) (bs : List Nat) (h : ∀ b ∈ bs, b < 256) : dec e bs < 256 ^ bs.length := by
  unfold dec
  cases e with
  | false => simpa using val_lt bs h
  | true =>
    have := val_lt bs.reverse (fun b hb => h b (List.mem_reverse.mp hb))
    rw [List.length_reverse] at this
    simpa using this

/-! ## reverse_bytes -/

theorem val_testBit (bs : List Nat) : (∀ b ∈ bs, b < 256) → ∀ i, (val bs).testBit i = (bs.getD (i / 8) 0).testBit (i % 8) := by
  induction bs with
  | nil => intro _ i; simp [val]
  | cons b bs ih =>
    intro h i
    have h2 : b < 2 ^ 8 := h b List.mem_cons_self
    rw [val, show b + 256 * val bs = 2 ^ 8 * val bs + b by omega, Nat.testBit_two_pow_mul_add _ h2]
    split
    · next hi =>
      rw [Nat.div_eq_of_lt hi, Nat.mod_eq_of_lt hi]; rfl
    · next hi =>
      rw [ih (fun b hb => h b (List.mem_cons_of_mem _ hb)), show i / 8 = (i - 8) / 8 + 1 by omega, show i % 8 = (i - 8) % 8 by omega]; rfl

theorem byte_testBit (v i j : Nat) (h : j < 8) : (v / 256 ^ i % 256).testBit j = v.testBit (8 * i + j) := by
  rw [show (256 : Nat) = 2 ^ 8 by rfl, ← Nat.pow_mul, Nat.testBit_mod_two_pow, Nat.testBit_div_two_pow]
  simp [h, Nat.add_comm]

theorem rev_testBit (n v i : Nat) (h : i < 8 * n) : (val (le n v).reverse).testBit i = v.testBit (8 * (n - 1 - i / 8) + i % 8) := by
  rw [val_testBit _ (fun b hb => le_lt n v b (List.mem_reverse.mp hb))]
  have hi : i / 8 < n := by omega
  have := enc_get true n v (i / 8) hi
  unfold enc at this
  simp only [if_true] at this
  rw [List.getD_eq_getElem?_getD, this]
  exact byte_testBit v _ _ (by omega)

theorem rev_lt (n v : Nat) : val (le n v).reverse < 256 ^ n := by
  have := val_lt (le n v).reverse (fun b hb => le_lt n v b (List.mem_reverse.mp hb))
  rwa [List.length_reverse, le_length] at this

theorem rev_unique {n v x : Nat} (hx : x < 2 ^ (8 * n)) (h : ∀ i, i < 8 * n → x.testBit i = v.testBit (8 * (n - 1 - i / 8) + i % 8)) : x = val (le n v).reverse := by
  refine Nat.eq_of_testBit_eq (fun i => ?_)
  by_cases hi : i < 8 * n
  · rw [h i hi, rev_testBit n v i hi]
  · have hp : 2 ^ (8 * n) ≤ 2 ^ i := Nat.pow_le_pow_right (by omega) (by omega)
    have h2 : val (le n v).reverse < 2 ^ (8 * n) := by have := rev_lt n v; rwa [show (256 : Nat) = 2 ^ 8 by rfl, ← Nat.pow_mul] at this
    rw [Nat.testBit_lt_two_pow (by omega), Nat.testBit_lt_two_pow (by omega)]

theorem reverseBytes_eq (n v : Nat) (hn : n = 1 ∨ n = 2 ∨ n = 4 ∨ n = 8) (h : v < 256 ^ n) : reverseBytes n v = val (le n v).reverse := by
  obtain ⟨h2, h4, h8⟩ := Binary.C27_reverse_bytes v
  unfold reverseBytes
  rcases hn with rfl | rfl | rfl | rfl
  · rw [if_pos rfl]
    simp [le, val] at h ⊢; omega
  · rw [if_neg (by omega), if_pos rfl]
    exact rev_unique (n := 2) (h2 h).1 (h2 h).2
  · rw [if_neg (by omega), if_neg (by omega), if_pos rfl]
    exact rev_unique (n := 4) (h4 h).1 (h4 h).2
  · rw [if_neg (by omega), if_neg (by omega), if_neg (by omega)]
    exact rev_unique (n := 8) (h8 h).1 (h8 h).2

/-! ## The memory -/

theorem split3 (m : Mem) (p n : Nat) (h : p + n ≤ m.length) : ∃ P B S, m = P ++ B ++ S ∧ P.length = p ∧ B.length = n :=
  ⟨m.take p, (m.drop p).take n, m.drop (p + n), by rw [List.append_assoc, ← List.drop_drop, List.take_append_drop, List.take_append_drop], by simp; omega, by simp; omega⟩

theorem readN_mid (P B S : List Nat) : readN (P ++ B ++ S) P.length B.length = .ok B := by
  unfold readN; rw [if_pos (by simp)]; simp
theorem writeN_mid (P B S C : List Nat) (h : C.length = B.length) : writeN (P ++ B ++ S) P.length C = .ok (P ++ C ++ S) := by
  unfold writeN; rw [if_pos (by simp; omega), h]; simp

theorem get_mid (P B S : List Nat) {i : Nat} (h : i < B.length) : (P ++ B ++ S)[P.length + i]? = B[i]? := by
  rw [List.append_assoc, List.getElem?_append_right (by omega), List.getElem?_append_left (by omega)]
  congr 1; omega

theorem same_mid (P B S C : List Nat) (h : C.length = B.length) : SameElse (P ++ B ++ S) (P ++ C ++ S) P.length B.length := by
  refine ⟨by simp [h], fun j hj => ?_⟩
  rcases hj with hj | hj
  · rw [List.append_assoc, List.append_assoc, List.getElem?_append_left hj, List.getElem?_append_left hj]
  · rw [List.getElem?_append_right (by simp; omega), List.getElem?_append_right (by simp; omega)]
    simp [h]

theorem encodes_mid (e : Bool) (n v : Nat) (P S : List Nat) : Encodes e n v (P ++ enc e n v ++ S) P.length := by
  intro i hi
  rw [get_mid _ _ _ (by rw [enc_length]; exact hi), enc_get e n v i hi]

theorem mid_of_encodes {e : Bool} {n v : Nat} {P B S : List Nat} (hB : B.length = n) (h : Encodes e n v (P ++ B ++ S) P.length) : B = enc e n v := by
  apply List.ext_getElem?
  intro i
  by_cases hi : i < n
  · have := h i hi
    rw [get_mid _ _ _ (by omega)] at this
    rw [this, enc_get e n v i hi]
  · rw [List.getElem?_eq_none (by omega), List.getElem?_eq_none (by rw [enc_length]; omega)]

theorem load_mid (isFloat h e : Bool) (n v : Nat) (hn : Size isFloat n) (hv : v < 256 ^ n) (P S : List Nat) : load isFloat h e n (P ++ enc e n v ++ S) P.length = .ok v := by
  have hr := readN_mid P (enc e n v) S
  rw [enc_length] at hr
  have hd : hostValue h = dec h := rfl
  unfold load
  cases isFloat with
  | true =>
    rw [if_pos rfl]
    unfold loadFloat
    simp only [bind, Except.bind, hr]
    by_cases he : e ≠ h
    · rw [if_pos he]
      have := reverse_spec .pointer [] (enc e n v) []
      simp only [List.nil_append, List.append_nil, List.length_nil, Nat.zero_add, enc_length] at this
      rw [this]
      have : (!e) = h := by cases e <;> cases h <;> simp_all
      simp only [hd]
      rw [enc_not, this, dec_enc h n v hv]
    · rw [if_neg he]
      have : e = h := by simpa using he
      subst this
      simp only [hd]
      rw [dec_enc e n v hv]
  | false =>
    rw [if_neg (by simp)]
    unfold loadInt
    simp only [bind, Except.bind, hr]
    by_cases he : e ≠ h
    · rw [if_pos he]
      have hn' : n = 1 ∨ n = 2 ∨ n = 4 ∨ n = 8 := hn.2.resolve_left (by simp)
      have heq : (!h) = e := by cases e <;> cases h <;> simp_all
      rw [hd]
      congr 1
      have hw : dec h (enc e n v) < 256 ^ n := by
        have := dec_lt h (enc e n v) (by
          intro b hb; unfold enc at hb
          cases e with
          | false => exact le_lt n v b (by simpa using hb)
          | true => exact le_lt n v b (by simpa using hb))
        rwa [enc_length] at this
      rw [reverseBytes_eq n _ hn' hw]
      subst heq
      cases h with
      | false =>
        show val (le n (val (le n v).reverse)).reverse = v
        have := le_val (le n v).reverse (fun b hb => le_lt n v b (List.mem_reverse.mp hb))
        rw [List.length_reverse, le_length] at this
        rw [this, List.reverse_reverse, val_le n v hv]
      | true =>
        show val (le n (val (le n v).reverse)).reverse = v
        have := le_val (le n v).reverse (fun b hb => le_lt n v b (List.mem_reverse.mp hb))
        rw [List.length_reverse, le_length] at this
        rw [this, List.reverse_reverse, val_le n v hv]
    · rw [if_neg he]
      have : e = h := by simpa using he
      subst this
      rw [hd, dec_enc e n v hv]

/-! ## Properties -/

/-- C84: a value assigned or constructed is in the memory in the byte order of the type, whatever the byte order of the host is; no other byte changes. -/
theorem C84_store (h e : Bool) (n v : Nat) (m : Mem) (p : Nat) (hp : p + n ≤ m.length) : ∃ m', store h e n m v p = .ok m' ∧ Encodes e n v m' p ∧ SameElse m m' p n := by
  obtain ⟨P, B, S, rfl, rfl, rfl⟩ := split3 m p n hp
  have hl : (hostBytes h B.length v).length = B.length := enc_length h B.length v
  have hw := writeN_mid P B S _ hl
  refine ⟨P ++ enc e B.length v ++ S, ?_, encodes_mid e _ v P S, same_mid _ _ _ _ (enc_length ..)⟩
  unfold store
  simp only [bind, Except.bind, hw]
  by_cases he : e ≠ h
  · rw [if_pos he]
    have := reverse_spec .pointer P (enc h B.length v) S
    rw [enc_length, enc_not] at this
    rw [show hostBytes h B.length v = enc h B.length v by rfl, this]
    have : (!h) = e := by cases e <;> cases h <;> simp_all
    rw [this]
  · rw [if_neg he]
    have : e = h := by simpa using he
    subst this; rfl

/-- C84: the bytes there determine the value that is read, the same on every host. -/
theorem C84_load (isFloat h e : Bool) (n : Nat) (hn : Size isFloat n) (v : Nat) (hv : v < 256 ^ n) (m : Mem) (p : Nat) (hm : Encodes e n v m p) : load isFloat h e n m p = .ok v := by
  have hlen : p + n ≤ m.length := by
    have := hm (n - 1) (by have := hn.1; omega)
    have := (List.getElem?_eq_some_iff.mp this).1
    have := hn.1
    omega
  obtain ⟨P, B, S, rfl, rfl, hB⟩ := split3 m p n hlen
  have := mid_of_encodes hB hm
  subst this
  exact load_mid isFloat h e n v hn hv P S

/-- C84: whatever bytes are there (a packet that was received, an address given to the constructor), there is exactly one value they stand for. -/
theorem C84_any_bytes (e : Bool) (n : Nat) (m : Mem) (p : Nat) (hp : p + n ≤ m.length) (hb : ∀ b ∈ m, b < 256) : ∃ v, (v < 256 ^ n ∧ Encodes e n v m p) ∧ ∀ w, w < 256 ^ n → Encodes e n w m p → w = v := by
  obtain ⟨P, B, S, rfl, rfl, rfl⟩ := split3 m p n hp
  have hb' : ∀ b ∈ B, b < 256 := fun b h => hb b (by simp [h])
  refine ⟨dec e B, ⟨dec_lt e B hb', ?_⟩, fun w hw h => ?_⟩
  · have := encodes_mid e B.length (dec e B) P S
    rwa [enc_dec e B hb'] at this
  · have := mid_of_encodes rfl h
    rw [this, dec_enc e _ w hw]

/-- C84: written on one host and read on another one (or on the same): the same value. -/
theorem C84_roundtrip (isFloat h1 h2 e : Bool) (n v : Nat) (hn : Size isFloat n) (hv : v < 256 ^ n) (m : Mem) (p : Nat) (hp : p + n ≤ m.length) :
    ∃ m', store h1 e n m v p = .ok m' ∧ load isFloat h2 e n m' p = .ok v := by
  obtain ⟨m', h, he, _⟩ := C84_store h1 e n v m p hp
  exact ⟨m', h, C84_load isFloat h2 e n hn v hv m' p he⟩

/-- C84: a copy, also to the other byte order, has the same value; the source is unchanged; an object can be assigned to itself. -/
theorem C84_copy (e eSrc : Bool) (n v : Nat) (m : Mem) (src dst : Nat) (hs : src + n ≤ m.length) (hd : dst + n ≤ m.length) (hne : src + n ≤ dst ∨ dst + n ≤ src ∨ src = dst) (hm : Encodes eSrc n v m src) :
    ∃ m', copy e eSrc n m src dst = .ok m' ∧ Encodes e n v m' dst ∧ SameElse m m' dst n := by
  have hrd : readN m src n = .ok (enc eSrc n v) := by
    obtain ⟨P, B, S, rfl, rfl, hB⟩ := split3 m src n hs
    have := mid_of_encodes hB hm
    subst this
    have := readN_mid P (enc eSrc n v) S
    rwa [enc_length] at this
  obtain ⟨P, B, S, rfl, rfl, rfl⟩ := split3 m dst n hd
  have hw := writeN_mid P B S _ (enc_length eSrc B.length v)
  refine ⟨P ++ enc e B.length v ++ S, ?_, encodes_mid e _ v P S, same_mid _ _ _ _ (enc_length ..)⟩
  unfold copy memcpy
  rw [if_neg (by omega)]
  simp only [bind, Except.bind, hrd, hw]
  by_cases he : e ≠ eSrc
  · rw [if_pos he]
    have := reverse_spec .pointer P (enc eSrc B.length v) S
    rw [enc_length, enc_not] at this
    rw [this]
    have : (!eSrc) = e := by cases e <;> cases eSrc <;> simp_all
    rw [this]
  · rw [if_neg he]
    have : e = eSrc := by simpa using he
    subst this; rfl

/-- C84: moving an `unaligned_type_ext` takes the storage over, with the same value in the byte order of the new object; the old one has no storage. -/
theorem C84_move (e eSrc : Bool) (n v : Nat) (m : Mem) (p : Nat) (hp : p + n ≤ m.length) (hm : Encodes eSrc n v m p) :
    ∃ m', moveExt e eSrc n m (some p) = .ok (m', some p, none) ∧ Encodes e n v m' p ∧ SameElse m m' p n := by
  obtain ⟨P, B, S, rfl, rfl, hB⟩ := split3 m p n hp
  have := mid_of_encodes hB hm
  subst this
  have hs := same_mid P (enc eSrc n v) S (enc e n v) (by rw [enc_length, enc_length])
  rw [enc_length] at hs
  refine ⟨P ++ enc e n v ++ S, ?_, encodes_mid e _ v P S, hs⟩
  unfold moveExt
  by_cases he : e ≠ eSrc
  · have := reverse_spec .pointer P (enc eSrc n v) S
    rw [enc_length, enc_not] at this
    simp only [bind, Except.bind]
    rw [if_pos he, this]
    have : (!eSrc) = e := by cases e <;> cases eSrc <;> simp_all
    rw [this]
  · have : e = eSrc := by simpa using he
    subst this
    simp [bind, Except.bind]

/-- C84: constructed from an address: these bytes, if the buffer is long enough, else the assertion fails. -/
theorem C84_from_buffer (n size : Nat) (m : Mem) (a dst : Nat) (ha : a + size ≤ m.length) (hd : dst + n ≤ m.length) :
    (n ≤ size → ∃ m', fromBuffer n m a size dst = .ok (some m') ∧ (∀ i, i < n → m'[dst + i]? = m[a + i]?) ∧ SameElse m m' dst n) ∧ (size < n → fromBuffer n m a size dst = .ok none) := by
  constructor
  · intro hn
    obtain ⟨P, B, S, hm, hP, hB⟩ := split3 m a n (by omega)
    have hrd : readN m a n = .ok B := by rw [hm, ← hP, ← hB]; exact readN_mid P B S
    obtain ⟨P', B', S', hm', hP', hB'⟩ := split3 m dst n hd
    have hw : writeN m dst B = .ok (P' ++ B ++ S') := by rw [hm', ← hP']; exact writeN_mid P' B' S' B (by omega)
    refine ⟨P' ++ B ++ S', ?_, fun i hi => ?_, ?_⟩
    · unfold fromBuffer fromAddress
      rw [if_pos hn]
      simp only [bind, Except.bind, hrd, hw]
    · rw [← hP', get_mid _ _ _ (by omega), hm, ← hP, get_mid _ _ _ (by omega)]
    · have := same_mid P' B' S' B (by omega)
      rw [← hm', hP', hB'] at this; exact this
  · intro hn
    unfold fromBuffer
    rw [if_neg (by omega)]

/-- C84: `hton` gives the value that the host has in its memory with the most significant byte first; `ntoh` undoes it. -/
theorem C84_network (h : Bool) (n v : Nat) (hn : Size false n) (hv : v < 256 ^ n) : Encodes true n v (hostBytes h n (hton h n v)) 0 ∧ ntoh h n (hton h n v) = v ∧ hton h n v < 256 ^ n := by
  have hn' : n = 1 ∨ n = 2 ∨ n = 4 ∨ n = 8 := hn.2.resolve_left (by simp)
  have key : hostBytes h n (hton h n v) = enc true n v := by
    cases h with
    | true => rfl
    | false =>
      show le n (reverseBytes n v) = (le n v).reverse
      rw [reverseBytes_eq n v hn' hv]
      have := le_val (le n v).reverse (fun b hb => le_lt n v b (List.mem_reverse.mp hb))
      rwa [List.length_reverse, le_length] at this
  refine ⟨?_, ?_, ?_⟩
  · rw [key]
    have := encodes_mid true n v [] []
    simpa using this
  · cases h with
    | true => rfl
    | false =>
      show reverseBytes n (reverseBytes n v) = v
      rw [reverseBytes_eq n v hn' hv, reverseBytes_eq n _ hn' (rev_lt n v)]
      have := le_val (le n v).reverse (fun b hb => le_lt n v b (List.mem_reverse.mp hb))
      rw [List.length_reverse, le_length] at this
      rw [this, List.reverse_reverse, val_le n v hv]
  · cases h with
    | true => exact hv
    | false =>
      show reverseBytes n v < _
      rw [reverseBytes_eq n v hn' hv]; exact rev_lt n v

/-! ## Findings and examples -/

/-- Moving from an object without storage (already moved from) to one of the other byte order reverses the bytes at address 0 (l.655-665, l.715-728); with the same byte order it is harmless. -/
theorem C84_finding_null : moveExt true false 4 [] none = .error .nullDeref ∧ moveExt true true 4 [] none = .ok ([], none, none) := ⟨rfl, rfl⟩

example : store false true 4 [9, 9, 9, 9, 9, 9] 0x12345678 1 = .ok [9, 0x12, 0x34, 0x56, 0x78, 9] ∧ store true true 4 [9, 9, 9, 9, 9, 9] 0x12345678 1 = .ok [9, 0x12, 0x34, 0x56, 0x78, 9] := ⟨rfl, rfl⟩
example : load false false true 4 [9, 0x12, 0x34, 0x56, 0x78, 9] 1 = .ok 0x12345678 ∧ load true true false 3 [9, 0x12, 0x34, 0x56, 0x78, 9] 1 = .ok 0x563412 := by decide +kernel
example : Encodes true 2 0x1234 [0, 0x12, 0x34] 1 := by
  intro i hi
  have : i = 0 ∨ i = 1 := by omega
  rcases this with rfl | rfl <;> rfl
example : copy true false 2 [1, 2, 0, 0] 0 2 = .ok [1, 2, 2, 1] ∧ moveExt true false 2 [1, 2, 0] (some 0) = .ok ([2, 1, 0], some 0, none) := ⟨rfl, rfl⟩
example : hton false 2 0x1234 = 0x3412 ∧ hton true 2 0x1234 = 0x1234 := by decide +kernel

end Etl.Unaligned
