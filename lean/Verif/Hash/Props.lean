import Verif.Hash.Model
import Verif.Crc.Props
import Mathlib.Tactic.ByContra
/-!
# C50, C54: hashes and checksums depend only on the bytes added since the last reset
-/
namespace Etl.Hash
open Fcs
variable {w : Nat}

/-! ## Rotation -/

/-- The textbook rotation of a `w` bit word (`0 < d < w`). -/
def rol (x : BitVec w) (d : Nat) : BitVec w := (x <<< d) ||| (x >>> (w - d))
def ror (x : BitVec w) (d : Nat) : BitVec w := (x >>> d) ||| (x <<< (w - d))

theorem rotl_eq (x : BitVec w) {d : Nat} (h0 : 0 < d) (hd : d < w) : BitVec.ofNat w (Binary.rotl w x.toNat d) = rol x d := by
  apply BitVec.eq_of_toNat_eq
  unfold Binary.rotl rol
  have h1 : ¬ (w - d % w = w) := by rw [Nat.mod_eq_of_lt hd]; omega
  simp only [Binary.trunc, Nat.mod_eq_of_lt hd]
  rw [if_neg (by omega)]
  simp only [BitVec.toNat_ofNat, Nat.mod_mod, BitVec.toNat_or, BitVec.toNat_shiftLeft, BitVec.toNat_ushiftRight]
  rw [Nat.or_mod_two_pow]
  congr 1
  apply Nat.mod_eq_of_lt
  exact Nat.lt_of_le_of_lt (Nat.shiftRight_le _ _) x.isLt

theorem rotl1_eq (x : BitVec w) : BitVec.ofNat w (Binary.rotl1 w x.toNat) = rol x 1 := by
  apply BitVec.eq_of_toNat_eq
  unfold Binary.rotl1 rol
  simp only [Binary.trunc, BitVec.toNat_ofNat, Nat.mod_mod, BitVec.toNat_or, BitVec.toNat_shiftLeft, BitVec.toNat_ushiftRight]
  rw [Nat.or_mod_two_pow]
  congr 1
  apply Nat.mod_eq_of_lt
  exact Nat.lt_of_le_of_lt (Nat.shiftRight_le _ _) x.isLt

theorem rotr1_eq (x : BitVec w) : BitVec.ofNat w (Binary.rotr1 w x.toNat) = ror x 1 := by
  apply BitVec.eq_of_toNat_eq
  unfold Binary.rotr1 ror
  simp only [Binary.trunc, BitVec.toNat_ofNat, Nat.mod_mod, BitVec.toNat_or, BitVec.toNat_shiftLeft, BitVec.toNat_ushiftRight]
  rw [Nat.or_mod_two_pow]
  congr 1
  apply Nat.mod_eq_of_lt
  exact Nat.lt_of_le_of_lt (Nat.shiftRight_le _ _) x.isLt

/-! ## Specifications -/

/-- sum of the bytes modulo `2^w` -/
def sumSpec (w : Nat) (bs : List Byte) : BitVec w := BitVec.ofNat w (bs.map BitVec.toNat).sum
/-- exclusive or of the bytes, each widened to `w` bits -/
def xorSpec (w : Nat) (bs : List Byte) : BitVec w := (bs.map fun b => b.setWidth w).foldr (· ^^^ ·) 0#w
/-- BSD checksum: rotate right by one, add the byte -/
def bsdSpec (w : Nat) (bs : List Byte) : BitVec w := bs.foldl (fun s b => ror s 1 + b.setWidth w) 0#w
/-- rotate left by one, xor the byte in -/
def xorRotateSpec (w : Nat) (bs : List Byte) : BitVec w := bs.foldl (fun s b => rol s 1 ^^^ b.setWidth w) 0#w
/-- parity of the number of set bits of the message -/
def paritySpec (w : Nat) (bs : List Byte) : BitVec w := BitVec.ofNat w ((bs.map fun b => (Crc.byteBits b).count true).sum % 2)
/-- FNV-1, in ordinary arithmetic: multiply modulo `2^w`, then xor -/
def fnv1Spec (w basis prime : Nat) (bs : List Byte) : Nat := bs.foldl (fun h b => (h * prime) % 2 ^ w ^^^ b.toNat) basis
/-- FNV-1a: xor, then multiply modulo `2^w` -/
def fnv1aSpec (w basis prime : Nat) (bs : List Byte) : Nat := bs.foldl (fun h b => ((h ^^^ b.toNat) * prime) % 2 ^ w) basis
/-- Jenkins' one-at-a-time hash, in ordinary arithmetic modulo `2^32` -/
def jenkinsSpec (bs : List Byte) : Nat :=
  let mix := fun h (b : Byte) => let h := (h + b.toNat) % 2 ^ 32; let h := (h + h * 2 ^ 10) % 2 ^ 32; h ^^^ (h / 2 ^ 6)
  let h := bs.foldl mix 0
  let h := (h + h * 2 ^ 3) % 2 ^ 32
  let h := h ^^^ (h / 2 ^ 11)
  (h + h * 2 ^ 15) % 2 ^ 32

/-! ## C50: checksums and FNV -/

theorem obs_congr {ν : Type} {h h' : List Byte → ν} (e : ∀ bs, h bs = h' bs) (ops : List Op) : observations h ops [] = observations h' ops [] := by
  rw [funext e]

/-- C50, checksum.h: for every word width, whatever the history of `add`s, range `add`s, `reset`s and `value`s, every `value()` is the
corresponding function of the bytes added since the last reset. -/
theorem C50_checksums (hw8 : 8 ≤ w) (ops : List Op) :
    (∃ s, run (sumPolicy w) (construct (sumPolicy w) () 0#w) ops = .ok (s, observations (sumSpec w) ops [])) ∧
    (∃ s, run (xorPolicy w) (construct (xorPolicy w) () 0#w) ops = .ok (s, observations (xorSpec w) ops [])) ∧
    (∃ s, run (bsdPolicy w) (construct (bsdPolicy w) () 0#w) ops = .ok (s, observations (bsdSpec w) ops [])) ∧
    (∃ s, run (xorRotatePolicy w) (construct (xorRotatePolicy w) () 0#w) ops = .ok (s, observations (xorRotateSpec w) ops [])) ∧
    (∃ s, run (parityPolicy w) (construct (parityPolicy w) () 0#w) ops = .ok (s, observations (paritySpec w) ops [])) := by
  refine ⟨?_, ?_, ?_, ?_, ?_⟩
  · obtain ⟨s, h⟩ := run_pure (P := sumPolicy w) (init := 0#w) (step := fun s b => s + b.setWidth w) (out := id) ⟨rfl, fun _ _ => rfl, fun _ => rfl⟩ ops (construct (sumPolicy w) () 0#w) [] rfl
    refine ⟨s, h.trans ?_⟩
    rw [obs_congr (h' := sumSpec w)]
    intro bs
    have key : ∀ (bs : List Byte) (n : Nat), bs.foldl (fun s b => s + b.setWidth w) (BitVec.ofNat w n) = BitVec.ofNat w (n + (bs.map BitVec.toNat).sum) := by
      intro bs
      induction bs with
      | nil => intro n; simp
      | cons b bs ih =>
        intro n
        rw [List.foldl_cons, show b.setWidth w = BitVec.ofNat w b.toNat from (BitVec.ofNat_toNat w b).symm, ← BitVec.ofNat_add, ih]
        simp [Nat.add_assoc]
    have := key bs 0
    simpa [sumSpec] using this
  · obtain ⟨s, h⟩ := run_pure (P := xorPolicy w) (init := 0#w) (step := fun s b => s ^^^ b.setWidth w) (out := id) ⟨rfl, fun _ _ => rfl, fun _ => rfl⟩ ops (construct (xorPolicy w) () 0#w) [] rfl
    refine ⟨s, h.trans ?_⟩
    rw [obs_congr (h' := xorSpec w)]
    intro bs
    have key : ∀ (bs : List Byte) (x : BitVec w), bs.foldl (fun s b => s ^^^ b.setWidth w) x = x ^^^ xorSpec w bs := by
      intro bs
      induction bs with
      | nil => intro n; simp [xorSpec]
      | cons b bs ih => intro n; rw [List.foldl_cons, ih, BitVec.xor_assoc]; rfl
    have := key bs 0#w
    simpa using this
  · obtain ⟨s, h⟩ := run_pure (P := bsdPolicy w) (init := 0#w) (step := fun s b => ror s 1 + b.setWidth w) (out := id) ⟨rfl, fun v b => by show Except.ok _ = _; rw [rotr1_eq], fun _ => rfl⟩ ops (construct (bsdPolicy w) () 0#w) [] rfl
    exact ⟨s, h⟩
  · obtain ⟨s, h⟩ := run_pure (P := xorRotatePolicy w) (init := 0#w) (step := fun s b => rol s 1 ^^^ b.setWidth w) (out := id) ⟨rfl, fun v b => by show Except.ok _ = _; rw [rotl1_eq], fun _ => rfl⟩ ops (construct (xorRotatePolicy w) () 0#w) [] rfl
    exact ⟨s, h⟩
  · obtain ⟨s, h⟩ := run_pure (P := parityPolicy w) (init := 0#w) (step := fun s b => s ^^^ BitVec.ofNat w (Binary.parity8 b.toNat)) (out := id) ⟨rfl, fun _ _ => rfl, fun _ => rfl⟩ ops (construct (parityPolicy w) () 0#w) [] rfl
    refine ⟨s, h.trans ?_⟩
    rw [obs_congr (h' := paritySpec w)]
    intro bs
    have pc : ∀ b : Byte, Binary.parity8 b.toNat = (Crc.byteBits b).count true % 2 := by decide +kernel
    have hx : ∀ a b : Nat, BitVec.ofNat w (a % 2) ^^^ BitVec.ofNat w (b % 2) = BitVec.ofNat w ((a + b) % 2) := by
      intro a b
      rcases Nat.mod_two_eq_zero_or_one a with h1 | h1 <;> rcases Nat.mod_two_eq_zero_or_one b with h2 | h2 <;> rw [h1, h2, Nat.add_mod, h1, h2] <;> simp
    have key : ∀ (bs : List Byte) (n : Nat), bs.foldl (fun s b => s ^^^ BitVec.ofNat w (Binary.parity8 b.toNat)) (BitVec.ofNat w (n % 2)) =
        BitVec.ofNat w ((n + (bs.map fun b => (Crc.byteBits b).count true).sum) % 2) := by
      intro bs
      induction bs with
      | nil => intro n; simp
      | cons b bs ih => intro n; rw [List.foldl_cons, pc, hx, ih]; simp [Nat.add_assoc]
    have := key bs 0
    simpa [paritySpec] using this

theorem fnv1_fold (hw8 : 8 ≤ w) (prime : BitVec w) (bs : List Byte) (h : BitVec w) :
    (bs.foldl (fun s b => (s * prime) ^^^ b.setWidth w) h).toNat = fnv1Spec w h.toNat prime.toNat bs := by
  unfold fnv1Spec
  induction bs generalizing h with
  | nil => rfl
  | cons b bs ih =>
    have hb : b.toNat < 2 ^ w := Nat.lt_of_lt_of_le b.isLt (Nat.pow_le_pow_right (by omega) hw8)
    rw [List.foldl_cons, ih]
    simp [Nat.mod_eq_of_lt hb]

theorem fnv1a_fold (hw8 : 8 ≤ w) (prime : BitVec w) (bs : List Byte) (h : BitVec w) :
    (bs.foldl (fun s b => (s ^^^ b.setWidth w) * prime) h).toNat = fnv1aSpec w h.toNat prime.toNat bs := by
  unfold fnv1aSpec
  induction bs generalizing h with
  | nil => rfl
  | cons b bs ih =>
    have hb : b.toNat < 2 ^ w := Nat.lt_of_lt_of_le b.isLt (Nat.pow_le_pow_right (by omega) hw8)
    rw [List.foldl_cons, ih]
    simp [Nat.mod_eq_of_lt hb]

/-- the four FNV classes, as `(width, basis, prime)` of the published algorithm -/
theorem fnv_ok (hw8 : 8 ≤ w) (basis prime : BitVec w) (ops : List Op) :
    (∃ s, run (fnv1Policy w basis prime) (construct (fnv1Policy w basis prime) () 0#w) ops = .ok (s, observations (fun bs => BitVec.ofNat w (fnv1Spec w basis.toNat prime.toNat bs)) ops [])) ∧
    (∃ s, run (fnv1aPolicy w basis prime) (construct (fnv1aPolicy w basis prime) () 0#w) ops = .ok (s, observations (fun bs => BitVec.ofNat w (fnv1aSpec w basis.toNat prime.toNat bs)) ops [])) := by
  constructor
  · obtain ⟨s, h⟩ := run_pure (P := fnv1Policy w basis prime) (init := basis) (step := fun s b => (s * prime) ^^^ b.setWidth w) (out := id) ⟨rfl, fun _ _ => rfl, fun _ => rfl⟩ ops (construct (fnv1Policy w basis prime) () 0#w) [] rfl
    refine ⟨s, h.trans ?_⟩
    rw [obs_congr (h' := fun bs => BitVec.ofNat w (fnv1Spec w basis.toNat prime.toNat bs))]
    intro bs
    rw [← fnv1_fold hw8, BitVec.ofNat_toNat, BitVec.setWidth_eq]; rfl
  · obtain ⟨s, h⟩ := run_pure (P := fnv1aPolicy w basis prime) (init := basis) (step := fun s b => (s ^^^ b.setWidth w) * prime) (out := id) ⟨rfl, fun _ _ => rfl, fun _ => rfl⟩ ops (construct (fnv1aPolicy w basis prime) () 0#w) [] rfl
    refine ⟨s, h.trans ?_⟩
    rw [obs_congr (h' := fun bs => BitVec.ofNat w (fnv1aSpec w basis.toNat prime.toNat bs))]
    intro bs
    rw [← fnv1a_fold hw8, BitVec.ofNat_toNat, BitVec.setWidth_eq]; rfl

/-- C50, fnv_1.h: `fnv_1_64`, `fnv_1a_64`, `fnv_1_32`, `fnv_1a_32`; the constants are those of the FNV specification. -/
theorem C50_fnv (ops : List Op) :
    (∃ s, run (fnv1Policy 64 basis64 prime64) (construct (fnv1Policy 64 basis64 prime64) () 0#64) ops =
      .ok (s, observations (fun bs => BitVec.ofNat 64 (fnv1Spec 64 14695981039346656037 1099511628211 bs)) ops [])) ∧
    (∃ s, run (fnv1aPolicy 64 basis64 prime64) (construct (fnv1aPolicy 64 basis64 prime64) () 0#64) ops =
      .ok (s, observations (fun bs => BitVec.ofNat 64 (fnv1aSpec 64 14695981039346656037 1099511628211 bs)) ops [])) ∧
    (∃ s, run (fnv1Policy 32 basis32 prime32) (construct (fnv1Policy 32 basis32 prime32) () 0#32) ops =
      .ok (s, observations (fun bs => BitVec.ofNat 32 (fnv1Spec 32 2166136261 16777619 bs)) ops [])) ∧
    (∃ s, run (fnv1aPolicy 32 basis32 prime32) (construct (fnv1aPolicy 32 basis32 prime32) () 0#32) ops =
      .ok (s, observations (fun bs => BitVec.ofNat 32 (fnv1aSpec 32 2166136261 16777619 bs)) ops [])) :=
  ⟨(fnv_ok (by omega) basis64 prime64 ops).1, (fnv_ok (by omega) basis64 prime64 ops).2, (fnv_ok (by omega) basis32 prime32 ops).1, (fnv_ok (by omega) basis32 prime32 ops).2⟩

/-- the published test vectors: FNV-1a 32 of "a", FNV-1 64 of "" -/
example : fnv1aSpec 32 2166136261 16777619 [0x61] = 0xE40C292C ∧ fnv1Spec 64 14695981039346656037 1099511628211 [] = 0xCBF29CE484222325 := by decide +kernel

/-! ## C50: jenkins -/

/-- A call that adds a byte after `value()` without an intervening `reset()`: the documented `hash_finalised` error. -/
def misuse : List Op → Bool → Bool
  | [], _ => false
  | .reset :: os, _ => misuse os false
  | .add _ :: os, fin => fin || misuse os fin
  | .addRange bs :: os, fin => (fin && !bs.isEmpty) || misuse os fin
  | .value :: os, _ => misuse os true

def jStep (h : BitVec 32) (b : Byte) : BitVec 32 :=
  let h := h + b.setWidth 32
  let h := h + (h <<< 10)
  h ^^^ (h >>> 6)
def jOut (h : BitVec 32) : BitVec 32 :=
  let h := h + (h <<< 3)
  let h := h ^^^ (h >>> 11)
  h + (h <<< 15)

theorem jenkins_add (s : Fcs Bool (BitVec 32)) (b : Byte) :
    (s.pol = true → addByte jenkinsPolicy s b = .error .asserted) ∧ (s.pol = false → addByte jenkinsPolicy s b = .ok { s with check := jStep s.check b }) := by
  constructor <;> intro h <;> simp [addByte, jenkinsPolicy, h, jStep]

theorem jenkins_range (bs : List Byte) (s : Fcs Bool (BitVec 32)) :
    (s.pol = true → bs ≠ [] → addRange jenkinsPolicy s bs = .error .asserted) ∧ (s.pol = false → addRange jenkinsPolicy s bs = .ok { s with check := bs.foldl jStep s.check }) := by
  constructor
  · intro h hb
    cases bs with
    | nil => exact absurd rfl hb
    | cons b bs => rw [addRange, (jenkins_add s b).1 h]
  · intro h
    induction bs generalizing s with
    | nil => rfl
    | cons b bs ih => rw [addRange, (jenkins_add s b).2 h]; exact ih _ h

theorem jenkins_run (ops : List Op) (s : Fcs Bool (BitVec 32)) (acc : List Byte) (hs : s.check = acc.foldl jStep 0#32) :
    (misuse ops s.pol = true → run jenkinsPolicy s ops = .error .asserted) ∧
    (misuse ops s.pol = false → ∃ s', run jenkinsPolicy s ops = .ok (s', observations (fun bs => jOut (bs.foldl jStep 0#32)) ops acc)) := by
  induction ops generalizing s acc with
  | nil => exact ⟨fun h => (by cases h), fun _ => ⟨s, rfl⟩⟩
  | cons o ops ih =>
    cases o with
    | reset => exact ih (reset jenkinsPolicy s) [] rfl
    | add b =>
      cases hp : s.pol
      · have := ih { s with check := jStep s.check b } (acc ++ [b]) (by simp [hs])
        have h2 : misuse ops { s with check := jStep s.check b }.pol = misuse ops false := by rw [← hp]
        rw [h2] at this
        simp only [run, (jenkins_add s b).2 hp, misuse, Bool.false_or]
        exact this
      · refine ⟨fun _ => ?_, fun h => (by simp [misuse] at h)⟩
        simp only [run, (jenkins_add s b).1 hp]
    | addRange bs =>
      have hok : s.pol = false ∨ bs = [] → addRange jenkinsPolicy s bs = .ok { s with check := bs.foldl jStep s.check } := by
        rintro (h | h)
        · exact (jenkins_range bs s).2 h
        · subst h; rfl
      by_cases hc : s.pol = false ∨ bs = []
      · have := ih { s with check := bs.foldl jStep s.check } (acc ++ bs) (by simp [hs])
        have hm : misuse (.addRange bs :: ops) s.pol = misuse ops s.pol := by
          rcases hc with h | h <;> simp [misuse, h]
        rw [hm]
        simp only [run, hok hc]
        exact this
      · have hp : s.pol = true := by
          by_contra h; exact hc (.inl (by simpa using h))
        have hb : bs ≠ [] := fun h => hc (.inr h)
        refine ⟨fun _ => ?_, fun h => ?_⟩
        · simp only [run, (jenkins_range bs s).1 hp hb]
        · simp [misuse, hp, hb] at h
    | value =>
      have := ih (value jenkinsPolicy s).1 acc hs
      have hp : (value jenkinsPolicy s).1.pol = true := rfl
      rw [hp] at this
      refine ⟨fun h => ?_, fun h => ?_⟩
      · simp only [run, this.1 h]
      · obtain ⟨s', e⟩ := this.2 h
        refine ⟨s', ?_⟩
        simp only [run, e, observations]
        rw [show (value jenkinsPolicy s).2 = jOut (acc.foldl jStep 0#32) by rw [← hs]; rfl]

theorem jStep_toNat (h : BitVec 32) (b : Byte) : (jStep h b).toNat =
    (let x := (h.toNat + b.toNat) % 2 ^ 32; let x := (x + x * 2 ^ 10) % 2 ^ 32; x ^^^ (x / 2 ^ 6)) := by
  have hb : b.toNat % 2 ^ 32 = b.toNat := Nat.mod_eq_of_lt (by have := b.isLt; omega)
  unfold jStep
  simp only [BitVec.toNat_xor, BitVec.toNat_add, BitVec.toNat_shiftLeft, BitVec.toNat_ushiftRight, BitVec.toNat_setWidth, hb, Nat.shiftLeft_eq, Nat.shiftRight_eq_div_pow, Nat.add_mod_mod]

theorem jSpec_eq (bs : List Byte) : (jOut (bs.foldl jStep 0#32)).toNat = jenkinsSpec bs := by
  have key : ∀ (bs : List Byte) (h : BitVec 32), (bs.foldl jStep h).toNat =
      bs.foldl (fun h (b : Byte) => let h := (h + b.toNat) % 2 ^ 32; let h := (h + h * 2 ^ 10) % 2 ^ 32; h ^^^ (h / 2 ^ 6)) h.toNat := by
    intro bs
    induction bs with
    | nil => intro h; rfl
    | cons b bs ih => intro h; rw [List.foldl_cons, ih, jStep_toNat]; rfl
  have k0 := key bs 0#32
  unfold jenkinsSpec
  rw [show (0#32).toNat = 0 from rfl] at k0
  simp only [← k0]
  unfold jOut
  simp only [BitVec.toNat_xor, BitVec.toNat_add, BitVec.toNat_shiftLeft, BitVec.toNat_ushiftRight, Nat.shiftLeft_eq, Nat.shiftRight_eq_div_pow, Nat.add_mod_mod]

/-- C50, jenkins.h: a history that adds to a finalised hash raises `hash_finalised`; in every other history each `value()` is the
one-at-a-time hash of the bytes added since the last reset. -/
theorem C50_jenkins (ops : List Op) (garbage : Bool) :
    (misuse ops false = true → run jenkinsPolicy (construct jenkinsPolicy garbage 0#32) ops = .error .asserted) ∧
    (misuse ops false = false → ∃ s, run jenkinsPolicy (construct jenkinsPolicy garbage 0#32) ops = .ok (s, observations (fun bs => BitVec.ofNat 32 (jenkinsSpec bs)) ops [])) := by
  have h := jenkins_run ops (construct jenkinsPolicy garbage 0#32) [] rfl
  rw [show (construct jenkinsPolicy garbage 0#32).pol = false from rfl] at h
  refine ⟨h.1, fun hm => ?_⟩
  · obtain ⟨s, e⟩ := h.2 hm
    refine ⟨s, e.trans ?_⟩
    rw [obs_congr (h' := fun bs => BitVec.ofNat 32 (jenkinsSpec bs))]
    intro bs
    rw [← jSpec_eq, BitVec.ofNat_toNat, BitVec.setWidth_eq]

/-- one-at-a-time of "a" is 0xCA2E9442 -/
example : jenkinsSpec [0x61] = 0xCA2E9442 := by decide +kernel
example : misuse [.add 1, .value, .value, .reset, .add 2, .value] false = false ∧ misuse [.value, .addRange [1]] false = true := by decide

/-! ## C50: murmur3 -/

/-- a block of up to four bytes as a little endian number -/
def leWord : List Byte → Nat
  | [] => 0
  | b :: bs => b.toNat + 256 * leWord bs

/-- Specification, following the published MurmurHash3_x86_32: constants c1, c2, rotations 15 and 13, `h * 5 + 0xe6546b64`. -/
def k1 (k : BitVec w) : BitVec w := rol (k * BitVec.ofNat w 0xCC9E2D51) 15 * BitVec.ofNat w 0x1B873593
def mixBlock (h k : BitVec w) : BitVec w := rol (h ^^^ k1 k) 13 * BitVec.ofNat w 5 + BitVec.ofNat w 0xE6546B64
def fmix (h : BitVec w) : BitVec w :=
  let h := h ^^^ (h >>> 16)
  let h := h * BitVec.ofNat w 0x85EBCA6B
  let h := h ^^^ (h >>> 13)
  let h := h * BitVec.ofNat w 0xC2B2AE35
  h ^^^ (h >>> 16)
/-- all whole four byte blocks are mixed in; returns the hash and the tail. `word` turns a block into a number. -/
def body (word : List Byte → BitVec w) (h : BitVec w) : List Byte → BitVec w × List Byte
  | a :: b :: c :: d :: rest => body word (mixBlock h (word [a, b, c, d])) rest
  | tail => (h, tail)
def murmurSpec (word : List Byte → BitVec w) (seed : BitVec w) (bs : List Byte) : BitVec w :=
  let (h, tail) := body word seed bs
  fmix (h ^^^ k1 (word tail) ^^^ BitVec.ofNat w bs.length)

/-- how the code assembles a block (for 64 bit hashes the fourth byte's sign bit spreads into the upper half: `int` arithmetic) -/
def wordOf (w : Nat) (bs : List Byte) : BitVec w := (List.range bs.length).foldl (fun x i => x ||| contrib w false (bs.getD i 0#8) i) 0#w

theorem scramble_eq (hw : 32 ≤ w) (x : BitVec w) : scramble x = k1 x := by
  unfold scramble k1; simp only; rw [rotl_eq _ (by omega) (by omega)]

theorem four_steps (hw : 32 ≤ w) (s : Murmur w) (hf : s.fill = 0) (hb : s.block = 0#w) (a b c d : Byte) :
    [a, b, c, d].foldl (mStep false) s = { s with count := s.count + 4, hash := mixBlock s.hash (wordOf w [a, b, c, d]) } := by
  obtain ⟨fin, fill, count, block, hash, seed⟩ := s
  simp only at hf hb
  subst hf hb
  simp only [List.foldl_cons, List.foldl_nil, mStep, show ¬ (0 + 1 = 4) by decide, show ¬ (0 + 1 + 1 = 4) by decide, show ¬ (0 + 1 + 1 + 1 = 4) by decide,
    show 0 + 1 + 1 + 1 + 1 = 4 by decide, if_false, if_true, addBlock, scramble_eq hw]
  have e : wordOf w [a, b, c, d] = (((0#w ||| contrib w false a 0) ||| contrib w false b (0 + 1)) ||| contrib w false c (0 + 1 + 1)) ||| contrib w false d (0 + 1 + 1 + 1) := rfl
  rw [e, rotl_eq _ (by omega) (by omega)]
  rfl

theorem tail_steps (s : Murmur w) (hf : s.fill = 0) (hb : s.block = 0#w) (bs : List Byte) (hl : bs.length < 4) :
    bs.foldl (mStep false) s = { s with count := s.count + bs.length, fill := bs.length, block := wordOf w bs } := by
  obtain ⟨fin, fill, count, block, hash, seed⟩ := s
  simp only at hf hb
  subst hf hb
  match bs, hl with
  | [], _ => rfl
  | [a], _ => rfl
  | [a, b], _ => rfl
  | [a, b, c], _ => rfl

theorem steps_body (hw : 32 ≤ w) (bs : List Byte) (s : Murmur w) (hf : s.fill = 0) (hb : s.block = 0#w) :
    bs.foldl (mStep false) s = { s with count := s.count + bs.length, hash := (body (wordOf w) s.hash bs).1, fill := (body (wordOf w) s.hash bs).2.length, block := wordOf w (body (wordOf w) s.hash bs).2 } := by
  match bs with
  | a :: b :: c :: d :: rest =>
    have e : a :: b :: c :: d :: rest = [a, b, c, d] ++ rest := rfl
    rw [e, List.foldl_append, four_steps hw s hf hb]
    have := steps_body hw rest { s with count := s.count + 4, hash := mixBlock s.hash (wordOf w [a, b, c, d]) } hf hb
    rw [this]
    simp only [List.length_append, List.length_cons, List.length_nil, List.cons_append, List.nil_append, body]
    congr 1
    omega
  | [] => rw [tail_steps s hf hb _ (by simp)]; rfl
  | [a] => rw [tail_steps s hf hb _ (by simp)]; rfl
  | [a, b] => rw [tail_steps s hf hb _ (by simp)]; rfl
  | [a, b, c] => rw [tail_steps s hf hb _ (by simp)]; rfl

theorem finalise_eq (hw : 32 ≤ w) (s : Murmur w) (h : s.finalised = false) :
    (finalise s).hash = fmix (s.hash ^^^ k1 s.block ^^^ BitVec.ofNat w s.count) ∧ (finalise s).finalised = true ∧ (finalise s).seed = s.seed := by
  unfold finalise
  rw [h]
  simp only [Bool.false_eq_true, if_false, scramble_eq hw]
  exact ⟨rfl, trivial, trivial⟩

theorem step_frame (s : Murmur w) (b : Byte) : (mStep false s b).finalised = s.finalised ∧ (mStep false s b).seed = s.seed := by
  unfold mStep addBlock
  simp only
  split <;> exact ⟨rfl, rfl⟩

theorem steps_frame (bs : List Byte) (s : Murmur w) : (bs.foldl (mStep false) s).finalised = s.finalised ∧ (bs.foldl (mStep false) s).seed = s.seed := by
  induction bs generalizing s with
  | nil => exact ⟨rfl, rfl⟩
  | cons b bs ih => rw [List.foldl_cons, (ih _).1, (ih _).2]; exact step_frame s b

/-- Adding (even an empty range) to a finalised murmur3 raises `hash_finalised`. -/
def misuseM : List Op → Bool → Bool
  | [], _ => false
  | .reset :: os, _ => misuseM os false
  | .add _ :: os, fin => fin || misuseM os fin
  | .addRange _ :: os, fin => fin || misuseM os fin
  | .value :: os, _ => misuseM os true

/-- the state of a murmur3 object after `acc` was added since the last reset, and `value()` possibly called -/
def MState (seed : BitVec w) (s : Murmur w) (acc : List Byte) : Prop :=
  s.seed = seed ∧ ((s.finalised = false ∧ s = acc.foldl (mStep false) (mConstruct seed)) ∨ (s.finalised = true ∧ s.hash = murmurSpec (wordOf w) seed acc))

theorem unfin_value (hw : 32 ≤ w) (seed : BitVec w) (acc : List Byte) : (finalise (acc.foldl (mStep false) (mConstruct seed))).hash = murmurSpec (wordOf w) seed acc := by
  have hfin : (acc.foldl (mStep false) (mConstruct seed)).finalised = false := (steps_frame acc _).1
  rw [(finalise_eq hw _ hfin).1, steps_body hw acc (mConstruct seed) rfl rfl]
  simp only [murmurSpec, mConstruct, mReset, Nat.zero_add]

theorem murmur_run (hw : 32 ≤ w) (seed : BitVec w) (ops : List Op) (s : Murmur w) (acc : List Byte) (hs : MState seed s acc) :
    (misuseM ops s.finalised = true → mRun false s ops = .error .asserted) ∧
    (misuseM ops s.finalised = false → ∃ s', mRun false s ops = .ok (s', observations (murmurSpec (wordOf w) seed) ops acc)) := by
  induction ops generalizing s acc with
  | nil => exact ⟨fun h => (by cases h), fun _ => ⟨s, rfl⟩⟩
  | cons o ops ih =>
    obtain ⟨hseed, hs⟩ := hs
    cases o with
    | reset =>
      refine ih (mReset s) [] ⟨hseed, .inl ⟨rfl, ?_⟩⟩
      simp [mReset, mConstruct, hseed]
    | add b =>
      rcases hs with ⟨hf, hs⟩ | ⟨hf, hs⟩
      · have := ih (mStep false s b) (acc ++ [b]) ⟨(step_frame s b).2.trans hseed, .inl ⟨(step_frame s b).1.trans hf, by rw [List.foldl_append, ← hs]; rfl⟩⟩
        rw [(step_frame s b).1, hf] at this
        have e : mAdd s b = .ok (mStep false s b) := by rw [mAdd, hf]; rfl
        simp only [mRun, e, misuseM, hf, Bool.false_or, observations]
        exact this
      · have e : mAdd s b = .error .asserted := by rw [mAdd, hf]; rfl
        exact ⟨fun _ => by simp only [mRun, e], fun h => by simp [misuseM, hf] at h⟩
    | addRange bs =>
      rcases hs with ⟨hf, hs⟩ | ⟨hf, hs⟩
      · have := ih (bs.foldl (mStep false) s) (acc ++ bs) ⟨(steps_frame bs s).2.trans hseed, .inl ⟨(steps_frame bs s).1.trans hf, by rw [List.foldl_append, ← hs]⟩⟩
        rw [(steps_frame bs s).1, hf] at this
        have e : mAddRange false s bs = .ok (bs.foldl (mStep false) s) := by rw [mAddRange, hf]; rfl
        simp only [mRun, e, misuseM, hf, Bool.false_or, observations]
        exact this
      · have e : mAddRange false s bs = .error .asserted := by rw [mAddRange, hf]; rfl
        exact ⟨fun _ => by simp only [mRun, e], fun h => by simp [misuseM, hf] at h⟩
    | value =>
      have hv : (finalise s).finalised = true ∧ (finalise s).seed = seed ∧ (finalise s).hash = murmurSpec (wordOf w) seed acc := by
        rcases hs with ⟨hf, hs⟩ | ⟨hf, hs⟩
        · refine ⟨(finalise_eq hw s hf).2.1, (finalise_eq hw s hf).2.2.trans hseed, ?_⟩
          rw [hs]; exact unfin_value hw seed acc
        · have : finalise s = s := by unfold finalise; rw [if_pos hf]
          rw [this]; exact ⟨hf, hseed, hs⟩
      have := ih (finalise s) acc ⟨hv.2.1, .inr ⟨hv.1, hv.2.2⟩⟩
      rw [hv.1] at this
      refine ⟨fun h => ?_, fun h => ?_⟩
      · simp only [mRun, mValue, this.1 h]
      · obtain ⟨s', e⟩ := this.2 h
        exact ⟨s', by simp only [mRun, mValue, e, observations, hv.2.2]⟩

/-- for 32 bit hashes the block is the little endian number of its bytes -/
theorem wordOf32 (bs : List Byte) (hl : bs.length ≤ 4) : wordOf 32 bs = BitVec.ofNat 32 (leWord bs) := by
  have hc : ∀ (b : Byte) (i : Nat), i < 4 → contrib 32 false b i = BitVec.ofNat 32 (b.toNat <<< (8 * i)) := by
    intro b i hi
    unfold contrib
    rw [BitVec.signExtend_eq, if_neg (by decide)]
    apply BitVec.eq_of_toNat_eq
    have hb : b.toNat % 2 ^ 32 = b.toNat := Nat.mod_eq_of_lt (by have := b.isLt; omega)
    simp only [BitVec.toNat_shiftLeft, BitVec.toNat_setWidth, BitVec.toNat_ofNat, hb]
    rw [Nat.mul_comm i 8]
  have ho : ∀ (x : Nat) (b : Byte) (i : Nat), x < 2 ^ (8 * i) → BitVec.ofNat 32 x ||| BitVec.ofNat 32 (b.toNat <<< (8 * i)) = BitVec.ofNat 32 (x + b.toNat * 2 ^ (8 * i)) := by
    intro x b i hx
    rw [← BitVec.ofNat_or, Nat.or_comm, ← Nat.shiftLeft_add_eq_or_of_lt hx, Nat.shiftLeft_eq, Nat.add_comm]
  have lt8 := fun b : Byte => b.isLt
  match bs, hl with
  | [], _ => rfl
  | [a], _ =>
    show 0#32 ||| contrib 32 false a 0 = _
    rw [hc _ _ (by omega), ho _ _ 0 (by omega)]
    congr 1; simp [leWord]
  | [a, b], _ =>
    show (0#32 ||| contrib 32 false a 0) ||| contrib 32 false b 1 = _
    rw [hc _ _ (by omega), hc _ _ (by omega), ho _ _ 0 (by omega), ho _ _ 1 (by have := lt8 a; omega)]
    congr 1; simp [leWord]; omega
  | [a, b, c], _ =>
    show ((0#32 ||| contrib 32 false a 0) ||| contrib 32 false b 1) ||| contrib 32 false c 2 = _
    rw [hc _ _ (by omega), hc _ _ (by omega), hc _ _ (by omega), ho _ _ 0 (by omega), ho _ _ 1 (by have := lt8 a; omega), ho _ _ 2 (by have := lt8 a; have := lt8 b; omega)]
    congr 1; simp [leWord]; omega
  | [a, b, c, d], _ =>
    show (((0#32 ||| contrib 32 false a 0) ||| contrib 32 false b 1) ||| contrib 32 false c 2) ||| contrib 32 false d 3 = _
    rw [hc _ _ (by omega), hc _ _ (by omega), hc _ _ (by omega), hc _ _ (by omega), ho _ _ 0 (by omega), ho _ _ 1 (by have := lt8 a; omega), ho _ _ 2 (by have := lt8 a; have := lt8 b; omega),
      ho _ _ 3 (by have := lt8 a; have := lt8 b; have := lt8 c; omega)]
    congr 1; simp [leWord]; omega

theorem body_congr {word word' : List Byte → BitVec w} (h : ∀ bs, bs.length ≤ 4 → word bs = word' bs) (bs : List Byte) (x : BitVec w) :
    body word x bs = body word' x bs ∧ (body word x bs).2.length ≤ 4 := by
  match bs with
  | a :: b :: c :: d :: rest =>
    simp only [body]
    rw [h _ (by simp)]
    exact body_congr h rest _
  | [] => exact ⟨rfl, by simp [body]⟩
  | [a] => exact ⟨rfl, by simp [body]⟩
  | [a, b] => exact ⟨rfl, by simp [body]⟩
  | [a, b, c] => exact ⟨rfl, by simp [body]⟩

/-- C50, murmur3.h with a 32 bit hash and unsigned bytes: adding to a finalised hash raises `hash_finalised`; in every other history
each `value()` is the published MurmurHash3_x86_32 (little endian blocks) of the bytes added since the last reset, for every seed and
every split into `add` calls. -/
theorem C50_murmur32 (seed : BitVec 32) (ops : List Op) :
    (misuseM ops false = true → mRun false (mConstruct seed) ops = .error .asserted) ∧
    (misuseM ops false = false → ∃ s, mRun false (mConstruct seed) ops = .ok (s, observations (murmurSpec (fun bs => BitVec.ofNat 32 (leWord bs)) seed) ops [])) := by
  have h := murmur_run (w := 32) (by omega) seed ops (mConstruct seed) [] ⟨rfl, .inl ⟨rfl, rfl⟩⟩
  rw [show (mConstruct seed).finalised = false from rfl] at h
  refine ⟨h.1, fun hm => ?_⟩
  · obtain ⟨s, e⟩ := h.2 hm
    refine ⟨s, e.trans ?_⟩
    rw [obs_congr (h' := murmurSpec (fun bs => BitVec.ofNat 32 (leWord bs)) seed)]
    intro bs
    have hb := body_congr (w := 32) wordOf32 bs seed
    unfold murmurSpec
    rw [← hb.1]
    simp only
    rw [wordOf32 _ hb.2]

/-- C50, murmur3.h with a 64 bit hash (an ETL specific variant): again a function of the seed and the byte sequence alone. -/
theorem C50_murmur64 (seed : BitVec 64) (ops : List Op) :
    (misuseM ops false = true → mRun false (mConstruct seed) ops = .error .asserted) ∧
    (misuseM ops false = false → ∃ s, mRun false (mConstruct seed) ops = .ok (s, observations (murmurSpec (wordOf 64) seed) ops [])) := by
  have h := murmur_run (w := 64) (by omega) seed ops (mConstruct seed) [] ⟨rfl, .inl ⟨rfl, rfl⟩⟩
  exact h

/-- MurmurHash3_x86_32("test", seed 0) = 0xba6bd213, and of "Hello, world!" with seed 0x9747b28c = 0x24884CBA. -/
example : murmurSpec (fun bs => BitVec.ofNat 32 (leWord bs)) 0#32 [0x74, 0x65, 0x73, 0x74] = 0xba6bd213#32 := by decide +kernel
example : murmurSpec (fun bs => BitVec.ofNat 32 (leWord bs)) 0x9747b28c#32 [0x48, 0x65, 0x6c, 0x6c, 0x6f, 0x2c, 0x20, 0x77, 0x6f, 0x72, 0x6c, 0x64, 0x21] = 0x24884CBA#32 := by decide +kernel

/-- The restriction to unsigned bytes is needed: a range of (signed) `char` holding the byte 0x80 first is hashed differently from the
same byte added with `add(uint8_t)`. -/
theorem murmur_signed_char_wrong :
    (mAddRange true (mConstruct 0#32) [0x80, 0x00]).map (fun s => (mValue s).2) ≠ (mAddRange false (mConstruct 0#32) [0x80, 0x00]).map (fun s => (mValue s).2) := by decide +kernel

/-! ## C54: pearson -/

/-- The published algorithm: lane `i` of an `n` byte hash starts with `T[(first byte + i) mod 256]` and continues with `T[h xor byte]`. -/
def pearsonLane (i : Nat) : List Byte → Byte
  | [] => 0#8
  | b :: bs => bs.foldl (fun h b => BitVec.ofNat 8 (lookupTable.getD (h ^^^ b).toNat 0)) (BitVec.ofNat 8 (lookupTable.getD ((b.toNat + i) % 256) 0))
def pearsonSpec (n : Nat) (bs : List Byte) : List Byte := (List.range n).map fun i => pearsonLane i bs

/-- The lookup table is a permutation of 0..255. -/
theorem C54_table_permutation : lookupTable.length = 256 ∧ lookupTable.Nodup ∧ ∀ x ∈ lookupTable, x < 256 := by decide +kernel

theorem look_ok {i : Nat} (h : i < 256) : look i = .ok (BitVec.ofNat 8 (lookupTable.getD i 0)) := by
  have hl : i < lookupTable.length := by rw [C54_table_permutation.1]; exact h
  unfold look
  rw [List.getElem?_eq_getElem hl]
  simp [List.getD, List.getElem?_eq_getElem hl]

theorem pLoop_ok (first : Bool) (b : Byte) (hs : List Byte) (i : Nat) :
    pLoop first b i hs = .ok ((hs.zipIdx i).map fun x => BitVec.ofNat 8 (lookupTable.getD (if first then (b.toNat + x.2) % 256 else (x.1 ^^^ b).toNat) 0)) := by
  induction hs generalizing i with
  | nil => rfl
  | cons h hs ih =>
    have hlt : (if first then (b.toNat + i) % 256 else (h ^^^ b).toNat) < 256 := by
      split
      · exact Nat.mod_lt _ (by omega)
      · exact (h ^^^ b).isLt
    rw [pLoop, look_ok hlt, ih]
    rfl

/-- no reset after bytes have been added -/
def noReset : List Op → Bool
  | [] => true
  | .reset :: _ => false
  | _ :: os => noReset os

theorem lane_snoc (i : Nat) (a : Byte) (as : List Byte) (b : Byte) : pearsonLane i (a :: as ++ [b]) = BitVec.ofNat 8 (lookupTable.getD (pearsonLane i (a :: as) ^^^ b).toNat 0) := by
  simp [pearsonLane, List.foldl_append]

/-- the state after `acc` -/
def PState (n : Nat) (s : Pearson) (acc : List Byte) : Prop := s.first = acc.isEmpty ∧ s.hash = pearsonSpec n acc

theorem pAdd_ok {n : Nat} {s : Pearson} {acc : List Byte} (h : PState n s acc) (b : Byte) : ∃ s', pAdd s b = .ok s' ∧ PState n s' (acc ++ [b]) := by
  obtain ⟨h1, h2⟩ := h
  refine ⟨⟨false, _⟩, by rw [pAdd, pLoop_ok], by simp, ?_⟩
  simp only [h2, h1]
  unfold pearsonSpec
  apply List.ext_getElem
  · simp
  · intro k hk1 hk2
    simp only [List.getElem_map, List.getElem_zipIdx, List.getElem_range, Nat.zero_add]
    cases acc with
    | nil => simp [pearsonLane]
    | cons a as => rw [lane_snoc]; simp

theorem pAddRange_ok {n : Nat} (bs : List Byte) {s : Pearson} {acc : List Byte} (h : PState n s acc) : ∃ s', pAddRange s bs = .ok s' ∧ PState n s' (acc ++ bs) := by
  induction bs generalizing s acc with
  | nil => exact ⟨s, rfl, by simpa using h⟩
  | cons b bs ih =>
    obtain ⟨s1, e1, h1⟩ := pAdd_ok h b
    obtain ⟨s2, e2, h2⟩ := ih h1
    exact ⟨s2, by rw [pAddRange, e1]; exact e2, by simpa using h2⟩

/-- C54 (partial): histories that do not reset.  Every `value()` of an `n` byte Pearson hash is the published hash of all bytes added,
however they were split, and the table is never indexed out of bounds.  Missing: after `reset()` the hash is not restored to its initial
state, see `pearson_reset_wrong`. -/
theorem C54_pearson_partial (n : Nat) (ops : List Op) (hr : noReset ops = true) :
    ∃ s, pRun (pConstruct n) ops = .ok (s, observations (pearsonSpec n) ops []) := by
  have key : ∀ (ops : List Op) (s : Pearson) (acc : List Byte), PState n s acc → noReset ops = true → ∃ s', pRun s ops = .ok (s', observations (pearsonSpec n) ops acc) := by
    intro ops
    induction ops with
    | nil => intro s acc _ _; exact ⟨s, rfl⟩
    | cons o ops ih =>
      intro s acc h hr
      cases o with
      | reset => cases hr
      | add b =>
        obtain ⟨s1, e1, h1⟩ := pAdd_ok h b
        obtain ⟨s2, e2⟩ := ih s1 _ h1 hr
        exact ⟨s2, by rw [pRun, e1]; exact e2⟩
      | addRange bs =>
        obtain ⟨s1, e1, h1⟩ := pAddRange_ok bs h
        obtain ⟨s2, e2⟩ := ih s1 _ h1 hr
        exact ⟨s2, by rw [pRun, e1]; exact e2⟩
      | value =>
        obtain ⟨s2, e2⟩ := ih s acc h hr
        exact ⟨s2, by simp only [pRun, e2, observations, h.2]⟩
  refine key ops (pConstruct n) [] ⟨rfl, ?_⟩ hr
  simp only [pConstruct, pReset, pearsonSpec, pearsonLane]
  rw [List.map_replicate]
  apply List.ext_getElem <;> simp

/-- The defect: `reset()` leaves the "first byte" flag alone, so hashing the same byte before and after a reset gives different values. -/
theorem pearson_reset_wrong : (pRun (pConstruct 2) [.add 1, .value, .reset, .add 1, .value]).map (·.2) = .ok [[39, 61], [39, 39]] ∧
    observations (pearsonSpec 2) [.add 1, .value, .reset, .add 1, .value] [] = [[39, 61], [39, 61]] := by decide +kernel

example : noReset [.add 3, .addRange [1, 2], .value] = true := rfl

end Etl.Hash
