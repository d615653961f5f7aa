import Verif.Bitset.Extract

/-!
# `etl::bitset`: `to_ulong`, `to_ullong`
-/
namespace Etl.Bitset



/-- `value<T>` of the implementations, for an unsigned `T` of `tb` bits: l.455-461 for one element, l.1243-1266 for several; in the second form it is 0 if the elements, not the bits, are more than `T` holds. -/
def rawValue (c : Cfg) (tb : Nat) (b : Buf) : Nat :=
  if c.ne = 1 then b 0 % 2 ^ tb else if c.ne * c.w ≤ tb then mValueLoop c tb b c.ne 0 0 else 0
/-- `to_ulong()`, `to_ullong()`, l.2308-2323, for an `unsigned long` or `unsigned long long` of `tb` bits; `none` means that the error `bitset_overflow` is raised. -/
def toNumber (c : Cfg) (tb : Nat) (b : Buf) : Option Nat := if c.N ≤ tb then some (rawValue c tb b) else Option.none

/-- The assertion about bits is enough for the elements: two elements or more fit, one is cut to the type. -/
theorem rawValue_eff {c : Cfg} (hc : Ok c) {b : Buf} {tb : Nat} (hw : WF c b) (ht : tb = 32 ∨ tb = 64) (hN : c.N ≤ tb) (hcl : ∀ i, c.N ≤ i → i < c.ne * c.w → bits c b i = false) :
    ∀ i, (rawValue c tb b).testBit i = (decide (i < c.N) && bits c b i) := by
  have hp := hc.pos
  have hle := N_le c
  have hne := ne_pos hp
  by_cases h1 : c.ne * c.w ≤ tb
  · obtain ⟨v, e, f1, f2⟩ := value_eff hp hw h1
    have e2 : rawValue c tb b = v := by
      unfold value at e; rw [if_neg (by omega)] at e
      unfold rawValue
      split
      · rename_i h2; rw [if_pos h2] at e; exact Option.some.inj e
      · rename_i h2; rw [if_neg h2] at e; exact Option.some.inj e
    intro i
    rw [e2]
    rcases Nat.lt_or_ge i c.N with h | h
    · rw [f2 i (by omega)]; simp [h]
    · rw [decide_eq_false (by omega), Bool.false_and]
      rcases Nat.lt_or_ge i (c.ne * c.w) with h3 | h3
      · rw [f2 i h3]; exact hcl i h h3
      · exact Binary.testBit_ge f1 h3
  · have hl : c.ne = 1 := by
      have hn : c.ne = if c.N % c.w = 0 then c.N / c.w else c.N / c.w + 1 := rfl
      rcases w_cases hc with ⟨_, hv⟩ | ⟨_, hv⟩ | ⟨_, hv⟩ | ⟨_, hv⟩ <;> rw [hv] at hn h1 <;> split at hn <;> omega
    intro i
    unfold rawValue
    rw [if_pos hl, Nat.testBit_mod_two_pow]
    rw [hl, Nat.one_mul] at hcl h1
    rcases Nat.lt_or_ge i c.N with h | h
    · obtain ⟨g1, g2, g3⟩ := one_pos hl h
      have := bits_def (c := c) (b := b) (j := 0) g1
      rw [Nat.zero_mul, Nat.zero_add] at this
      rw [decide_eq_true (show i < tb by omega), decide_eq_true h, this]
    · rw [decide_eq_false (show ¬ i < c.N by omega), Bool.false_and]
      rcases Nat.lt_or_ge i c.w with h3 | h3
      · have := bits_def (c := c) (b := b) (j := 0) h3
        rw [Nat.zero_mul, Nat.zero_add] at this
        rw [← this, hcl i h h3, Bool.and_false]
      · rw [Binary.testBit_ge (hw 0 (by omega)) h3, Bool.and_false]

/-- C26, `to_ulong` and `to_ullong`: whatever sequence of operations came before, the error is raised exactly if the bitset has more bits than the type, and otherwise, unless an operation may have set unused bits, the result is
the number whose bits are those of the ideal vector. -/
theorem C26_to_number {c : Cfg} (hc : Ok c) (mem : Nat → Buf) (os : List Op) (hl : LegalRun c zeros os) :
    ∃ env, run c (fun x => resetAll c (mem x)) os = .ok ((specRun c.N c.w zeros os).1, env) ∧
      ∀ x tb, tb = 32 ∨ tb = 64 →
        (toNumber c tb (env x) = Option.none ↔ tb < c.N) ∧
        (((specRun c.N c.w zeros os).2 x).leak = false → c.N ≤ tb → ∃ v, IsField ((specRun c.N c.w zeros os).2 x).v 0 c.N v ∧ toNumber c tb (env x) = some v) := by
  obtain ⟨env, e, h⟩ := run_agree hc os (start_agree c mem) hl
  refine ⟨env, e, fun x tb ht => ⟨?_, fun hk hN => ⟨rawValue c tb (env x), fun i => ?_, by unfold toNumber; rw [if_pos hN]⟩⟩⟩
  · unfold toNumber
    split
    · exact ⟨fun q => by simp at q, fun q => absurd q (by omega)⟩
    · exact ⟨fun _ => by omega, fun _ => rfl⟩
  · rw [rawValue_eff hc (h x).wf ht hN ((h x).cln hk)]
    rcases Nat.lt_or_ge i c.N with hi | hi
    · rw [(h x).act i hi, Nat.zero_add]
    · simp [show ¬ i < c.N by omega]

/-! ## Examples and a finding -/

/-- 20 bits in bytes, 20 bits in one 64 bit element, and 40 bits, as a 32 bit `unsigned long`. -/
example : toNumber ⟨20, 3⟩ 32 (fun i => [0xF1, 0xF3, 0x08].getD i 0) = some 0x8F3F1 ∧ toNumber ⟨20, 6⟩ 32 (fun _ => 0x8F3F1) = some 0x8F3F1 ∧ toNumber ⟨40, 3⟩ 32 (fun _ => 1) = Option.none ∧
    toNumber ⟨40, 3⟩ 64 (fun _ => 1) = some 0x0101010101 := by decide +kernel
/-- After `flip()` of an empty bitset of 12 bits in bytes, the number has 16 ones. -/
theorem to_number_leaks : (match run ⟨12, 3⟩ (fun x => resetAll ⟨12, 3⟩ ((fun _ _ => 0) x)) [.flipAll 0] with | .ok (_, env) => toNumber ⟨12, 3⟩ 32 (env 0) | .error _ => Option.none) = some 0xFFFF := by decide +kernel

end Etl.Bitset
