/-
C98: flags.  Specification, theorems.
-/
import Mathlib.Tactic.Linarith
import Verif.Flags.Model

namespace Etl.Flags
variable {w : Nat}

/-! ### Specification: a variable is a set of positions, all of them in the mask -/

/-- position `k` is in the pattern -/
def On (p : BitVec w) (k : Nat) : Prop := p.getLsbD k = true
instance (p : BitVec w) (k : Nat) : Decidable (On p k) := inferInstanceAs (Decidable (_ = true))
abbrev Sets := Nat → Nat → Prop
def change (s : Sets) (i : Nat) (f : Nat → Prop) : Sets := fun v k => if v = i then f k else s v k

def want (mask : BitVec w) (s : Sets) : Op w → Sets
  | .make i => change s i fun _ => False
  | .makeOf i p => change s i fun k => On p k ∧ On mask k
  | .copy i j => change s i (s j)
  | .set i p => change s i fun k => s i k ∨ (On p k ∧ On mask k)
  | .setTo i p v => change s i fun k => if On p k then v = true ∧ On mask k else s i k
  | .clear i => change s i fun _ => False
  | .reset i p => change s i fun k => s i k ∧ ¬ On p k
  | .flipAll i => change s i fun k => On mask k ∧ ¬ s i k
  | .flip i p => change s i fun k => if On p k ∧ On mask k then ¬ s i k else s i k
  | .value i p => change s i fun k => On p k ∧ On mask k
  | .and i p => change s i fun k => s i k ∧ On p k
  | .swap i j => change (change s i (s j)) j (s i)
def wantAfter (mask : BitVec w) (ops : List (Op w)) : Sets := ops.foldl (want mask) fun _ _ => False

/-! ### Proofs -/

structure Sim (mask : BitVec w) (s : Sets) (x : World w) : Prop where
  bits : ∀ i k, On (x i) k ↔ s i k
  inMask : ∀ i k, s i k → On mask k

theorem sim_put {mask : BitVec w} {s : Sets} {x : World w} (h : Sim mask s x) (i : Nat) (d : BitVec w) (f : Nat → Prop) (hd : ∀ k, On d k ↔ f k) (hm : ∀ k, f k → On mask k) : Sim mask (change s i f) (put x i d) := by
  refine ⟨fun v k => ?_, fun v k => ?_⟩
  · unfold change put; split
    · exact hd k
    · exact h.bits v k
  · unfold change; split
    · exact hm k
    · exact h.inMask v k

theorem on_zero (k : Nat) : ¬ On (0#w) k := by simp [On]
theorem on_and (a b : BitVec w) (k : Nat) : On (a &&& b) k ↔ On a k ∧ On b k := by simp [On]
theorem on_or (a b : BitVec w) (k : Nat) : On (a ||| b) k ↔ On a k ∨ On b k := by simp [On]
theorem on_lt {a : BitVec w} {k : Nat} (h : On a k) : k < w := BitVec.lt_of_getLsbD h
theorem on_not (a : BitVec w) (k : Nat) : On (~~~a) k ↔ k < w ∧ ¬ On a k := by simp [On]
theorem on_xor (a b : BitVec w) (k : Nat) : On (a ^^^ b) k ↔ (if On b k then ¬ On a k else On a k) := by
  by_cases hb : On b k
  · rw [if_pos hb]; unfold On at *; rw [BitVec.getLsbD_xor, hb]; simp
  · rw [if_neg hb]; unfold On at *; rw [BitVec.getLsbD_xor, Bool.not_eq_true _ |>.mp hb]; simp
theorem on_ext {a b : BitVec w} (h : ∀ k, On a k ↔ On b k) : a = b := by
  apply BitVec.eq_of_getLsbD_eq; intro i _; rw [Bool.eq_iff_iff]; exact h i
theorem on_ne_zero (a : BitVec w) : a ≠ 0#w ↔ ∃ k, On a k := by
  constructor
  · intro h
    by_contra hn
    exact h (on_ext fun k => ⟨fun hk => absurd ⟨k, hk⟩ hn, fun hk => absurd hk (on_zero k)⟩)
  · rintro ⟨k, hk⟩ rfl; exact on_zero k hk

theorem step_sim {mask : BitVec w} {s : Sets} {x : World w} (h : Sim mask s x) (o : Op w) : Sim mask (want mask s o) (step mask x o) := by
  cases o with
  | make i => exact sim_put h i _ _ (fun k => ⟨fun e => absurd e (on_zero k), False.elim⟩) (fun k => False.elim)
  | makeOf i p => exact sim_put h i _ _ (fun k => on_and _ _ k) (fun k hk => hk.2)
  | copy i j => exact sim_put h i _ _ (h.bits j) (h.inMask j)
  | set i p => exact sim_put h i _ _ (fun k => by rw [on_or, on_and, h.bits]) (fun k hk => hk.elim (h.inMask i k) And.right)
  | setTo i p v =>
    refine sim_put h i _ _ (fun k => ?_) (fun k hk => ?_)
    · cases v with
      | true =>
        simp only [if_true]; rw [on_or, on_and, h.bits]
        by_cases hp : On p k
        · rw [if_pos hp]; exact ⟨fun e => ⟨trivial, e.elim (h.inMask i k) And.right⟩, fun e => Or.inr ⟨hp, e.2⟩⟩
        · rw [if_neg hp]; exact ⟨fun e => e.elim id fun e => absurd e.1 hp, Or.inl⟩
      | false =>
        simp only [Bool.false_eq_true, if_false]; rw [on_and, on_and, on_not, h.bits]
        by_cases hp : On p k
        · rw [if_pos hp]; exact ⟨fun e => absurd hp e.2.1.2, fun e => e.1.elim⟩
        · rw [if_neg hp]; exact ⟨fun e => e.1, fun e => ⟨e, ⟨on_lt (h.inMask i k e), hp⟩, h.inMask i k e⟩⟩
    · split at hk
      · exact hk.2
      · exact h.inMask i k hk
  | clear i => exact sim_put h i _ _ (fun k => ⟨fun e => absurd e (on_zero k), False.elim⟩) (fun k => False.elim)
  | reset i p => exact sim_put h i _ _ (fun k => by rw [on_and, on_not, h.bits]; exact ⟨fun e => ⟨e.1, e.2.2⟩, fun e => ⟨e.1, on_lt (h.inMask i k e.1), e.2⟩⟩) (fun k hk => h.inMask i k hk.1)
  | flipAll i => exact sim_put h i _ _ (fun k => by rw [on_and, on_not, h.bits]; exact ⟨fun e => ⟨e.2, e.1.2⟩, fun e => ⟨⟨on_lt e.1, e.2⟩, e.1⟩⟩) (fun k hk => hk.1)
  | flip i p =>
    refine sim_put h i _ _ (fun k => ?_) (fun k hk => ?_)
    · rw [on_xor]; simp only [on_and, h.bits]
    · split at hk
      · next e => exact e.2
      · exact h.inMask i k hk
  | value i p => exact sim_put h i _ _ (fun k => on_and _ _ k) (fun k hk => hk.2)
  | and i p => exact sim_put h i _ _ (fun k => by rw [on_and, h.bits]) (fun k hk => h.inMask i k hk.1)
  | swap i j => exact sim_put (sim_put h i _ _ (h.bits j) (h.inMask j)) j _ _ (h.bits i) (h.inMask i)

theorem after_sim (mask : BitVec w) (ops : List (Op w)) : Sim mask (wantAfter mask ops) (after mask ops) := by
  have key : ∀ ops : List (Op w), ∀ s x, Sim mask s x → Sim mask (ops.foldl (want mask) s) (ops.foldl (step mask) x) := by
    intro ops
    induction ops with
    | nil => intro s x h; exact h
    | cons o os ih => intro s x h; exact ih _ _ (step_sim h o)
  exact key ops _ _ ⟨fun _ k => ⟨fun e => absurd e (on_zero k), False.elim⟩, fun _ _ => False.elim⟩

/-! ### Theorems -/

/-- C98: for every width, mask and history over any number of flags, each flag is exactly the set of positions the history leaves in it, and never holds a position outside the mask. -/
theorem C98_refines (mask : BitVec w) (ops : List (Op w)) (i k : Nat) : ((after mask ops i).getLsbD k = true ↔ wantAfter mask ops i k) ∧ (wantAfter mask ops i k → mask.getLsbD k = true) :=
  ⟨(after_sim mask ops).bits i k, (after_sim mask ops).inMask i k⟩

/-- C98: what the questions answer after every history: about the set of positions, the pattern and the mask. -/
theorem C98_queries (mask : BitVec w) (ops : List (Op w)) (i j : Nat) (p : BitVec w) :
    (test (after mask ops i) p = true ↔ ∃ k, wantAfter mask ops i k ∧ On p k) ∧
    (all mask (after mask ops i) = true ↔ ∀ k, On mask k → wantAfter mask ops i k) ∧
    (allOf mask (after mask ops i) p = true ↔ ∀ k, On p k → On mask k → wantAfter mask ops i k) ∧
    (any mask (after mask ops i) = true ↔ ∃ k, wantAfter mask ops i k) ∧
    (anyOf mask (after mask ops i) p = true ↔ ∃ k, wantAfter mask ops i k ∧ On p k) ∧
    (none mask (after mask ops i) = true ↔ ∀ k, ¬ wantAfter mask ops i k) ∧
    (noneOf mask (after mask ops i) p = true ↔ ∀ k, On p k → ¬ wantAfter mask ops i k) ∧
    (equal (after mask ops i) (after mask ops j) = true ↔ ∀ k, wantAfter mask ops i k ↔ wantAfter mask ops j k) := by
  obtain ⟨hb, hm⟩ := after_sim mask ops
  generalize after mask ops = x at *
  generalize wantAfter mask ops = s at *
  have hany : (x i &&& (p &&& mask) ≠ 0#w) ↔ ∃ k, s i k ∧ On p k := by
    rw [on_ne_zero]
    constructor
    · rintro ⟨k, hk⟩; rw [on_and, on_and, hb] at hk; exact ⟨k, hk.1, hk.2.1⟩
    · rintro ⟨k, h1, h2⟩; exact ⟨k, by rw [on_and, on_and, hb]; exact ⟨h1, h2, hm i k h1⟩⟩
  have hmask : (x i &&& mask ≠ 0#w) ↔ ∃ k, s i k := by
    rw [on_ne_zero]
    constructor
    · rintro ⟨k, hk⟩; rw [on_and, hb] at hk; exact ⟨k, hk.1⟩
    · rintro ⟨k, h1⟩; exact ⟨k, by rw [on_and, hb]; exact ⟨h1, hm i k h1⟩⟩
  refine ⟨?_, ?_, ?_, ?_, ?_, ?_, ?_, ?_⟩
  · unfold test; rw [decide_eq_true_eq, on_ne_zero]
    exact exists_congr fun k => by rw [on_and, hb]
  · unfold all; rw [decide_eq_true_eq]
    constructor
    · intro e k hk; rw [← hb, e]; exact hk
    · intro h; exact on_ext fun k => ⟨fun hk => hm i k ((hb i k).mp hk), fun hk => (hb i k).mpr (h k hk)⟩
  · unfold allOf; rw [decide_eq_true_eq]
    constructor
    · intro e k h1 h2
      have : On (p &&& mask) k := (on_and _ _ _).mpr ⟨h1, h2⟩
      rw [← e, on_and, hb] at this
      exact this.1
    · intro h; exact on_ext fun k => by
        rw [on_and]
        exact ⟨And.right, fun hk => ⟨(hb i k).mpr (h k ((on_and _ _ _).mp hk).1 ((on_and _ _ _).mp hk).2), hk⟩⟩
  · unfold any; rw [decide_eq_true_eq]; exact hmask
  · unfold anyOf; rw [decide_eq_true_eq]; exact hany
  · unfold none; rw [decide_eq_true_eq, ← not_iff_not]
    rw [show (¬ x i &&& mask = 0#w) ↔ ∃ k, s i k from hmask]; simp
  · unfold noneOf anyOf; rw [Bool.not_eq_true', decide_eq_false_iff_not, hany]
    constructor
    · intro h k h1 h2; exact h ⟨k, h2, h1⟩
    · rintro h ⟨k, h1, h2⟩; exact h k h2 h1
  · unfold equal; rw [decide_eq_true_eq]
    constructor
    · intro e k; rw [← hb, ← hb, e]
    · intro h; exact on_ext fun k => by rw [hb, hb]; exact h k

/-! ### Concrete cases -/

/-- mask 0x7C; set 0xFF, reset 0x0F, flip 0x18, swap with an empty one -/
example : after (w := 8) 0x7C#8 [.set 0 0xFF#8, .reset 0 0x0F#8, .flip 0 0x18#8, .flipAll 1, .swap 0 1] 1 = 0x68#8 ∧ after (w := 8) 0x7C#8 [.flipAll 1, .swap 0 1] 0 = 0x7C#8 := by decide +kernel
example : all 0x7C#8 (after (w := 8) 0x7C#8 [.flipAll 0] 0) = true ∧ anyOf 0x7C#8 (after (w := 8) 0x7C#8 [.flipAll 0] 0) 0x03#8 = false := by decide +kernel

end Etl.Flags
