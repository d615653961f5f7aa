import Verif.Bloom.Model
import Verif.Bitset.Props

/-!
# C45: a Bloom filter has no false negatives

The specification keeps the list of the keys added since the last `clear`.
-/
namespace Etl.Bloom
open Bitset

inductive Op (K : Type) where
  | add (k : K)
  | clear

def exec {K : Type} (c : Cfg K) (b : Buf) : Op K → Res Buf
  | .add k => add c b k
  | .clear => .ok (clear c b)
def run {K : Type} (c : Cfg K) (b : Buf) : List (Op K) → Res Buf
  | [] => .ok b
  | o :: os => match exec c b o with
    | .error u => .error u
    | .ok b => run c b os

/-- The keys added since the last `clear`. -/
def keys {K : Type} (l : List K) : List (Op K) → List K
  | [] => l
  | .add k :: os => keys (l ++ [k]) os
  | .clear :: os => keys [] os

/-- Bit `i` of the folded hash is the exclusive or of the bits `i`, `i + n`, `i + 2n`, … -/
def fold (n v : Nat) : Nat := Nat.ofBits (n := n) (fun i => Binary.foldBit n v i 64)

/-- The positions of a key in a filter of `w` flags. -/
def positions {K : Type} (c : Cfg K) (k : K) : List Nat := (c.h1 k :: (c.h2.map (· k)).toList ++ (c.h3.map (· k)).toList).map (fold c.width.log2)

/-- The hash functions give 64 bit numbers. -/
structure Fits {K : Type} (c : Cfg K) : Prop where
  pos : 0 < c.desired
  small : c.width < 2 ^ 64
  h1 : ∀ k, c.h1 k < 2 ^ 64
  h2 : ∀ h, c.h2 = some h → ∀ k, h k < 2 ^ 64
  h3 : ∀ h, c.h3 = some h → ∀ k, h k < 2 ^ 64

theorem width_ok {K : Type} {c : Cfg K} (hf : Fits c) : 8 ≤ c.width ∧ c.width % 8 = 0 := by
  have h := ne_pos (c := c.base) hf.pos
  unfold Cfg.width
  have e : c.base.w = 8 := rfl
  rw [e]; omega

theorem flags_ok {K : Type} {c : Cfg K} (hf : Fits c) : Ok c.flags := ⟨by have := width_ok hf; exact (show 0 < c.width by omega), Nat.le_refl 3, show 3 ≤ 6 by omega⟩

theorem log_ok {K : Type} {c : Cfg K} (hf : Fits c) : 3 ≤ c.width.log2 ∧ c.width.log2 < 64 ∧ 2 ^ c.width.log2 ≤ c.width := by
  have h := width_ok hf
  refine ⟨(Nat.le_log2 (by omega)).mpr (by omega), (Nat.log2_lt (by omega)).mpr hf.small, Nat.log2_self_le (by omega)⟩

theorem getHash_ok {K : Type} {c : Cfg K} (hf : Fits c) {h : K → Nat} (hh : ∀ k, h k < 2 ^ 64) (k : K) : getHash c h k = .ok (fold c.width.log2 (h k)) ∧ fold c.width.log2 (h k) < c.width := by
  obtain ⟨l1, l2, l3⟩ := log_ok hf
  obtain ⟨r, e, hr, hb⟩ := Binary.C27_fold_bits (w := 64) (n := c.width.log2) (v := h k) (by omega) l2 (hh k)
  have : r = fold c.width.log2 (h k) := by
    refine Binary.eq_of_bits hr (Nat.ofBits_lt_two_pow _) fun i hi => ?_
    rw [hb i hi]; unfold fold; rw [Nat.testBit_ofBits_lt _ _ hi]
  rw [← this]
  exact ⟨e, by omega⟩

/-- The flags are those of the keys. -/
def Inv {K : Type} (c : Cfg K) (b : Buf) (l : List K) : Prop := WF c.flags b ∧ ∀ i, i < c.width → (bits c.flags b i = true ↔ ∃ k ∈ l, i ∈ positions c k)

theorem alloc {K : Type} {c : Cfg K} (hf : Fits c) : c.flags.ne * c.flags.w = c.width := full_ne (c := c.flags) (flags_ok hf).pos (by have := width_ok hf; exact (show c.width % 8 = 0 by omega))

theorem setFlag_ok {K : Type} {c : Cfg K} (hf : Fits c) {b : Buf} (hw : WF c.flags b) {h : K → Nat} (hh : ∀ k, h k < 2 ^ 64) (k : K) :
    ∃ b', setFlag c b h k = .ok b' ∧ WF c.flags b' ∧ ∀ i, i < c.width → (bits c.flags b' i = true ↔ bits c.flags b i = true ∨ i = fold c.width.log2 (h k)) := by
  obtain ⟨e, hl⟩ := getHash_ok hf hh k
  obtain ⟨b', e2, ef⟩ := set_eff (c := c.flags) (v := true) hw (show fold c.width.log2 (h k) < c.flags.N from hl)
  refine ⟨b', by unfold setFlag; rw [e]; dsimp only; rw [e2]; rfl, ef.1, fun i hi => ?_⟩
  rw [ef.2 i (by rw [alloc hf]; exact hi)]
  by_cases h : i = fold c.width.log2 (h k)
  · simp [h]
  · simp [h]

theorem setOpt_ok {K : Type} {c : Cfg K} (hf : Fits c) {b : Buf} (hw : WF c.flags b) {h : Option (K → Nat)} (hh : ∀ g, h = some g → ∀ k, g k < 2 ^ 64) (k : K) :
    ∃ b', setOpt c b h k = .ok b' ∧ WF c.flags b' ∧ ∀ i, i < c.width → (bits c.flags b' i = true ↔ bits c.flags b i = true ∨ i ∈ ((h.map (· k)).toList).map (fold c.width.log2)) := by
  cases h with
  | none => exact ⟨b, rfl, hw, fun i _ => by simp⟩
  | some g =>
    obtain ⟨b', e, h1, h2⟩ := setFlag_ok hf hw (hh g rfl) k
    exact ⟨b', e, h1, fun i hi => by rw [h2 i hi]; simp⟩

theorem add_inv {K : Type} {c : Cfg K} (hf : Fits c) {b : Buf} {l : List K} (h : Inv c b l) (k : K) : ∃ b', add c b k = .ok b' ∧ Inv c b' (l ++ [k]) := by
  obtain ⟨b1, e1, w1, h1⟩ := setFlag_ok hf h.1 hf.h1 k
  obtain ⟨b2, e2, w2, h2⟩ := setOpt_ok hf w1 hf.h2 k
  obtain ⟨b3, e3, w3, h3⟩ := setOpt_ok hf w2 hf.h3 k
  refine ⟨b3, by unfold add; simp only [e1, e2, e3, bind, Except.bind], w3, fun i hi => ?_⟩
  rw [h3 i hi, h2 i hi, h1 i hi, h.2 i hi]
  constructor
  · rintro (((⟨k', g1, g2⟩ | g) | g) | g)
    · exact ⟨k', by simp [g1], g2⟩
    all_goals exact ⟨k, by simp, by unfold positions; simp only [List.map_append, List.map_cons, List.mem_append, List.mem_cons]; tauto⟩
  · rintro ⟨k', g1, g2⟩
    rcases List.mem_append.mp g1 with g1 | g1
    · exact .inl (.inl (.inl ⟨k', g1, g2⟩))
    · have : k' = k := by simpa using g1
      subst this
      unfold positions at g2
      simp only [List.map_append, List.map_cons, List.mem_append, List.mem_cons] at g2
      tauto

theorem clear_inv {K : Type} {c : Cfg K} (hf : Fits c) (b : Buf) : Inv c (clear c b) [] := by
  have := resetAll_eff c.flags b
  exact ⟨this.1, fun i hi => by unfold clear; rw [this.2 i (by rw [alloc hf]; exact hi)]; simp⟩

theorem run_inv {K : Type} {c : Cfg K} (hf : Fits c) (os : List (Op K)) : ∀ {b : Buf} {l : List K}, Inv c b l → ∃ b', run c b os = .ok b' ∧ Inv c b' (keys l os) := by
  induction os with
  | nil => intro b l h; exact ⟨b, rfl, h⟩
  | cons o os ih =>
    intro b l h
    cases o with
    | add k =>
      obtain ⟨b1, e1, h1⟩ := add_inv hf h k
      obtain ⟨b2, e2, h2⟩ := ih h1
      exact ⟨b2, by simp only [run, exec, e1, e2], h2⟩
    | clear =>
      obtain ⟨b2, e2, h2⟩ := ih (clear_inv hf b)
      exact ⟨b2, by simp only [run, exec, e2], h2⟩

theorem flag_ok {K : Type} {c : Cfg K} (hf : Fits c) {b : Buf} {h : K → Nat} (hh : ∀ k, h k < 2 ^ 64) (k : K) : flag c b h k = .ok (bits c.flags b (fold c.width.log2 (h k))) := by
  obtain ⟨e, hl⟩ := getHash_ok hf hh k
  unfold flag; rw [e]; exact test1 (c := c.flags) hl

theorem flagOpt_ok {K : Type} {c : Cfg K} (hf : Fits c) {b : Buf} {h : Option (K → Nat)} (hh : ∀ g, h = some g → ∀ k, g k < 2 ^ 64) (k : K) :
    flagOpt c b h k = .ok (((h.map (· k)).toList.map (fold c.width.log2)).all (bits c.flags b)) := by
  cases h with
  | none => rfl
  | some g => simp only [flagOpt, flag_ok hf (hh g rfl)]; simp

/-- `exists` in terms of the keys: all positions of `k` are positions of added keys. -/
theorem present_iff {K : Type} {c : Cfg K} (hf : Fits c) {b : Buf} {l : List K} (h : Inv c b l) (k : K) :
    ∃ r, present c b k = .ok r ∧ (r = true ↔ ∀ p ∈ positions c k, ∃ k' ∈ l, p ∈ positions c k') := by
  refine ⟨_, by unfold present; rw [flag_ok hf hf.h1, flagOpt_ok hf hf.h2, flagOpt_ok hf hf.h3]; rfl, ?_⟩
  have e : (bits c.flags b (fold c.width.log2 (c.h1 k)) && ((c.h2.map (· k)).toList.map (fold c.width.log2)).all (bits c.flags b) && ((c.h3.map (· k)).toList.map (fold c.width.log2)).all (bits c.flags b)) = (positions c k).all (bits c.flags b) := by
    unfold positions; simp [Bool.and_assoc]
  rw [e, List.all_eq_true]
  have lt : ∀ p ∈ positions c k, p < c.width := by
    intro p hp
    unfold positions at hp
    simp only [List.map_append, List.map_cons, List.mem_append, List.mem_cons, List.mem_map, Option.mem_toList, Option.map_eq_some_iff] at hp
    rcases hp with (rfl | ⟨v, ⟨g, e1, rfl⟩, rfl⟩) | ⟨v, ⟨g, e1, rfl⟩, rfl⟩
    · exact (getHash_ok hf hf.h1 k).2
    · exact (getHash_ok hf (hf.h2 g e1) k).2
    · exact (getHash_ok hf (hf.h3 g e1) k).2
  exact ⟨fun g p hp => (h.2 p (lt p hp)).mp (g p hp), fun g p hp => (h.2 p (lt p hp)).mpr (g p hp)⟩

/-- C45: whatever the hash functions are, after any sequence of `add` and `clear` on a filter of any width every key added since the last `clear` exists (and after a `clear` with nothing added since, no key exists). -/
theorem C45_no_false_negatives {K : Type} {c : Cfg K} (hf : Fits c) (mem : Buf) (os : List (Op K)) :
    ∃ b, run c (clear c mem) os = .ok b ∧ (∀ k ∈ keys [] os, present c b k = .ok true) ∧ (keys [] os = [] → ∀ k, present c b k = .ok false) := by
  obtain ⟨b, e, h⟩ := run_inv hf os (clear_inv hf mem)
  refine ⟨b, e, fun k hk => ?_, fun hk k => ?_⟩
  · obtain ⟨r, e2, h2⟩ := present_iff hf h k
    rw [e2, h2.mpr fun p hp => ⟨k, hk, hp⟩]
  · obtain ⟨r, e2, h2⟩ := present_iff hf h k
    rw [e2]
    cases r with
    | false => rfl
    | true =>
      rw [hk] at h2
      obtain ⟨k', g, _⟩ := h2.mp rfl (fold c.width.log2 (c.h1 k)) (by unfold positions; simp)
      simp at g

/-- Exactly: a key exists if and only if each of its positions is one of an added key; `count` is the number of such positions and `usage` its percentage. -/
theorem C45_exact {K : Type} {c : Cfg K} (hf : Fits c) (mem : Buf) (os : List (Op K)) [DecidableEq K] :
    ∃ b, run c (clear c mem) os = .ok b ∧ (∀ k, ∃ r, present c b k = .ok r ∧ (r = true ↔ ∀ p ∈ positions c k, ∃ k' ∈ keys [] os, p ∈ positions c k')) ∧
      count c b = (List.range c.width).countP (fun i => (keys [] os).any fun k => decide (i ∈ positions c k)) ∧ usage c b = 100 * count c b / c.width ∧ usage c b ≤ 100 := by
  obtain ⟨b, e, h⟩ := run_inv hf os (clear_inv hf mem)
  have hc : count c b = (List.range c.width).countP (fun i => (keys [] os).any fun k => decide (i ∈ positions c k)) := by
    unfold count; rw [count_eff (flags_ok hf) h.1, alloc hf]
    apply List.countP_congr
    intro i hi
    rw [h.2 i (List.mem_range.mp hi)]; simp [List.any_eq_true]
  refine ⟨b, e, fun k => present_iff hf h k, hc, rfl, ?_⟩
  have : count c b ≤ c.width := by rw [hc]; exact Nat.le_trans List.countP_le_length (by simp)
  unfold usage
  exact Nat.div_le_of_le_mul (by rw [Nat.mul_comm]; exact Nat.mul_le_mul_right 100 this)

/-! ## Example: width 20 is rounded up to 24, positions are below 16 -/
def demo : Cfg Nat := ⟨20, fun k => k % 2 ^ 64, some (fun k => 7 * k % 2 ^ 64), .none⟩
example : Fits demo := ⟨by decide, by decide, fun k => Nat.mod_lt _ (by decide), fun h e k => by injection e with e; subst e; exact Nat.mod_lt _ (by decide), fun h e => by cases e⟩
example : demo.width = 24 ∧ keys [] [.add 3, .clear, .add 1000, .add 77] = [1000, 77] := ⟨by decide +kernel, rfl⟩
example : ((run demo (clear demo fun _ => 0) [.add 3, .clear, .add 1000, .add 77]).toOption.map fun b => ((present demo b 77).toOption, (present demo b 3).toOption)) = some (some true, some false) := by decide +kernel

end Etl.Bloom
