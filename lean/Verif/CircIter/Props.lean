import Verif.CircIter.Model

/-!
# Properties of circular_iterator.h (C81)
-/
namespace Etl.CircIter

/-! ## Specification -/

inductive Op where
  | inc | dec
  | add (n : Int)
  | sub (n : Int)

def step (W : Nat) (c : C) : Op → Res C
  | .inc => preInc c
  | .dec => preDec c
  | .add n => addAssign c n
  | .sub n => subAssign W c n

def run (W : Nat) : C → List Op → Res C
  | c, [] => .ok c
  | c, o :: os => do run W (← step W c o) os

/-- How far an operation moves, and a history of them. -/
def Op.by : Op → Int
  | .inc => 1
  | .dec => -1
  | .add n => n
  | .sub n => -n
def total (os : List Op) : Int := (os.map Op.by).sum

/-- The offsets are numbers of `difference_type`, the least one excepted. -/
def Fits (W : Nat) : Op → Prop
  | .add n => -(2 ^ (W - 1)) ≤ n ∧ n < 2 ^ (W - 1)
  | .sub n => -(2 ^ (W - 1)) < n ∧ n < 2 ^ (W - 1)
  | _ => True

/-- The position the iterator must have: counted from the beginning, modulo the length of the range. -/
def at_ (b len i : Int) : C := ⟨b, b + len, b + i % len⟩

/-! ## Lemmas -/

theorem emod_of {len i r : Int} (h0 : 0 ≤ r) (h1 : r < len) (q : Int) (h : i = r + len * q) : i % len = r := by
  rw [h, Int.add_mul_emod_self_left]; exact Int.emod_eq_of_lt h0 h1

theorem step_spec (W : Nat) (b len i : Int) (hl : 0 < len) (o : Op) (hf : Fits W o) : step W (at_ b len i) o = .ok (at_ b len (i + o.by)) := by
  have h0 := Int.emod_nonneg i (show len ≠ 0 by omega)
  have h1 := Int.emod_lt_of_pos i hl
  have hq := Int.emod_add_mul_ediv i len
  generalize hr : i % len = r at *
  generalize i / len = q at *
  have key : ∀ n, addAssign (at_ b len i) n = .ok (at_ b len (i + n)) := by
    intro n
    unfold addAssign at_
    simp only [hr]
    have e1 : b + len - b = len := by omega
    have e2 : b + r - b = r := by omega
    have e3 : b + len - (b + r) = len - r := by omega
    rw [e1, e2, e3, if_neg (by omega)]
    have hn := Int.tmod_add_mul_tdiv n len
    have hb1 := Int.tmod_lt_of_pos n hl
    have hb2 : -len < n.tmod len := by
      have := Int.lt_tmod_of_pos n hl
      omega
    generalize hm : n.tmod len = m at *
    generalize hd : n.tdiv len = d at *
    by_cases hm0 : m = 0
    · rw [if_neg (by simpa using hm0)]
      rw [emod_of h0 h1 (q + d) (by rw [Int.mul_add]; omega)]
    · rw [if_pos hm0]
      by_cases hp : m > 0
      · rw [if_pos hp]
        by_cases h2 : len - r > m
        · rw [if_pos h2, if_pos (by omega), emod_of (r := r + m) (by omega) (by omega) (q + d) (by rw [Int.mul_add]; omega)]
        · rw [if_neg h2, if_pos (by omega), emod_of (r := m - (len - r)) (by omega) (by omega) (q + d + 1) (by rw [Int.mul_add, Int.mul_add]; omega)]
      · rw [if_neg hp]
        by_cases h2 : r ≥ -m
        · rw [if_pos h2, if_pos (by omega), emod_of (r := r - -m) (by omega) (by omega) (q + d) (by rw [Int.mul_add]; omega)]
        · rw [if_neg h2, if_pos (by omega), emod_of (r := len - (-m - r)) (by omega) (by omega) (q + d - 1) (by rw [Int.mul_sub, Int.mul_add]; omega)]
  cases o with
  | inc =>
    show preInc _ = .ok (at_ b len (i + 1))
    unfold preInc inc at_
    simp only [hr, bind, Except.bind]
    rw [if_pos (by omega)]
    simp only []
    by_cases h : b + r + 1 = b + len
    · rw [if_pos h, emod_of (r := 0) (by omega) hl (q + 1) (by rw [Int.mul_add]; omega), Int.add_zero]
    · rw [if_neg h, emod_of (r := r + 1) (by omega) (by omega) q (by omega), Int.add_assoc]
  | dec =>
    show preDec _ = .ok (at_ b len (i + -1))
    unfold preDec dec at_
    simp only [hr, bind, Except.bind]
    by_cases h : b + r = b
    · rw [if_pos h, if_pos (by omega)]
      simp only []
      rw [emod_of (r := len - 1) (by omega) (by omega) (q - 1) (by rw [Int.mul_sub]; omega), Int.add_sub_assoc]
    · rw [if_neg h, if_pos (by omega)]
      simp only []
      rw [emod_of (r := r - 1) (by omega) (by omega) q (by omega), Int.add_sub_assoc]
  | add n => exact key n
  | sub n =>
    show subAssign W _ n = .ok (at_ b len (i + -n))
    unfold subAssign
    rw [if_neg (by have := hf.1; omega)]
    exact key (-n)

/-! ## Properties -/

/-- C81: for every range that is not empty, every start in it and every history of `++`, `--`, `+=` and `-=` (of any numbers of `difference_type`, for `-=` not the least one) the iterator never leaves the range and
stands where all the steps together lead it, modulo the length of the range. -/
theorem C81_position (W : Nat) (b len i : Int) (hl : 0 < len) (os : List Op) (hf : ∀ o ∈ os, Fits W o) : run W (at_ b len i) os = .ok (at_ b len (i + total os)) := by
  induction os generalizing i with
  | nil => show Except.ok _ = _; rw [show i + total [] = i by simp [total]]
  | cons o os ih =>
    unfold run
    simp only [bind, Except.bind, step_spec W b len i hl o (hf o (List.mem_cons_self ..))]
    rw [ih _ (fun o ho => hf o (List.mem_cons_of_mem _ ho))]
    rw [show i + o.by + total os = i + total (o :: os) by simp [total, Int.add_assoc]]

/-- C81: so it always has an element to give: the one at that index. -/
theorem C81_deref {α : Type} (W : Nat) (b : Int) (l : List α) (hl : l ≠ []) (i : Int) (os : List Op) (hf : ∀ o ∈ os, Fits W o) :
    ∃ c v, run W (at_ b l.length i) os = .ok c ∧ deref l c = .ok v ∧ l[((i + total os) % l.length).toNat]? = some v := by
  have hp : 0 < (l.length : Int) := by have := List.length_pos_iff.mpr hl; omega
  have h0 := Int.emod_nonneg (i + total os) (show (l.length : Int) ≠ 0 by omega)
  have h1 := Int.emod_lt_of_pos (i + total os) hp
  have hi : ((i + total os) % l.length).toNat < l.length := by omega
  refine ⟨_, _, C81_position W b l.length i hp os hf, ?_, List.getElem?_eq_getElem hi⟩
  unfold deref at_
  simp only [show b + (i + total os) % (l.length : Int) - b = (i + total os) % l.length by omega, List.getElem?_eq_getElem hi]
  rw [if_pos (by omega)]

/-- C81: going round once comes back to the same place; `--` undoes `++`, `-=` undoes `+=`. -/
theorem C81_inverse (W : Nat) (b len i : Int) (hl : 0 < len) (n : Int) (hn : -(2 ^ (W - 1)) < n ∧ n < 2 ^ (W - 1)) :
    run W (at_ b len i) [.inc, .dec] = .ok (at_ b len i) ∧ run W (at_ b len i) [.dec, .inc] = .ok (at_ b len i) ∧ run W (at_ b len i) [.add n, .sub n] = .ok (at_ b len i) ∧
    (run W (at_ b len i) (List.replicate len.toNat .inc) = .ok (at_ b len i)) := by
  have h : ∀ os, (∀ o ∈ os, Fits W o) → total os % len = 0 → run W (at_ b len i) os = .ok (at_ b len i) := by
    intro os hf ht
    rw [C81_position W b len i hl os hf]
    unfold at_
    rw [Int.add_emod, ht, Int.add_zero, Int.emod_emod_of_dvd _ (Int.dvd_refl _)]
  refine ⟨h _ (by simp [Fits]) (by simp [total, Op.by]), h _ (by simp [Fits]) (by simp [total, Op.by]), h _ ?_ (by simp [total, Op.by]), h _ ?_ ?_⟩
  · intro o ho
    simp only [List.mem_cons, List.not_mem_nil, or_false] at ho
    rcases ho with rfl | rfl
    · exact ⟨by omega, hn.2⟩
    · exact hn
  · intro o ho; rw [List.eq_of_mem_replicate ho]; trivial
  · have hr : ∀ n : Nat, total (List.replicate n .inc) = n := by
      intro n
      induction n with
      | zero => rfl
      | succ n ih =>
        show Op.inc.by + total (List.replicate n .inc) = _
        rw [ih]; show (1 : Int) + n = _; omega
    rw [hr, show ((len.toNat : Nat) : Int) = len by omega, Int.emod_self]

/-! ## Examples -/

example : run 64 (at_ 100 5 3) [.add 13, .dec, .sub 7, .inc, .inc] = .ok ⟨100, 105, 100⟩ := by rfl
example : at_ 100 5 3 = ⟨100, 105, 103⟩ := by rfl

/-! ## Finding -/

/-- `-=` of the least number of `difference_type` negates it: signed overflow.  (`+=` of it is fine.)  An iterator made with a start at the end, or on an empty range, leaves the range with `++`. -/
theorem C81_finding_least : subAssign 64 (at_ 100 5 3) (-(2 ^ 63)) = .error .overflow ∧ addAssign (at_ 100 5 3) (-(2 ^ 63)) = .ok (at_ 100 5 (3 - 2 ^ 63)) ∧
    preInc ⟨100, 105, 105⟩ = .error .outOfBounds ∧ preInc ⟨100, 100, 100⟩ = .error .outOfBounds := by exact ⟨rfl, rfl, rfl, rfl⟩

end Etl.CircIter
