import Verif.Algo.Search
import Verif.Maths.Props
import Mathlib.Data.Int.GCD
import Mathlib.Data.Nat.ModEq
import Mathlib.Tactic.Ring
import Mathlib.Data.List.Induction
/-!
# `move`, `move_backward`, `copy`, `copy_backward`, `reverse`, `rotate` (include/etl/algorithm.h)

Iterators are positions in one list `a`.  The `ETL_USING_STL && ETL_USING_CPP20` configuration, which forwards to `std::`, is not modelled.
-/
namespace Etl.Algo
open Etl.Rng

variable {α : Type}

/-! ## Model -/

/-- `copy(sb, se, db)` and `move(sb, se, db)` with source and destination in the same sequence, algorithm.h:189-200, 280-291; `n = se - sb`.
Returns the contents and the returned iterator. -/
def copyFwd : Nat → List α → Nat → Nat → Res (List α × Nat)
  | 0, a, _, db => .ok (a, db)
  | n + 1, a, sb, db => match rd a sb with
    | .error u => .error u
    | .ok x => match wr a db x with
      | .error u => .error u
      | .ok a => copyFwd n a (sb + 1) (db + 1)

/-- `copy_backward(sb, se, de)` and `move_backward(sb, se, de)`, algorithm.h:258-266, 318-327; `n = se - sb`. -/
def copyBwd : Nat → List α → Nat → Nat → Res (List α × Nat)
  | 0, a, _, de => .ok (a, de)
  | n + 1, a, se, de =>
    if se = 0 ∨ de = 0 then .error .outOfBounds
    else match rd a (se - 1) with
      | .error u => .error u
      | .ok x => match wr a (de - 1) x with
        | .error u => .error u
        | .ok a => copyBwd n a (se - 1) (de - 1)

/-- `reverse(b, e)` for pointers, algorithm.h:347-358: the `while (b < --e)` loop.  `fuel` bounds the iterations. -/
def revPtr : Nat → List α → Nat → Nat → Res (List α)
  | 0, _, _, _ => .error .diverge
  | fuel + 1, a, b, e =>
    if e = 0 then .error .outOfBounds
    else if b < e - 1 then
      match swp a b (e - 1) with
      | .error u => .error u
      | .ok a => revPtr fuel a (b + 1) (e - 1)
    else .ok a

/-- `reverse(b, e)` for other iterators, algorithm.h:363-369. -/
def revIter : Nat → List α → Nat → Nat → Res (List α)
  | 0, _, _, _ => .error .diverge
  | fuel + 1, a, b, e =>
    if b = e then .ok a
    else if e = 0 then .error .outOfBounds
    else if b = e - 1 then .ok a
    else match swp a b (e - 1) with
      | .error u => .error u
      | .ok a => revIter fuel a (b + 1) (e - 1)

/-- Which overload of `reverse` is selected. -/
inductive Kind where
  | pointer | random | bidirectional | forward
  deriving DecidableEq, Repr

/-- `reverse`, algorithm.h:344-369. -/
def reverse (k : Kind) (a : List α) (b e : Nat) : Res (List α) :=
  match k with
  | .pointer => if b = e then .ok a else revPtr (e - b + 1) a b e
  | _ => revIter (e - b + 1) a b e

/-- The inner `while (true)` loop of `rotate_general` for random access iterators, algorithm.h:1189-1205 (and 1236-1252); returns `j`. -/
def juggleInner (f n m i : Nat) : Nat → List α → Nat → Res (List α × Nat)
  | 0, _, _ => .error .diverge
  | fuel + 1, a, j =>
    let k := if j + m ≥ n then j + m - n else j + m
    if k = i then .ok (a, j)
    else match rd a (f + k) with
      | .error u => .error u
      | .ok x => match wr a (f + j) x with
        | .error u => .error u
        | .ok a => juggleInner f n m i fuel a k

/-- The outer `for` loop, algorithm.h:1184-1208: `r` cycles remain, starting with cycle `i`. -/
def juggleOuter (f n m : Nat) : Nat → Nat → List α → Res (List α)
  | 0, _, a => .ok a
  | r + 1, i, a => match rd a (f + i) with
    | .error u => .error u
    | .ok temp => match juggleInner f n m i (n + 1) a i with
      | .error u => .error u
      | .ok (a, j) => match wr a (f + j) temp with
        | .error u => .error u
        | .ok a => juggleOuter f n m r (i + 1) a

/-- The loop of `rotate_general` for forward iterators, algorithm.h:1301-1314. -/
def fwdLoop (last : Nat) : Nat → List α → Nat → Nat → Nat → Res (List α)
  | 0, _, _, _, _ => .error .diverge
  | fuel + 1, a, first, middle, next =>
    if first = next then .ok a
    else match swp a first next with
      | .error u => .error u
      | .ok a =>
        if next + 1 = last then fwdLoop last fuel a (first + 1) middle middle
        else if first + 1 = middle then fwdLoop last fuel a (first + 1) (next + 1) (next + 1)
        else fwdLoop last fuel a (first + 1) middle (next + 1)

/-- `rotate_general`: random access algorithm.h:1165-1212/1215-1260, bidirectional 1264-1283, forward 1287-1318.  The `int` arithmetic of the
random access version is modelled on the naturals: ranges of 2^31 or more elements are outside the model.  `etl::gcd` is the function of C46. -/
def rotateGeneral (k : Kind) (a : List α) (first middle last : Nat) : Res (List α × Nat) :=
  if first = middle ∨ middle = last then .ok (a, first)
  else
    let result := first + (last - middle)
    match k with
    | .forward => match fwdLoop last (last - first + 1) a first middle middle with
      | .error u => .error u
      | .ok a => .ok (a, result)
    | .bidirectional => match reverse k a first middle with
      | .error u => .error u
      | .ok a => match reverse k a middle last with
        | .error u => .error u
        | .ok a => match reverse k a first last with
          | .error u => .error u
          | .ok a => .ok (a, result)
    | _ =>
      let n := last - first
      let m := middle - first
      match juggleOuter first n m (Maths.gcdLoop n m) 0 a with
      | .error u => .error u
      | .ok a => .ok (a, result)

/-- `rotate_left_by_one`, algorithm.h:1324-1339. -/
def rotateLeft1 (a : List α) (first last : Nat) : Res (List α × Nat) :=
  match rd a first with
  | .error u => .error u
  | .ok temp => match copyFwd (last - (first + 1)) a (first + 1) first with
    | .error u => .error u
    | .ok (a, r) => match wr a r temp with
      | .error u => .error u
      | .ok a => .ok (a, r)

/-- `rotate_right_by_one`, algorithm.h:1345-1361. -/
def rotateRight1 (a : List α) (first last : Nat) : Res (List α × Nat) :=
  if last = 0 then .error .outOfBounds
  else match rd a (last - 1) with
    | .error u => .error u
    | .ok temp => match copyBwd (last - 1 - first) a (last - 1) last with
      | .error u => .error u
      | .ok (a, r) => match wr a first temp with
        | .error u => .error u
        | .ok a => .ok (a, r)

/-- `rotate(first, middle, last)`, algorithm.h:1366-1391.  `cpp20` selects the `ETL_USING_CPP20` branch (without the STL), where the
right-by-one shortcut is used for iterators that are not exactly forward iterators.  Only the comparison of `next(last)` is modelled, not
the formal undefinedness of computing it. -/
def rotate (k : Kind) (cpp20 : Bool) (a : List α) (first middle last : Nat) : Res (List α × Nat) :=
  if first + 1 = middle then rotateLeft1 a first last
  else if middle + 1 = last then
    if cpp20 && !(k == .forward) then rotateRight1 a first last else rotateGeneral k a first middle last
  else rotateGeneral k a first middle last

/-! ## Proofs: accesses at a known place -/

theorem rd_at (P : List α) (x : α) (S : List α) : rd (P ++ x :: S) P.length = .ok x := by rw [rd_ok]; simp
theorem wr_at (P : List α) (x y : α) (S : List α) : wr (P ++ x :: S) P.length y = .ok (P ++ y :: S) := by rw [wr_lt _ (by simp)]; simp
theorem rd_at' {P : List α} {x : α} {S : List α} {i : Nat} (h : i = P.length) : rd (P ++ x :: S) i = .ok x := by subst h; exact rd_at ..
theorem wr_at' {P : List α} {x y : α} {S : List α} {i : Nat} (h : i = P.length) : wr (P ++ x :: S) i y = .ok (P ++ y :: S) := by subst h; exact wr_at ..
theorem swp_at {P M S : List α} {x y : α} {i j : Nat} (hi : i = P.length) (hj : j = P.length + 1 + M.length) :
    swp (P ++ x :: (M ++ y :: S)) i j = .ok (P ++ y :: (M ++ x :: S)) := by
  subst hi hj
  have e2 : rd (P ++ x :: (M ++ y :: S)) (P.length + 1 + M.length) = .ok y := by
    have : P ++ x :: (M ++ y :: S) = (P ++ x :: M) ++ y :: S := by simp
    rw [this]; exact rd_at' (by simp; omega)
  unfold swp
  rw [rd_at, e2]
  simp only
  have h1 : (P ++ x :: (M ++ y :: S)).set P.length y = (P ++ y :: M) ++ y :: S := by simp
  rw [h1]
  have h2 : P.length + 1 + M.length = (P ++ y :: M).length := by simp; omega
  rw [h2]; simp

/-! ## copy and move, within one sequence -/

/-- moving a block left over an initial gap `G` (destination before source) -/
theorem copyFwd_left (B : List α) : ∀ (P G S : List α), ∃ G', G'.length = G.length ∧
    copyFwd B.length (P ++ G ++ B ++ S) (P.length + G.length) P.length = .ok (P ++ B ++ G' ++ S, P.length + B.length) := by
  induction B with
  | nil => intro P G S; exact ⟨G, rfl, by simp [copyFwd]⟩
  | cons b B ih =>
    intro P G S
    cases G with
    | nil =>
      obtain ⟨G', h1, h2⟩ := ih (P ++ [b]) [] S
      have : G' = [] := List.length_eq_zero_iff.1 (by simpa using h1)
      subst this
      refine ⟨[], rfl, ?_⟩
      simp only [List.append_nil, List.length_nil, Nat.add_zero, List.length_append, List.length_cons, List.append_assoc, List.cons_append, List.nil_append, Nat.zero_add] at h2 ⊢
      rw [copyFwd, rd_at]
      simp only [wr_at, h2]
      rw [show P.length + 1 + B.length = P.length + (B.length + 1) by omega]
    | cons g G =>
      obtain ⟨G', h1, h2⟩ := ih (P ++ [b]) (G ++ [b]) S
      refine ⟨G', by simpa using h1, ?_⟩
      simp only [List.length_cons]
      rw [copyFwd, show P ++ g :: G ++ b :: B ++ S = (P ++ g :: G) ++ b :: (B ++ S) by simp, rd_at' (by simp)]
      simp only
      rw [show (P ++ g :: G) ++ b :: (B ++ S) = P ++ g :: (G ++ b :: (B ++ S)) by simp, wr_at]
      simp only
      simp only [List.append_nil, List.length_nil, Nat.add_zero, List.length_append, List.length_cons, List.append_assoc, List.cons_append, List.nil_append, Nat.zero_add] at h2 ⊢
      rw [show P.length + (G.length + 1) + 1 = P.length + 1 + (G.length + 1) by omega, h2, show P.length + 1 + B.length = P.length + (B.length + 1) by omega]

/-- moving a block right over a gap after it -/
theorem copyBwd_right (B : List α) : ∀ (P G S : List α), ∃ G', G'.length = G.length ∧
    copyBwd B.length (P ++ B ++ G ++ S) (P.length + B.length) (P.length + B.length + G.length) = .ok (P ++ G' ++ B ++ S, P.length + G.length) := by
  induction B using List.reverseRecOn with
  | nil => intro P G S; exact ⟨G, rfl, by simp [copyBwd]⟩
  | append_singleton B b ih =>
    intro P G S
    rcases List.eq_nil_or_concat G with rfl | ⟨G0, g, rfl⟩
    · obtain ⟨G', h1, h2⟩ := ih P [] (b :: S)
      have : G' = [] := List.length_eq_zero_iff.1 (by simpa using h1)
      subst this
      refine ⟨[], rfl, ?_⟩
      have hl : (B ++ [b]).length = B.length + 1 := by simp
      rw [hl, copyBwd, if_neg (by simp)]
      rw [show P ++ (B ++ [b]) ++ [] ++ S = (P ++ B) ++ b :: S by simp, rd_at' (by simp)]
      simp only
      rw [wr_at' (by simp)]
      simp only [List.append_nil, List.length_nil, Nat.add_zero, List.length_append, List.length_cons, List.append_assoc, List.cons_append, List.nil_append, Nat.zero_add] at h2 ⊢
      rw [show P.length + (B.length + 1) - 1 = P.length + B.length by omega, h2]
    · obtain ⟨G', h1, h2⟩ := ih P (b :: G0) (b :: S)
      refine ⟨G', by simpa using h1, ?_⟩
      have hl : (B ++ [b]).length = B.length + 1 := by simp
      rw [hl, copyBwd, if_neg (by simp)]
      rw [show P ++ (B ++ [b]) ++ (G0.concat g) ++ S = (P ++ B) ++ b :: (G0 ++ g :: S) by simp, rd_at' (by simp)]
      simp only
      rw [show (P ++ B) ++ b :: (G0 ++ g :: S) = (P ++ B ++ b :: G0) ++ g :: S by simp, wr_at' (by simp; omega)]
      simp only [List.append_nil, List.length_nil, Nat.add_zero, List.length_append, List.length_cons, List.append_assoc, List.cons_append, List.nil_append, Nat.zero_add, List.concat_eq_append] at h2 ⊢
      rw [show P.length + (B.length + 1) - 1 = P.length + B.length by omega, show P.length + (B.length + 1) + (G0.length + 1) - 1 = P.length + B.length + (G0.length + 1) by omega, h2]

theorem rotateLeft1_spec (P B S : List α) (x : α) : rotateLeft1 (P ++ x :: B ++ S) P.length (P.length + 1 + B.length) = .ok (P ++ B ++ x :: S, P.length + B.length) := by
  obtain ⟨G', h1, h2⟩ := copyFwd_left B P [x] S
  obtain ⟨g, rfl⟩ : ∃ g, G' = [g] := List.length_eq_one_iff.1 (by simpa using h1)
  unfold rotateLeft1
  rw [show P ++ x :: B ++ S = P ++ x :: (B ++ S) by simp, rd_at]
  simp only
  rw [show P.length + 1 + B.length - (P.length + 1) = B.length by omega]
  simp only [List.length_append, List.length_cons, List.append_assoc, List.cons_append, List.nil_append, List.length_nil, Nat.zero_add] at h2
  rw [h2]
  simp only
  rw [show P ++ (B ++ g :: S) = (P ++ B) ++ g :: S by simp, wr_at' (by simp)]

theorem rotateRight1_spec (P B S : List α) (x : α) : rotateRight1 (P ++ B ++ x :: S) P.length (P.length + B.length + 1) = .ok (P ++ x :: B ++ S, P.length + 1) := by
  obtain ⟨G', h1, h2⟩ := copyBwd_right B P [x] S
  obtain ⟨g, rfl⟩ : ∃ g, G' = [g] := List.length_eq_one_iff.1 (by simpa using h1)
  unfold rotateRight1
  rw [if_neg (by simp), rd_at' (by simp)]
  simp only [Nat.add_sub_cancel]
  rw [show P.length + B.length - P.length = B.length by omega]
  simp only [List.length_append, List.length_cons, List.append_assoc, List.cons_append, List.nil_append, List.length_nil, Nat.zero_add] at h2 ⊢
  rw [h2]
  simp only
  rw [wr_at]

/-! ## reverse -/

theorem revIter_spec : ∀ (fuel : Nat) (M P S : List α), M.length < fuel → revIter fuel (P ++ M ++ S) P.length (P.length + M.length) = .ok (P ++ M.reverse ++ S) := by
  intro fuel
  induction fuel with
  | zero => intro M P S h; omega
  | succ fuel ih =>
    intro M P S h
    rw [revIter]
    cases M with
    | nil => simp
    | cons x M =>
      rw [if_neg (by simp), if_neg (by simp)]
      rcases List.eq_nil_or_concat M with rfl | ⟨M, y, rfl⟩
      · simp
      · rw [if_neg (by simp), show P ++ x :: M.concat y ++ S = P ++ x :: (M ++ y :: S) by simp, swp_at rfl (by simp; omega)]
        simp only
        have := ih M (P ++ [y]) (x :: S) (by simp at h; omega)
        simp only [List.length_append, List.length_cons, List.append_assoc, List.cons_append, List.nil_append, List.length_nil, Nat.zero_add, List.concat_eq_append, List.reverse_cons, List.reverse_append, List.reverse_nil] at this ⊢
        rw [show P.length + (M.length + 1 + 1) - 1 = P.length + 1 + M.length by omega, this]

theorem revPtr_spec : ∀ (fuel : Nat) (M P S : List α), M.length < fuel → 0 < P.length + M.length → revPtr fuel (P ++ M ++ S) P.length (P.length + M.length) = .ok (P ++ M.reverse ++ S) := by
  intro fuel
  induction fuel with
  | zero => intro M P S h; omega
  | succ fuel ih =>
    intro M P S h h0
    rw [revPtr, if_neg (by omega)]
    cases M with
    | nil => rw [if_neg (by simp)]; simp
    | cons x M =>
      rcases List.eq_nil_or_concat M with rfl | ⟨M, y, rfl⟩
      · rw [if_neg (by simp)]; simp
      · rw [if_pos (by simp), show P ++ x :: M.concat y ++ S = P ++ x :: (M ++ y :: S) by simp, swp_at rfl (by simp; omega)]
        simp only
        have := ih M (P ++ [y]) (x :: S) (by simp at h; omega) (by simp)
        simp only [List.length_append, List.length_cons, List.append_assoc, List.cons_append, List.nil_append, List.length_nil, Nat.zero_add, List.concat_eq_append, List.reverse_cons, List.reverse_append, List.reverse_nil] at this ⊢
        rw [show P.length + (M.length + 1 + 1) - 1 = P.length + 1 + M.length by omega, this]

/-- `reverse` reverses exactly the given range, for every iterator kind. -/
theorem reverse_spec (k : Kind) (P M S : List α) : reverse k (P ++ M ++ S) P.length (P.length + M.length) = .ok (P ++ M.reverse ++ S) := by
  have h : P.length + M.length - P.length + 1 = M.length + 1 := by omega
  unfold reverse
  cases k <;> simp only [h] <;> try exact revIter_spec _ M P S (by omega)
  split
  · have : M = [] := List.length_eq_zero_iff.1 (by omega)
    subst this; simp
  · exact revPtr_spec _ M P S (by omega) (by omega)

/-! ## rotate_general, forward iterators -/

theorem fwdLoop_spec : ∀ (fuel : Nat) (P A B C S : List α), A.length + B.length + C.length < fuel → (A = [] → B = []) → ((A ≠ [] ∨ B ≠ []) → C ≠ []) →
    fwdLoop (P.length + A.length + B.length + C.length) fuel (P ++ A ++ B ++ C ++ S) P.length (P.length + A.length) (P.length + A.length + B.length) = .ok (P ++ C ++ B ++ A ++ S) := by
  intro fuel
  induction fuel with
  | zero => intro P A B C S h; omega
  | succ fuel ih =>
    intro P A B C S h hAB hC
    rw [fwdLoop]
    cases A with
    | nil => rw [hAB rfl]; simp
    | cons x A =>
      rw [if_neg (by simp; omega)]
      obtain ⟨c, C, rfl⟩ := List.exists_cons_of_ne_nil (hC (Or.inl (by simp)))
      rw [show P ++ x :: A ++ B ++ c :: C ++ S = P ++ x :: (A ++ B ++ c :: (C ++ S)) by simp, swp_at (M := A ++ B) rfl (by simp; omega)]
      simp only
      by_cases hc : C = []
      · subst hc
        rw [if_pos (by simp)]
        by_cases ha : A = []
        · subst ha
          have := ih (P ++ [c]) [] [] (B ++ [x]) S (by simp at h ⊢; omega) (by simp) (by simp)
          simp only [List.length_append, List.length_cons, List.append_assoc, List.cons_append, List.nil_append, List.append_nil, List.length_nil, Nat.zero_add, Nat.add_zero] at this ⊢
          rw [show P.length + 1 + (B.length + 1) = P.length + 1 + B.length + 1 by omega] at this
          rw [this]
        · have := ih (P ++ [c]) A [] (B ++ [x]) S (by simp at h ⊢; omega) (by simp) (by simp)
          simp only [List.length_append, List.length_cons, List.append_assoc, List.cons_append, List.nil_append, List.append_nil, List.length_nil, Nat.zero_add, Nat.add_zero] at this ⊢
          rw [show P.length + 1 + A.length + (B.length + 1) = P.length + (A.length + 1) + B.length + 1 by omega, show P.length + 1 + A.length = P.length + (A.length + 1) by omega] at this
          rw [this]
      · rw [if_neg (by have : 0 < C.length := List.length_pos_iff.2 hc
                       simp; omega)]
        by_cases ha : A = []
        · subst ha
          rw [if_pos (by simp)]
          have := ih (P ++ [c]) (B ++ [x]) [] C S (by simp at h ⊢; omega) (by simp) (by simp [hc])
          simp only [List.length_append, List.length_cons, List.append_assoc, List.cons_append, List.nil_append, List.append_nil, List.length_nil, Nat.zero_add, Nat.add_zero] at this ⊢
          rw [show P.length + 1 + (B.length + 1) = P.length + 1 + B.length + 1 by omega] at this
          rw [show P.length + 1 + B.length + (C.length + 1) = P.length + 1 + B.length + 1 + C.length by omega, this]
        · rw [if_neg (by have : 0 < A.length := List.length_pos_iff.2 ha
                         simp; omega)]
          have := ih (P ++ [c]) A (B ++ [x]) C S (by simp at h ⊢; omega) (by simp [ha]) (by simp [hc])
          simp only [List.length_append, List.length_cons, List.append_assoc, List.cons_append, List.nil_append, List.append_nil, List.length_nil, Nat.zero_add, Nat.add_zero] at this ⊢
          rw [show P.length + 1 + A.length + (B.length + 1) = P.length + (A.length + 1) + B.length + 1 by omega, show P.length + 1 + A.length = P.length + (A.length + 1) by omega] at this
          rw [show P.length + (A.length + 1) + B.length + (C.length + 1) = P.length + (A.length + 1) + B.length + 1 + C.length by omega, this]

/-! ## rotate_general, random access iterators -/

/-- what a cycle of the juggling algorithm visits -/
def orb (n m i k : Nat) : Nat := (i + k * m) % n

theorem orb_succ {n m i k : Nat} (hm : m < n) : orb n m i (k + 1) = if orb n m i k + m ≥ n then orb n m i k + m - n else orb n m i k + m := by
  have hn : 0 < n := by omega
  have h1 : orb n m i k < n := Nat.mod_lt _ hn
  have h2 : orb n m i (k + 1) = (orb n m i k + m) % n := by
    unfold orb
    rw [Nat.mod_add_mod]; congr 1; ring
  rw [h2]
  split
  · rw [Nat.mod_eq_sub_mod (by omega), Nat.mod_eq_of_lt (by omega)]
  · exact Nat.mod_eq_of_lt (by omega)

theorem orb_add_mod {n m i k : Nat} : (orb n m i k + m) % n = orb n m i (k + 1) := by
  unfold orb; rw [Nat.mod_add_mod]; congr 1; ring

/-- cancellation -/
theorem orb_back {n m i s d : Nat} (hi : i < n) (h : orb n m i (s + d) = orb n m i s) : orb n m i d = i := by
  unfold orb at *
  have h3 : (i + s * m) % n = (i + s * m + d * m) % n := by
    rw [← h]; congr 1; ring
  have hd : n ∣ d * m := by
    have := (Nat.modEq_iff_dvd' (n := n) (a := i + s * m) (b := i + s * m + d * m) (by omega)).1 h3
    rwa [Nat.add_sub_cancel_left] at this
  obtain ⟨q, hq⟩ := hd
  rw [hq, Nat.add_mul_mod_self_left, Nat.mod_eq_of_lt hi]

theorem juggleInner_spec (f n m i T : Nat) (P M0 S : List α) (hf : f = P.length) (hM : M0.length = n) (hm : m < n) (hi : i < n)
    (hT : 0 < T) (hret : orb n m i T = i) (hfirst : ∀ t, 0 < t → t < T → orb n m i t ≠ i) :
    ∀ (fuel t : Nat) (c : List α), t < T → T ≤ t + fuel → c.length = (P ++ M0 ++ S).length →
      (∀ x, (¬ ∃ s, s < t ∧ x = f + orb n m i s) → c[x]? = (P ++ M0 ++ S)[x]?) → (∀ s, s < t → c[f + orb n m i s]? = M0[orb n m i (s + 1)]?) →
      ∃ c' j, juggleInner f n m i fuel c (orb n m i t) = .ok (c', j) ∧ j = orb n m i (T - 1) ∧ c'.length = (P ++ M0 ++ S).length ∧
        (∀ x, (¬ ∃ s, s < T - 1 ∧ x = f + orb n m i s) → c'[x]? = (P ++ M0 ++ S)[x]?) ∧ (∀ s, s < T - 1 → c'[f + orb n m i s]? = M0[orb n m i (s + 1)]?) := by
  have hlt : ∀ k, orb n m i k < n := fun k => Nat.mod_lt _ (by omega)
  have hin : ∀ x, x < n → (P ++ M0 ++ S)[f + x]? = M0[x]? := by
    intro x hx
    subst hf
    rw [List.append_assoc, List.getElem?_append_right (by omega), List.getElem?_append_left (by omega)]
    congr 1; omega
  have hinj : ∀ s t, s < t → t < T → orb n m i s ≠ orb n m i t := by
    intro s t hst htT heq
    have := orb_back (s := s) (d := t - s) hi (by rw [show s + (t - s) = t by omega]; exact heq.symm)
    exact hfirst (t - s) (by omega) (by omega) this
  intro fuel
  induction fuel with
  | zero => intro t c h1 h2; omega
  | succ fuel ih =>
    intro t c ht hfu hlen hout hdone
    rw [juggleInner, ← orb_succ hm]
    by_cases hTt : t + 1 = T
    · rw [hTt, if_pos hret]
      have : t = T - 1 := by omega
      subst this
      exact ⟨c, _, rfl, rfl, hlen, hout, hdone⟩
    · rw [if_neg (hfirst (t + 1) (by omega) (by omega))]
      have hb : ∀ k, f + orb n m i k < c.length := by
        intro k; have := hlt k; rw [hlen]; simp [hM, ← hf]; omega
      rw [rd_lt (hb _)]
      simp only
      rw [wr_lt _ (hb _)]
      simp only
      have hval : c[f + orb n m i (t + 1)]? = M0[orb n m i (t + 1)]? := by
        rw [hout, hin _ (hlt _)]
        rintro ⟨s, hs, he⟩
        exact hinj s (t + 1) (by omega) (by omega) (by omega)
      refine ih (t + 1) _ (by omega) (by omega) (by simp [hlen]) ?_ ?_
      · intro x hx
        rw [List.getElem?_set_ne, hout]
        · rintro ⟨s, hs, he⟩; exact hx ⟨s, by omega, he⟩
        · intro he; exact hx ⟨t, by omega, he.symm⟩
      · intro s hs
        by_cases hst : s = t
        · subst hst
          rw [List.getElem?_set_self (hb _), ← hval, List.getElem?_eq_getElem (hb _)]
        · rw [List.getElem?_set_ne, hdone s (by omega)]
          intro he
          exact hinj s t (by omega) ht (by omega)

theorem juggleOuter_spec (f n m : Nat) (P M0 S : List α) (hf : f = P.length) (hM : M0.length = n) (hm : m < n) (hm0 : 0 < m) :
    ∀ (r i : Nat) (c : List α), r + i = Nat.gcd n m → c.length = (P ++ M0 ++ S).length →
      (∀ x, (x < f ∨ f + n ≤ x) → c[x]? = (P ++ M0 ++ S)[x]?) → (∀ x, x < n → c[f + x]? = if x % Nat.gcd n m < i then M0[(x + m) % n]? else M0[x]?) →
      ∃ c', juggleOuter f n m r i c = .ok c' ∧ c'.length = (P ++ M0 ++ S).length ∧ (∀ x, (x < f ∨ f + n ≤ x) → c'[x]? = (P ++ M0 ++ S)[x]?) ∧
        (∀ x, x < n → c'[f + x]? = M0[(x + m) % n]?) := by
  have hn : 0 < n := by omega
  have hg0 : 0 < Nat.gcd n m := Nat.gcd_pos_of_pos_left _ hn
  have hgm : Nat.gcd n m ≤ m := Nat.le_of_dvd hm0 (Nat.gcd_dvd_right _ _)
  intro r
  induction r with
  | zero =>
    intro i c hri hlen hout hdone
    refine ⟨c, rfl, hlen, hout, ?_⟩
    intro x hx
    rw [hdone x hx, if_pos]
    have := Nat.mod_lt x hg0
    omega
  | succ r ih =>
    intro i c hri hlen hout hdone
    have hi : i < n := by omega
    have hig : i < Nat.gcd n m := by omega
    rw [juggleOuter]
    have hb : ∀ k, k < n → f + k < c.length := by intro k hk; rw [hlen]; simp [hM, ← hf]; omega
    rw [rd_lt (hb i hi)]
    simp only
    -- the first return
    have hex : ∃ t, 0 < t ∧ orb n m i t = i := ⟨n, hn, by unfold orb; rw [Nat.add_mul_mod_self_left, Nat.mod_eq_of_lt hi]⟩
    classical
    obtain ⟨hT, hret⟩ := Nat.find_spec hex
    have hmin := fun t => Nat.find_min (m := t) hex
    have hTn : Nat.find hex ≤ n := Nat.find_min' hex ⟨hn, by unfold orb; rw [Nat.add_mul_mod_self_left, Nat.mod_eq_of_lt hi]⟩
    generalize hTe : Nat.find hex = T at hT hret hmin hTn
    have hmin' : ∀ t, 0 < t → t < T → orb n m i t ≠ i := fun t h1 h2 h3 => hmin t h2 ⟨h1, h3⟩
    have hlt : ∀ k, orb n m i k < n := fun k => Nat.mod_lt _ hn
    have horbmod : ∀ k, orb n m i k % Nat.gcd n m = i := by
      intro k
      unfold orb
      rw [Nat.mod_mod_of_dvd _ (Nat.gcd_dvd_left _ _)]
      obtain ⟨q, hq⟩ := Nat.gcd_dvd_right n m
      have : i + k * m = i + Nat.gcd n m * (k * q) := by
        conv => lhs; rw [hq]
        ring
      rw [this, Nat.add_mul_mod_self_left, Nat.mod_eq_of_lt hig]
    have horb0 : orb n m i 0 = i := by unfold orb; simp [Nat.mod_eq_of_lt hi]
    have hper : ∀ k q, orb n m i (k + q * T) = orb n m i k := by
      intro k q
      induction q with
      | zero => simp
      | succ q ihq =>
        rw [← ihq]
        have hnd : n ∣ T * m := by
          unfold orb at hret
          have h3 : i % n = (i + T * m) % n := by rw [hret, Nat.mod_eq_of_lt hi]
          have := (Nat.modEq_iff_dvd' (n := n) (a := i) (b := i + T * m) (by omega)).1 h3
          rwa [Nat.add_sub_cancel_left] at this
        obtain ⟨w, hw⟩ := hnd
        unfold orb
        have : i + (k + (q + 1) * T) * m = i + (k + q * T) * m + n * w := by rw [← hw]; ring
        rw [this, Nat.add_mul_mod_self_left]
    have hcover : ∀ x, x < n → x % Nat.gcd n m = i → ∃ s, s < T ∧ x = orb n m i s := by
      intro x hx hxi
      obtain ⟨k, hk⟩ : ∃ k, k * m % n = Nat.gcd n m := by
        have h := Nat.exists_mul_mod_eq_gcd (n := m) (k := n) (by rw [Nat.gcd_comm]; omega)
        obtain ⟨k, -, hk⟩ := h
        exact ⟨k, by rw [Nat.mul_comm, hk, Nat.gcd_comm]⟩
      have hx2 : x = orb n m i (x / Nat.gcd n m * k) := by
        unfold orb
        have e1 : x = i + (x / Nat.gcd n m) * Nat.gcd n m := by
          have := Nat.mod_add_div x (Nat.gcd n m)
          rw [hxi, Nat.mul_comm] at this; exact this.symm
        have e2 : (i + x / Nat.gcd n m * k * m) % n = (i + x / Nat.gcd n m * Nat.gcd n m) % n := by
          rw [Nat.mul_assoc, ← hk, Nat.add_mod, Nat.mul_mod, ← Nat.add_mod]
          conv => rhs; rw [Nat.add_mod, Nat.mul_mod, ← Nat.add_mod]
          simp [Nat.mod_mod]
        rw [e2, ← e1, Nat.mod_eq_of_lt hx]
      refine ⟨(x / Nat.gcd n m * k) % T, Nat.mod_lt _ hT, ?_⟩
      rw [← hper _ ((x / Nat.gcd n m * k) / T)]
      rw [Nat.mul_comm ((x / Nat.gcd n m * k) / T) T, Nat.mod_add_div]
      exact hx2
    -- the array that this cycle starts from, seen as P ++ M1 ++ S
    obtain ⟨M1, hM1, hc1⟩ : ∃ M1 : List α, M1.length = n ∧ c = P ++ M1 ++ S := by
      refine ⟨(c.drop f).take n, ?_, ?_⟩
      · simp only [List.length_take, List.length_drop]
        have := hb (n - 1) (by omega)
        omega
      · apply List.ext_getElem?
        intro x
        by_cases h1 : x < f
        · rw [hout x (Or.inl h1), List.append_assoc, List.append_assoc, List.getElem?_append_left (by omega), List.getElem?_append_left (by omega)]
        · have hl2 : ((c.drop f).take n).length = n := by
            simp only [List.length_take, List.length_drop]
            have := hb (n - 1) (by omega)
            omega
          by_cases h2 : x < f + n
          · rw [List.append_assoc, List.getElem?_append_right (by omega), List.getElem?_append_left (by omega), List.getElem?_take_of_lt (by omega), List.getElem?_drop]
            congr 1; omega
          · rw [hout x (Or.inr (by omega)), List.getElem?_append_right (by simp; omega), List.getElem?_append_right (by simp; omega)]
            congr 1
            simp only [List.length_append, hM, hl2]
    have hM1v : ∀ x, x < n → M1[x]? = if x % Nat.gcd n m < i then M0[(x + m) % n]? else M0[x]? := by
      intro x hx
      rw [← hdone x hx, hc1, List.append_assoc, hf, List.getElem?_append_right (by omega), List.getElem?_append_left (by omega)]
      congr 1; omega
    obtain ⟨c', j, e1, e2, e3, e4, e5⟩ := juggleInner_spec f n m i T P M1 S hf hM1 hm hi hT hret hmin' (n + 1) 0 c hT (by omega) (by rw [hc1]) (fun x _ => by rw [hc1]) (fun s h => by omega)
    rw [horb0] at e1
    rw [e1]
    simp only
    have hclen : c.length = c'.length := by rw [e3, hc1]
    have hjn : f + j < c'.length := by rw [← hclen, e2]; exact hb _ (hlt _)
    rw [wr_lt _ hjn]
    simp only
    -- values after this cycle
    have hnew : ∀ s, s < T → (c'.set (f + j) (c[f + i]'(hb i hi)))[f + orb n m i s]? = M1[orb n m i (s + 1)]? := by
      intro s hs
      by_cases hsT : s = T - 1
      · subst hsT
        rw [e2, List.getElem?_set_self (by rw [← e2]; exact hjn), show T - 1 + 1 = T by omega, hret, hM1v i hi, ← hdone i hi, List.getElem?_eq_getElem (hb i hi)]
      · rw [List.getElem?_set_ne, e5 s (by omega)]
        intro he
        have he2 : orb n m i s = orb n m i (T - 1) := by omega
        have := orb_back (s := s) (d := T - 1 - s) hi (by rw [show s + (T - 1 - s) = T - 1 by omega]; exact he2.symm)
        exact hmin' (T - 1 - s) (by omega) (by omega) this
    refine ih (i + 1) _ (by omega) (by simp [← hclen, hlen]) ?_ ?_
    · intro x hx
      rw [List.getElem?_set_ne, e4, ← hc1, hout x hx]
      · rintro ⟨s, hs, he⟩; have := hlt s; omega
      · intro he; have := hlt (T - 1); omega
    · intro x hx
      by_cases hxi : x % Nat.gcd n m = i
      · obtain ⟨s, hs, rfl⟩ := hcover x hx hxi
        rw [hnew s hs, if_pos (by omega), orb_add_mod, hM1v _ (hlt _), if_neg (by rw [horbmod]; omega)]
      · rw [List.getElem?_set_ne, e4, ← hc1, hdone x hx]
        · by_cases h1 : x % Nat.gcd n m < i
          · rw [if_pos h1, if_pos (by omega)]
          · rw [if_neg h1, if_neg (by omega)]
        · rintro ⟨s, hs, he⟩
          have := horbmod s
          have : x = orb n m i s := by omega
          subst this; exact hxi (horbmod s)
        · intro he
          have : x = orb n m i (T - 1) := by omega
          subst this; exact hxi (horbmod _)

/-! ## rotate -/

theorem rotateGeneral_spec (k : Kind) (P A B S : List α) :
    rotateGeneral k (P ++ A ++ B ++ S) P.length (P.length + A.length) (P.length + A.length + B.length) =
      .ok (P ++ B ++ A ++ S, if A = [] then P.length else P.length + B.length) := by
  unfold rotateGeneral
  by_cases hA : A = []
  · subst hA; simp
  by_cases hB : B = []
  · subst hB; simp
  have hAl : 0 < A.length := List.length_pos_iff.2 hA
  have hBl : 0 < B.length := List.length_pos_iff.2 hB
  rw [if_neg (by omega), if_neg hA]
  have hres : P.length + (P.length + A.length + B.length - (P.length + A.length)) = P.length + B.length := by omega
  have hjug : ∃ c', juggleOuter P.length (P.length + A.length + B.length - P.length) (P.length + A.length - P.length) (Maths.gcdLoop (P.length + A.length + B.length - P.length) (P.length + A.length - P.length)) 0 (P ++ A ++ B ++ S) = .ok c' ∧ c' = P ++ B ++ A ++ S := by
    rw [Maths.gcdLoop_eq, show P.length + A.length + B.length - P.length = (A ++ B).length by simp; omega, show P.length + A.length - P.length = A.length by omega, show P ++ A ++ B ++ S = P ++ (A ++ B) ++ S by simp]
    obtain ⟨c', e1, e2, e3, e4⟩ := juggleOuter_spec P.length (A ++ B).length A.length P (A ++ B) S rfl rfl (by simp; omega) hAl (Nat.gcd (A ++ B).length A.length) 0 (P ++ (A ++ B) ++ S) (by omega) rfl (fun _ _ => rfl)
      (fun x hx => by rw [if_neg (by omega), List.append_assoc, List.getElem?_append_right (by omega), List.getElem?_append_left (by omega)]; congr 1; omega)
    refine ⟨c', by simpa using e1, ?_⟩
    apply List.ext_getElem?
    intro x
    by_cases h1 : x < P.length
    · rw [e3 x (Or.inl h1)]
      simp only [List.append_assoc]
      rw [List.getElem?_append_left h1, List.getElem?_append_left h1]
    · by_cases h2 : x < P.length + (A ++ B).length
      · have := e4 (x - P.length) (by omega)
        rw [show P.length + (x - P.length) = x by omega] at this
        rw [this]
        simp only [List.length_append] at h2 ⊢
        simp only [List.append_assoc]
        rw [List.getElem?_append_right (by omega : P.length ≤ x)]
        by_cases h3 : x - P.length < B.length
        · rw [Nat.mod_eq_of_lt (by omega), List.getElem?_append_right (by omega), List.getElem?_append_left h3]
          congr 1; omega
        · rw [List.getElem?_append_right (l₁ := B) (by omega), List.getElem?_append_left (l₂ := S) (by omega), Nat.mod_eq_sub_mod (by omega), Nat.mod_eq_of_lt (by omega), List.getElem?_append_left (by omega)]
          congr 1; omega
      · rw [e3 x (Or.inr (by omega)), List.getElem?_append_right (by simp at h2 ⊢; omega), List.getElem?_append_right (by simp at h2 ⊢; omega)]
        congr 1; simp; omega
  obtain ⟨c', e1, e2⟩ := hjug
  cases k
  · simp only [e1, e2, hres]
  · simp only [e1, e2, hres]
  · have r1 := reverse_spec .bidirectional P A (B ++ S)
    have r2 := reverse_spec .bidirectional (P ++ A.reverse) B S
    have r3 := reverse_spec .bidirectional P (A.reverse ++ B.reverse) S
    simp only [List.append_assoc, List.length_append, List.length_reverse, List.reverse_append, List.reverse_reverse] at r1 r2 r3
    simp only [List.append_assoc]
    rw [r1]
    simp only
    rw [r2]
    simp only
    rw [show P.length + A.length + B.length = P.length + (A.length + B.length) by omega, r3]
    simp only
    rw [show P.length + (P.length + (A.length + B.length) - (P.length + A.length)) = P.length + B.length by omega]
  · have := fwdLoop_spec (P.length + A.length + B.length - P.length + 1) P A [] B S (by simp; omega) (by simp) (by simp [hB])
    simp only [List.append_nil, List.length_nil, Nat.add_zero] at this
    simp only [this, hres]

/-- C49 (rotate): for every iterator kind and language version `rotate` exchanges the two blocks, touches nothing outside the range and, when
`first ≠ middle`, returns the new position of the element that was first. -/
theorem C49_rotate (k : Kind) (cpp20 : Bool) (P A B S : List α) :
    ∃ r, rotate k cpp20 (P ++ A ++ B ++ S) P.length (P.length + A.length) (P.length + A.length + B.length) = .ok (P ++ B ++ A ++ S, r) ∧ (A ≠ [] → r = P.length + B.length) := by
  unfold rotate
  by_cases h1 : P.length + 1 = P.length + A.length
  · obtain ⟨x, rfl⟩ : ∃ x, A = [x] := List.length_eq_one_iff.1 (by omega)
    rw [if_pos h1]
    have := rotateLeft1_spec P B S x
    refine ⟨P.length + B.length, ?_, fun _ => rfl⟩
    simpa using this
  · rw [if_neg h1]
    have hg := rotateGeneral_spec k P A B S
    by_cases h2 : P.length + A.length + 1 = P.length + A.length + B.length
    · obtain ⟨x, rfl⟩ : ∃ x, B = [x] := List.length_eq_one_iff.1 (by omega)
      rw [if_pos h2]
      split
      · have := rotateRight1_spec P A S x
        refine ⟨P.length + 1, ?_, fun _ => rfl⟩
        simpa using this
      · exact ⟨_, hg, fun h => by rw [if_neg h]⟩
    · rw [if_neg h2]
      exact ⟨_, hg, fun h => by rw [if_neg h]⟩

/-- C49 (reverse). -/
theorem C49_reverse (k : Kind) (P M S : List α) : reverse k (P ++ M ++ S) P.length (P.length + M.length) = .ok (P ++ M.reverse ++ S) := reverse_spec k P M S

example : rotate .random false [0, 1, 2, 3, 4, 5, 6, 9] 1 4 7 = .ok ([0, 4, 5, 6, 1, 2, 3, 9], 4) := by decide +kernel
example : rotate .forward false [1, 2, 3, 4, 5] 0 2 5 = .ok ([3, 4, 5, 1, 2], 3) := by rfl
/-- Finding: the returned iterator for an empty left block is `first`; `std::rotate` returns `last`, the position of the old first element. -/
theorem rotate_empty_left_result : rotate .random false [1, 2, 3] 0 0 3 = .ok ([1, 2, 3], 0) := rfl

end Etl.Algo
