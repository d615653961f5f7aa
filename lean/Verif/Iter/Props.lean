import Verif.Iter.Model
import Mathlib.Tactic.Linarith
/-!
# C105: iterator adaptors

Specification: an iterator type *walks* a list when each iterator stands at a position, and every operation that stays within the list does what it does on
positions.
-/
namespace Etl.Iter
open Etl.Rng

variable {ι α C : Type}

structure Walks (I : It ι α) (l : List α) (at_ : ι → Nat → Prop) : Prop where
  le : ∀ i k, at_ i k → k ≤ l.length
  inc : ∀ i k, at_ i k → k < l.length → ∃ j, I.inc i = .ok j ∧ at_ j (k + 1)
  dec : ∀ i k, at_ i (k + 1) → ∃ j, I.dec i = .ok j ∧ at_ j k
  add : ∀ i k n m, at_ i k → (k : Int) + n = (m : Nat) → m ≤ l.length → ∃ j, I.add i n = .ok j ∧ at_ j m
  sub : ∀ i k n m, at_ i k → (k : Int) - n = (m : Nat) → m ≤ l.length → ∃ j, I.sub i n = .ok j ∧ at_ j m
  deref : ∀ i k, at_ i k → ∀ h : k < l.length, I.deref i = .ok l[k]
  eq : ∀ i j k m, at_ i k → at_ j m → I.eq i j = decide (k = m)
  lt : ∀ i j k m, at_ i k → at_ j m → I.lt i j = decide (k < m)
  diff : ∀ i j k m, at_ i k → at_ j m → I.diff i j = (k : Int) - m

/-- Pointers walk their array. -/
theorem C105_pointer (l : List α) : Walks (ptr l) l (fun p k => p = k ∧ k ≤ l.length) where
  le i k h := h.2
  inc i k h hk := ⟨i + 1, if_pos (by omega), by omega, by omega⟩
  dec i k h := ⟨i - 1, if_pos (by omega), by omega, by omega⟩
  add i k n m h e hm := ⟨m, by show (if _ then _ else _) = _; rw [if_pos (by omega)]; congr 1; omega, rfl, hm⟩
  sub i k n m h e hm := ⟨m, by show (if _ then _ else _) = _; rw [if_pos (by omega)]; congr 1; omega, rfl, hm⟩
  deref i k h hk := by obtain ⟨rfl, _⟩ := h; exact rd_lt hk
  eq i j k m h1 h2 := by obtain ⟨rfl, _⟩ := h1; obtain ⟨rfl, _⟩ := h2; show (i == j) = _; rw [Bool.eq_iff_iff]; simp
  lt i j k m h1 h2 := by obtain ⟨rfl, _⟩ := h1; obtain ⟨rfl, _⟩ := h2; rfl
  diff i j k m h1 h2 := by obtain ⟨rfl, _⟩ := h1; obtain ⟨rfl, _⟩ := h2; rfl

/-- Reverse iterators over anything that walks `l` walk `l` backwards; in particular reverse iterators over reverse iterators walk it forwards. -/
theorem C105_reverse {I : It ι α} {l : List α} {at_ : ι → Nat → Prop} (w : Walks I l at_) :
    Walks (rev I) l.reverse (fun i k => ∃ b, at_ i b ∧ b + k = l.length) where
  le i k := by rintro ⟨b, hb, e⟩; rw [List.length_reverse]; omega
  inc i k := by
    rintro ⟨b, hb, e⟩ hk
    rw [List.length_reverse] at hk
    obtain ⟨c, rfl⟩ : ∃ c, b = c + 1 := ⟨b - 1, by omega⟩
    obtain ⟨j, h1, h2⟩ := w.dec i c hb
    exact ⟨j, h1, c, h2, by omega⟩
  dec i k := by
    rintro ⟨b, hb, e⟩
    obtain ⟨j, h1, h2⟩ := w.inc i b hb (by omega)
    exact ⟨j, h1, b + 1, h2, by omega⟩
  add i k n m := by
    rintro ⟨b, hb, e⟩ he hm
    rw [List.length_reverse] at hm
    obtain ⟨j, h1, h2⟩ := w.sub i b n (l.length - m) hb (by omega) (by omega)
    exact ⟨j, h1, _, h2, by omega⟩
  sub i k n m := by
    rintro ⟨b, hb, e⟩ he hm
    rw [List.length_reverse] at hm
    obtain ⟨j, h1, h2⟩ := w.add i b n (l.length - m) hb (by omega) (by omega)
    exact ⟨j, h1, _, h2, by omega⟩
  deref i k := by
    rintro ⟨b, hb, e⟩ hk
    have hk' := hk
    rw [List.length_reverse] at hk'
    obtain ⟨c, rfl⟩ : ∃ c, b = c + 1 := ⟨b - 1, by omega⟩
    obtain ⟨j, h1, h2⟩ := w.dec i c hb
    show (I.dec i >>= fun t => I.deref t) = _
    rw [h1]
    show I.deref j = _
    rw [w.deref j c h2 (by omega), List.getElem_reverse]
    congr 2; omega
  eq i j k m := by
    rintro ⟨b, hb, e⟩ ⟨c, hc, e'⟩
    show I.eq i j = _
    rw [w.eq i j b c hb hc]; congr 1; rw [eq_iff_iff]; omega
  lt i j k m := by
    rintro ⟨b, hb, e⟩ ⟨c, hc, e'⟩
    show I.lt j i = _
    rw [w.lt j i c b hc hb]; congr 1; rw [eq_iff_iff]; omega
  diff i j k m := by
    rintro ⟨b, hb, e⟩ ⟨c, hc, e'⟩
    show I.diff j i = _
    rw [w.diff j i c b hc hb]; omega

/-- Move iterators walk what the underlying iterators walk. -/
theorem C105_move {I : It ι α} {l : List α} {at_ : ι → Nat → Prop} (w : Walks I l at_) : Walks (mov I) l at_ :=
  ⟨w.le, w.inc, w.dec, w.add, w.sub, w.deref, w.eq, w.lt, w.diff⟩

/-- The derived comparisons are those of the positions, and `it[n]` is the element `n` further on. -/
theorem C105_operators {I : It ι α} {l : List α} {at_ : ι → Nat → Prop} (w : Walks I l at_) {i j : ι} {k m : Nat} (hi : at_ i k) (hj : at_ j m) :
    ne I i j = decide (k ≠ m) ∧ gt I i j = decide (k > m) ∧ le I i j = decide (k ≤ m) ∧ ge I i j = decide (k ≥ m) ∧
    ∀ (n : Int) (p : Nat), (k : Int) + n = p → ∀ h : p < l.length, index I i n = .ok l[p] := by
  refine ⟨?_, ?_, ?_, ?_, ?_⟩
  · unfold ne; rw [w.eq i j k m hi hj]; simp
  · exact w.lt j i m k hj hi
  · unfold le; rw [w.lt j i m k hj hi, ← decide_not]; congr 1; rw [eq_iff_iff]; omega
  · unfold ge; rw [w.lt i j k m hi hj, ← decide_not]; congr 1; rw [eq_iff_iff]; omega
  · intro n p e h
    obtain ⟨t, h1, h2⟩ := w.add i k n p hi e (by omega)
    unfold index; rw [h1]; exact w.deref t p h2 h

theorem times_inc {I : It ι α} {l : List α} {at_ : ι → Nat → Prop} (w : Walks I l at_) : ∀ (n : Nat) (i : ι) (k : Nat), at_ i k → k + n ≤ l.length →
    ∃ j, times I.inc n i = .ok j ∧ at_ j (k + n)
  | 0, i, k, h, _ => ⟨i, rfl, h⟩
  | n + 1, i, k, h, hl => by
    obtain ⟨j, h1, h2⟩ := w.inc i k h (by omega)
    obtain ⟨j', h3, h4⟩ := times_inc w n j (k + 1) h2 (by omega)
    exact ⟨j', by unfold times; rw [h1]; exact h3, by rw [show k + (n + 1) = k + 1 + n by omega]; exact h4⟩
theorem times_dec {I : It ι α} {l : List α} {at_ : ι → Nat → Prop} (w : Walks I l at_) : ∀ (n : Nat) (i : ι) (k : Nat), at_ i (k + n) →
    ∃ j, times I.dec n i = .ok j ∧ at_ j k
  | 0, i, k, h => ⟨i, rfl, h⟩
  | n + 1, i, k, h => by
    obtain ⟨j, h1, h2⟩ := w.dec i (k + n) h
    obtain ⟨j', h3, h4⟩ := times_dec w n j k h2
    exact ⟨j', by unfold times; rw [h1]; exact h3, h4⟩

/-- `advance`, `next` and `prev` move any kind of iterator by `n`; backwards only bidirectional and random access ones. -/
theorem C105_advance {I : It ι α} {l : List α} {at_ : ι → Nat → Prop} (w : Walks I l at_) (c : Cat) (i : ι) (k m : Nat) (n : Int) (h : at_ i k)
    (e : (k : Int) + n = m) (hm : m ≤ l.length) (hc : 0 ≤ n ∨ c = .bidirectional ∨ c = .random) :
    (∃ j, advance I c i n = .ok j ∧ at_ j m) ∧ next I c i n = advance I c i n ∧ prev I c i (-n) = advance I c i n := by
  refine ⟨?_, rfl, by unfold prev; rw [Int.neg_neg]⟩
  cases c with
  | output =>
    have hn : 0 ≤ n := by simpa using hc
    obtain ⟨j, h1, h2⟩ := times_inc w n.toNat i k h (by omega)
    exact ⟨j, by show (if _ then _ else _) = _; rw [if_neg (by omega), h1], by rw [show m = k + n.toNat by omega]; exact h2⟩
  | forward =>
    have hn : 0 ≤ n := by simpa using hc
    obtain ⟨j, h1, h2⟩ := times_inc w n.toNat i k h (by omega)
    exact ⟨j, by show (if _ then _ else _) = _; rw [if_neg (by omega), h1], by rw [show m = k + n.toNat by omega]; exact h2⟩
  | bidirectional =>
    by_cases hn : n > 0
    · obtain ⟨j, h1, h2⟩ := times_inc w n.toNat i k h (by omega)
      exact ⟨j, by show (if _ then _ else _) = _; rw [if_pos hn, h1], by rw [show m = k + n.toNat by omega]; exact h2⟩
    · obtain ⟨j, h1, h2⟩ := times_dec w (-n).toNat i m (by rw [show m + (-n).toNat = k by omega]; exact h)
      exact ⟨j, by show (if _ then _ else _) = _; rw [if_neg hn, h1], h2⟩
  | random => exact w.add i k n m h e hm

theorem countLoop_eq {I : It ι α} {l : List α} {at_ : ι → Nat → Prop} (w : Walks I l at_) : ∀ (n fuel : Nat) (i j : ι) (k m : Nat) (d : Int), at_ i k → at_ j m → k + n = m →
    n < fuel → countLoop I fuel i j d = .ok (d + n)
  | 0, fuel + 1, i, j, k, m, d, hi, hj, e, _ => by
    unfold countLoop; rw [w.eq i j k m hi hj, if_pos (by simp; omega)]; simp
  | n + 1, fuel + 1, i, j, k, m, d, hi, hj, e, hf => by
    have := w.le j m hj
    obtain ⟨i', h1, h2⟩ := w.inc i k hi (by omega)
    unfold countLoop
    rw [w.eq i j k m hi hj, if_neg (by simp; omega), h1]
    show countLoop I fuel i' j (d + 1) = _
    rw [countLoop_eq w n fuel i' j (k + 1) m (d + 1) h2 hj (by omega) (by omega)]
    congr 1; push_cast; omega

/-- `distance` is the difference of the positions: backwards for random access iterators only.  It is the inverse of `advance`. -/
theorem C105_distance {I : It ι α} {l : List α} {at_ : ι → Nat → Prop} (w : Walks I l at_) (c : Cat) (i j : ι) (k m fuel : Nat) (hi : at_ i k) (hj : at_ j m)
    (hf : l.length < fuel) (hc : k ≤ m ∨ c = .random) : distance I c fuel i j = .ok ((m : Int) - k) := by
  have := w.le j m hj
  cases c with
  | random => show Except.ok _ = _; rw [w.diff j i m k hj hi]
  | output =>
    have : k ≤ m := by simpa using hc
    show countLoop I fuel i j 0 = _; rw [countLoop_eq w (m - k) fuel i j k m 0 hi hj (by omega) (by omega)]; congr 1; omega
  | forward =>
    have : k ≤ m := by simpa using hc
    show countLoop I fuel i j 0 = _; rw [countLoop_eq w (m - k) fuel i j k m 0 hi hj (by omega) (by omega)]; congr 1; omega
  | bidirectional =>
    have : k ≤ m := by simpa using hc
    show countLoop I fuel i j 0 = _; rw [countLoop_eq w (m - k) fuel i j k m 0 hi hj (by omega) (by omega)]; congr 1; omega

theorem traverse_walk {I : It ι α} {l : List α} {at_ : ι → Nat → Prop} (w : Walks I l at_) : ∀ (n fuel : Nat) (i j : ι) (k m : Nat), at_ i k → at_ j m → k + n = m →
    n < fuel → traverse I fuel i j = .ok ((l.drop k).take n)
  | 0, fuel + 1, i, j, k, m, hi, hj, e, _ => by
    unfold traverse; rw [w.eq i j k m hi hj, if_pos (by simp; omega)]; simp
  | n + 1, fuel + 1, i, j, k, m, hi, hj, e, hf => by
    have := w.le j m hj
    obtain ⟨i', h1, h2⟩ := w.inc i k hi (by omega)
    unfold traverse
    rw [w.eq i j k m hi hj, if_neg (by simp; omega), w.deref i k hi (by omega)]
    show (I.inc i >>= fun j' => traverse I fuel j' j >>= fun r => .ok (l[k] :: r)) = _
    rw [h1]
    show (traverse I fuel i' j >>= fun r => .ok (l[k] :: r)) = _
    rw [traverse_walk w n fuel i' j (k + 1) m h2 hj (by omega) (by omega), List.drop_eq_getElem_cons (i := k) (l := l) (by omega), List.take_succ_cons]; rfl

/-- A loop from one iterator to a later one visits the elements between them, in order; over reverse iterators made from the end and the beginning of an array
it visits the array backwards. -/
theorem C105_traverse {I : It ι α} {l : List α} {at_ : ι → Nat → Prop} (w : Walks I l at_) (i j : ι) (k m fuel : Nat) (hi : at_ i k) (hj : at_ j m) (h : k ≤ m)
    (hf : l.length < fuel) : traverse I fuel i j = .ok ((l.drop k).take (m - k)) := by
  have := w.le j m hj
  exact traverse_walk w (m - k) fuel i j k m hi hj (by omega) (by omega)
theorem C105_reverse_traverse (l : List α) :
    traverse (rev (ptr l)) (l.length + 1) l.length 0 = .ok l.reverse ∧ traverse (rev (rev (ptr l))) (l.length + 1) 0 l.length = .ok l := by
  constructor
  · have := C105_traverse (C105_reverse (C105_pointer l)) l.length 0 0 l.length (l.length + 1) ⟨l.length, ⟨rfl, by omega⟩, by omega⟩ ⟨0, ⟨rfl, by omega⟩, by omega⟩
      (by omega) (by simp)
    rw [this]; simp [List.take_of_length_le]
  · have := C105_traverse (C105_reverse (C105_reverse (C105_pointer l))) 0 l.length 0 l.length (l.length + 1)
      ⟨l.length, ⟨0, ⟨rfl, by omega⟩, by omega⟩, by simp⟩ ⟨0, ⟨l.length, ⟨rfl, by omega⟩, by omega⟩, by simp⟩ (by omega) (by simp)
    rw [this]; simp [List.take_of_length_le]
example : traverse (rev (ptr [1, 2, 3])) 4 3 0 = .ok [3, 2, 1] ∧ advance (rev (ptr [1, 2, 3])) .bidirectional 1 (-2) = .ok 3 := by
  exact ⟨rfl, rfl⟩

/-- A fixed iterator never moves: every loop of increments or `advance` leaves it where it is, so that every read gives the same element. -/
theorem C105_fixed (I : It ι α) (i : ι) (n : Nat) (z : Int) (c : Cat) : times (fixed I).inc n i = .ok i ∧ times (fixed I).dec n i = .ok i ∧ (fixed I).add i z = .ok i ∧
    (fixed I).sub i z = .ok i ∧ (0 ≤ z → advance (fixed I) c i z = .ok i) ∧ (fixed I).deref i = I.deref i := by
  have h1 : ∀ n, times (fixed I).inc n i = .ok i := by
    intro n; induction n with
    | zero => rfl
    | succ n ih => unfold times; exact ih
  have h2 : ∀ n, times (fixed I).dec n i = .ok i := by
    intro n; induction n with
    | zero => rfl
    | succ n ih => unfold times; exact ih
  refine ⟨h1 n, h2 n, rfl, rfl, ?_, rfl⟩
  intro hz
  cases c with
  | output => show (if _ then _ else _) = _; rw [if_neg (by omega)]; exact h1 _
  | forward => show (if _ then _ else _) = _; rw [if_neg (by omega)]; exact h1 _
  | bidirectional =>
    show (if _ then _ else _) = _
    split
    · exact h1 _
    · exact h2 _
  | random => rfl

/-- Copying to an inserter: with `push_back` (or `push` of a queue) the elements are appended in order, with `push_front` they come out reversed in front; a
container that refuses an element stops the copy with its error. -/
theorem C105_inserters (abs : C → List α) (push : C → α → Res C) (room : C → Nat) (hroom : ∀ c x, 0 < room c → ∃ c', push c x = .ok c' ∧ room c' + 1 = room c)
    (hfull : ∀ c x, room c = 0 → ∃ e, push c x = .error e) : ∀ (l : List α) (c : C),
    ((∀ c x c', push c x = .ok c' → abs c' = abs c ++ [x]) → l.length ≤ room c → ∃ c', copyTo push l c = .ok c' ∧ abs c' = abs c ++ l) ∧
    ((∀ c x c', push c x = .ok c' → abs c' = x :: abs c) → l.length ≤ room c → ∃ c', copyTo push l c = .ok c' ∧ abs c' = l.reverse ++ abs c) ∧
    (room c < l.length → ∃ e, copyTo push l c = .error e)
  | [], c => ⟨fun _ _ => ⟨c, rfl, by simp⟩, fun _ _ => ⟨c, rfl, by simp⟩, fun h => by simp at h⟩
  | x :: l, c => by
    rcases Nat.eq_zero_or_pos (room c) with h0 | h0
    · obtain ⟨e, he⟩ := hfull c x h0
      refine ⟨fun _ h => by simp at h; omega, fun _ h => by simp at h; omega, fun _ => ⟨e, ?_⟩⟩
      unfold copyTo; rw [he]; rfl
    · obtain ⟨c', hc, hr⟩ := hroom c x h0
      obtain ⟨i1, i2, i3⟩ := C105_inserters abs push room hroom hfull l c'
      have hu : copyTo push (x :: l) c = copyTo push l c' := by show (push c x >>= fun c => copyTo push l c) = _; rw [hc]; rfl
      rw [hu]
      refine ⟨fun hp h => ?_, fun hp h => ?_, fun h => ?_⟩
      · simp only [List.length_cons] at h
        obtain ⟨d, h1, h2⟩ := i1 hp (by omega)
        exact ⟨d, h1, by rw [h2, hp c x c' hc]; simp⟩
      · simp only [List.length_cons] at h
        obtain ⟨d, h1, h2⟩ := i2 hp (by omega)
        exact ⟨d, h1, by rw [h2, hp c x c' hc]; simp⟩
      · simp only [List.length_cons] at h
        exact i3 (by omega)
/-- such a container: a list of at most five elements -/
example : copyTo (fun (c : List Nat) x => if c.length < 5 then Except.ok (x :: c) else Except.error .outOfBounds) [1, 2, 3] [9] = .ok [3, 2, 1, 9] := by rfl

end Etl.Iter
