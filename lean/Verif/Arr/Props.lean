import Verif.Arr.Model

/-!
# Properties of array.h (C80)
-/
namespace Etl.Arr
open Etl.Rng

variable {α : Type}

/-! ## Lemmas -/

theorem moveOne_get (t : Ty α) (a : List α) {i j : Nat} (hi : i < a.length) (hj : j < a.length) (hs : i ≠ j ∨ ∀ v, t.self v = v) :
    ∃ r, moveOne t a i j = .ok r ∧ r.length = a.length ∧ ∀ k, r[k]? = if k = j then a[i]? else if k = i then a[i]?.map t.gone else a[k]? := by
  unfold moveOne
  simp only [bind, Except.bind, rd_lt hi]
  by_cases h : i = j
  · subst h
    rw [if_pos rfl, wr_lt _ hi]
    refine ⟨_, rfl, List.length_set .., fun k => ?_⟩
    rw [(hs.resolve_left (fun e => e rfl)) a[i], List.getElem?_set]
    by_cases hk : i = k
    · subst hk; simp [hi]
    · rw [if_neg hk, if_neg (Ne.symm hk), if_neg (Ne.symm hk)]
  · rw [if_neg h, wr_lt _ hi]
    simp only []
    rw [wr_lt _ (by rw [List.length_set]; exact hj)]
    refine ⟨_, rfl, by simp, fun k => ?_⟩
    rw [List.getElem?_set, List.getElem?_set]
    by_cases hk : j = k
    · subst hk; simp [hi, hj]
    · rw [if_neg hk, if_neg (Ne.symm hk)]
      by_cases hk' : i = k
      · subst hk'; simp [hi]
      · rw [if_neg hk', if_neg (Ne.symm hk')]

theorem move_get (t : Ty α) (n : Nat) : ∀ (fuel : Nat) (a : List α) (sb db : Nat), n ≤ fuel → sb + n ≤ a.length → db ≤ sb → (db < sb ∨ ∀ v, t.self v = v) →
    ∃ r, move t fuel a sb (sb + n) db = .ok (r, db + n) ∧ r.length = a.length ∧
      ∀ i, r[i]? = if db ≤ i ∧ i < db + n then a[i + (sb - db)]? else if sb ≤ i ∧ i < sb + n then a[i]?.map t.gone else a[i]? := by
  induction n with
  | zero =>
    intro fuel a sb db _ _ _ _
    refine ⟨a, ?_, rfl, fun i => ?_⟩
    · unfold move; exact if_pos rfl
    · rw [if_neg (by omega), if_neg (by omega)]
  | succ n ih =>
    intro fuel a sb db hf hl hd hs
    obtain ⟨f, rfl⟩ : ∃ f, fuel = f + 1 := ⟨fuel - 1, by omega⟩
    obtain ⟨b, b1, b2, b3⟩ := moveOne_get t a (i := sb) (j := db) (by omega) (by omega) (hs.imp (fun h => by omega) id)
    obtain ⟨r, r1, r2, r3⟩ := ih f b (sb + 1) (db + 1) (by omega) (by omega) (by omega) (hs.imp (fun h => by omega) id)
    refine ⟨r, ?_, by omega, fun i => ?_⟩
    · rw [move, if_neg (by omega)]
      simp only [bind, Except.bind, b1]
      rw [show sb + (n + 1) = sb + 1 + n by omega, show db + (n + 1) = db + 1 + n by omega]
      exact r1
    · rw [r3 i]
      by_cases h1 : db + 1 ≤ i ∧ i < db + 1 + n
      · rw [if_pos h1, if_pos (by omega), b3, if_neg (by omega), if_neg (by omega)]
        congr 1; omega
      · rw [if_neg h1]
        by_cases h2 : sb + 1 ≤ i ∧ i < sb + 1 + n
        · rw [if_pos h2, if_neg (by omega), if_pos (by omega), b3, if_neg (by omega), if_neg (by omega)]
        · rw [if_neg h2, b3]
          by_cases h3 : i = db
          · subst h3; rw [if_pos rfl, if_pos (by omega)]; congr 1; omega
          · rw [if_neg h3]
            by_cases h4 : i = sb
            · subst h4; rw [if_pos rfl, if_neg (by omega), if_pos (by omega)]
            · rw [if_neg h4, if_neg (by omega), if_neg (by omega)]

theorem moveBackward_get (t : Ty α) (n : Nat) : ∀ (fuel : Nat) (a : List α) (sb de : Nat), n ≤ fuel → de ≤ a.length → sb + n ≤ de → (sb + n < de ∨ ∀ v, t.self v = v) →
    ∃ r, moveBackward t fuel a sb (sb + n) de = .ok (r, de - n) ∧ r.length = a.length ∧
      ∀ i, r[i]? = if de - n ≤ i ∧ i < de then a[i - (de - (sb + n))]? else if sb ≤ i ∧ i < sb + n then a[i]?.map t.gone else a[i]? := by
  induction n with
  | zero =>
    intro fuel a sb de _ _ _ _
    refine ⟨a, ?_, rfl, fun i => ?_⟩
    · unfold moveBackward; exact if_pos rfl
    · rw [if_neg (by omega), if_neg (by omega)]
  | succ n ih =>
    intro fuel a sb de hf hl hd hs
    obtain ⟨f, rfl⟩ : ∃ f, fuel = f + 1 := ⟨fuel - 1, by omega⟩
    obtain ⟨d, rfl⟩ : ∃ d, de = d + 1 := ⟨de - 1, by omega⟩
    obtain ⟨b, b1, b2, b3⟩ := moveOne_get t a (i := sb + n) (j := d) (by omega) (by omega) (hs.imp (fun h => by omega) id)
    obtain ⟨r, r1, r2, r3⟩ := ih f b sb d (by omega) (by omega) (by omega) (hs.imp (fun h => by omega) id)
    refine ⟨r, ?_, by omega, fun i => ?_⟩
    · have e : moveBackward t (f + 1) a sb (sb + (n + 1)) (d + 1) = if sb = sb + (n + 1) then .ok (a, d + 1) else (do moveBackward t f (← moveOne t a (sb + n) d) sb (sb + n) d) := by rfl
      rw [e, if_neg (by omega)]
      show (do moveBackward t f (← moveOne t a (sb + n) d) sb (sb + n) d) = _
      simp only [bind, Except.bind, b1]
      rw [r1, show d + 1 - (n + 1) = d - n by omega]
    · rw [r3 i]
      by_cases h1 : d - n ≤ i ∧ i < d
      · rw [if_pos h1, if_pos (by omega), b3, if_neg (by omega), if_neg (by omega)]
        congr 1; omega
      · rw [if_neg h1]
        by_cases h2 : sb ≤ i ∧ i < sb + n
        · rw [if_pos h2, if_neg (by omega), if_pos (by omega), b3, if_neg (by omega), if_neg (by omega)]
        · rw [if_neg h2, b3]
          by_cases h3 : i = d
          · subst h3; rw [if_pos rfl, if_pos (by omega)]; congr 1; omega
          · rw [if_neg h3]
            by_cases h4 : i = sb + n
            · subst h4; rw [if_pos rfl, if_neg (by omega), if_pos (by omega)]
            · rw [if_neg h4, if_neg (by omega), if_neg (by omega)]

theorem fillRange_get (v : α) (n : Nat) : ∀ (fuel : Nat) (a : List α) (b : Nat), n ≤ fuel → b + n ≤ a.length →
    ∃ r, fillRange v fuel a b (b + n) = .ok r ∧ r.length = a.length ∧ ∀ i, r[i]? = if b ≤ i ∧ i < b + n then some v else a[i]? := by
  induction n with
  | zero =>
    intro fuel a b _ _
    refine ⟨a, ?_, rfl, fun i => ?_⟩
    · unfold fillRange; exact if_pos rfl
    · rw [if_neg (by omega)]
  | succ n ih =>
    intro fuel a b hf hl
    obtain ⟨f, rfl⟩ : ∃ f, fuel = f + 1 := ⟨fuel - 1, by omega⟩
    obtain ⟨r, r1, r2, r3⟩ := ih f (a.set b v) (b + 1) (by omega) (by rw [List.length_set]; omega)
    refine ⟨r, ?_, by rw [r2, List.length_set], fun i => ?_⟩
    · rw [fillRange, if_neg (by omega)]
      simp only [bind, Except.bind, wr_lt v (show b < a.length by omega)]
      rw [show b + (n + 1) = b + 1 + n by omega]
      exact r1
    · rw [r3 i, List.getElem?_set]
      by_cases h1 : b + 1 ≤ i ∧ i < b + 1 + n
      · rw [if_pos h1, if_pos (by omega)]
      · rw [if_neg h1]
        by_cases h2 : b = i
        · rw [if_pos h2, if_pos (by omega), if_pos (by omega)]
        · rw [if_neg h2, if_neg (by omega)]

/-- `copy_s` to `p`: as much as there is room for. -/
theorem copySAt_spec (random : Bool) (vs a : List α) {p : Nat} (hp : p ≤ a.length) :
    copySAt random vs a p = .ok (a.take p ++ vs.take (a.length - p) ++ a.drop (p + vs.length), p + min vs.length (a.length - p)) := by
  have hl : (a.take p).length = p := by rw [List.length_take]; omega
  have hS := Algo.copyS_spec id vs (a.take p) (a.drop p)
  rw [List.take_append_drop, hl, List.map_id, List.length_drop, List.drop_drop] at hS
  unfold copySAt
  cases random with
  | false => rw [if_neg (by decide)]; exact hS
  | true =>
    rw [if_pos rfl]
    show Algo.copyN (if vs.length < a.length - p then vs.length else a.length - p) vs a p = _
    have hm : (if vs.length < a.length - p then vs.length else a.length - p) = min vs.length (a.length - p) := by split <;> omega
    rw [hm]
    have hN := Algo.copyN_spec (vs.take (a.length - p)) (a.take p) ((a.drop p).take vs.length) (vs.drop (a.length - p)) (a.drop (p + vs.length)) (by
      rw [List.length_take, List.length_take, List.length_drop]; omega)
    rw [List.take_append_drop, hl, List.length_take, ← List.drop_drop, List.append_assoc, List.take_append_drop, List.take_append_drop] at hN
    rw [Nat.min_comm] at hN
    rw [← List.drop_drop]
    rw [hN]

/-- Two lists of the same length. -/
theorem eq_of_get {a b : List α} (h : ∀ i : Nat, a[i]? = b[i]?) : a = b := List.ext_getElem? h

/-! ## Properties -/

/-- C80: `insert(position, value)` puts the value before the element at the position; the last element drops out.  The value may be an element of the array before the position. -/
theorem C80_insert (t : Ty α) (a : List α) (p : Nat) (hp : p < a.length) (x : Arg α) (v : α) (hx : x = .val v ∨ ∃ i, x = .elem i ∧ i < p ∧ a[i]? = some v) :
    insert t a p x = .ok (a.take p ++ v :: (a.drop p).dropLast, p) := by
  obtain ⟨b, b1, b2, b3⟩ := moveBackward_get t (a.length - 1 - p) a.length a p a.length (by omega) (by omega) (by omega) (Or.inl (by omega))
  rw [show p + (a.length - 1 - p) = a.length - 1 by omega] at b1 b3
  have hr : x.read b = .ok v := by
    rcases hx with rfl | ⟨i, rfl, hi, hv⟩
    · rfl
    · show rd b i = _
      rw [rd_ok, b3 i, if_neg (by omega), if_neg (by omega)]; exact hv
  unfold insert
  rw [if_neg (by omega)]
  simp only [bind, Except.bind, b1, hr, wr_lt v (show p < b.length by omega)]
  congr 2
  refine eq_of_get fun i => ?_
  rw [List.getElem?_set, b3 i]
  by_cases h1 : p = i
  · subst h1
    rw [if_pos rfl, if_pos (by omega), List.getElem?_append_right (by rw [List.length_take]; omega), List.length_take, show p - min p a.length = 0 by omega]; rfl
  · rw [if_neg h1]
    by_cases h2 : i < p
    · rw [if_neg (by omega), if_neg (by omega), List.getElem?_append_left (by rw [List.length_take]; omega), List.getElem?_take, if_pos h2]
    · rw [List.getElem?_append_right (by rw [List.length_take]; omega), List.length_take]
      obtain ⟨k, rfl⟩ : ∃ k, i = p + 1 + k := ⟨i - (p + 1), by omega⟩
      rw [show p + 1 + k - min p a.length = k + 1 by omega, List.getElem?_cons_succ]
      by_cases h3 : p + 1 + k < a.length
      · rw [if_pos (by omega), List.getElem?_dropLast, if_pos (by rw [List.length_drop]; omega), List.getElem?_drop]
        congr 1; omega
      · rw [if_neg (by omega), if_neg (by omega), List.getElem?_eq_none (by omega), List.getElem?_dropLast, if_neg (by rw [List.length_drop]; omega)]

/-- C80: `insert(position, first, last)` puts as much of the range as fits before the element at the position; what is pushed over the end drops out. -/
theorem C80_insert_range (t : Ty α) (random : Bool) (a : List α) (p : Nat) (hp : p ≤ a.length) (vs : List α) (hs : vs ≠ [] ∨ ∀ v, t.self v = v) :
    insertRange t random a p vs = .ok ((a.take p ++ vs ++ a.drop p).take a.length, p) := by
  unfold insertRange
  by_cases hlt : vs.length < a.length - p
  · obtain ⟨b, b1, b2, b3⟩ := moveBackward_get t (a.length - (p + vs.length)) a.length a p a.length (by omega) (by omega) (by omega) (hs.imp (fun h => by
      have : 0 < vs.length := List.length_pos_iff.mpr h
      omega) id)
    simp only [bind, Except.bind, if_pos hlt, b1, copySAt_spec random vs b (show p ≤ b.length by omega)]
    congr 2
    refine eq_of_get fun i => ?_
    rw [List.getElem?_take, b2, List.take_of_length_le (show vs.length ≤ a.length - p by omega)]
    have hl1 : (b.take p).length = p := by rw [List.length_take]; omega
    have hl2 : (a.take p).length = p := by rw [List.length_take]; omega
    by_cases h1 : i < p
    · rw [List.append_assoc, List.append_assoc, List.getElem?_append_left (by omega), List.getElem?_take, if_pos h1, b3, if_neg (by omega), if_neg (by omega), if_pos (by omega), List.getElem?_append_left (by omega), List.getElem?_take, if_pos h1]
    · by_cases h2 : i < p + vs.length
      · rw [List.getElem?_append_left (by rw [List.length_append]; omega), List.getElem?_append_right (by omega), if_pos (by omega), List.getElem?_append_left (by rw [List.length_append]; omega), List.getElem?_append_right (by omega), hl1, hl2]
      · rw [List.getElem?_append_right (by rw [List.length_append]; omega), List.getElem?_append_right (by rw [List.length_append]; omega), List.length_append, List.length_append, hl1, hl2, List.getElem?_drop, List.getElem?_drop, b3]
        by_cases h3 : i < a.length
        · rw [if_pos (by omega), if_pos h3]
          congr 1; omega
        · rw [if_neg (by omega), if_neg (by omega), if_neg h3, List.getElem?_eq_none (by omega)]
  · simp only [bind, Except.bind, if_neg hlt, copySAt_spec random vs a hp]
    congr 2
    rw [List.drop_eq_nil_of_le (by omega), List.append_nil, List.append_assoc, List.take_append, List.take_append, List.length_take, List.take_take]
    rw [show min a.length p = p by omega, show min p a.length = p by omega, show a.length - p - vs.length = 0 by omega, List.take_zero, List.append_nil]

/-- What `erase(first, last)` leaves behind the elements kept: those of the last elements that were moved are moved from, the others are as they were. -/
def tailOf (t : Ty α) (a : List α) (f l : Nat) : List α := (a.take l).drop (a.length - (l - f)) ++ (a.drop (max l (a.length - (l - f)))).map t.gone

theorem erase_core (t : Ty α) (a : List α) {f l : Nat} (hf : f ≤ l) (hl : l ≤ a.length) (hs : f < l ∨ ∀ v, t.self v = v) :
    move t a.length a l a.length f = .ok (a.take f ++ a.drop l ++ tailOf t a f l, a.length - (l - f)) := by
  obtain ⟨b, b1, b2, b3⟩ := move_get t (a.length - l) a.length a l f (by omega) (by omega) hf hs
  rw [show l + (a.length - l) = a.length by omega] at b1 b3
  rw [b1, show f + (a.length - l) = a.length - (l - f) by omega]
  congr 2
  refine eq_of_get fun i => ?_
  have hl1 : (a.take f).length = f := by rw [List.length_take]; omega
  have hl2 : (a.take f ++ a.drop l).length = a.length - (l - f) := by rw [List.length_append, hl1, List.length_drop]; omega
  rw [b3]
  by_cases h1 : i < f
  · rw [if_neg (by omega), if_neg (by omega), List.getElem?_append_left (by omega), List.getElem?_append_left (by omega), List.getElem?_take, if_pos h1]
  · by_cases h2 : i < f + (a.length - l)
    · rw [if_pos (by omega), List.getElem?_append_left (by omega), List.getElem?_append_right (by omega), hl1, List.getElem?_drop]
      congr 1; omega
    · rw [if_neg (by omega), List.getElem?_append_right (by omega), hl2]
      unfold tailOf
      have hl3 : ((a.take l).drop (a.length - (l - f))).length = l - (a.length - (l - f)) := by rw [List.length_drop, List.length_take]; omega
      by_cases h3 : i < l
      · rw [if_neg (by omega), List.getElem?_append_left (by omega), List.getElem?_drop, List.getElem?_take, if_pos (by omega)]
        congr 1; omega
      · rw [List.getElem?_append_right (by omega), hl3, List.getElem?_map, List.getElem?_drop]
        by_cases h4 : i < a.length
        · rw [if_pos (by omega)]
          congr 2; omega
        · rw [if_neg (by omega), List.getElem?_eq_none (by omega), List.getElem?_eq_none (by omega)]; rfl

/-- C80: `erase(position)` closes the gap; the last element stays (moved from, unless it was the one erased). -/
theorem C80_erase (t : Ty α) (a : List α) (x : α) (p : Nat) (hp : p < (a ++ [x]).length) :
    erase t (a ++ [x]) p = .ok ((a ++ [x]).eraseIdx p ++ [if p = a.length then x else t.gone x], p) := by
  have h := erase_core t (a ++ [x]) (f := p) (l := p + 1) (by omega) (by omega) (Or.inl (by omega))
  unfold erase
  simp only [bind, Except.bind, h]
  congr 2
  rw [List.eraseIdx_eq_take_drop_succ]
  congr 1
  unfold tailOf
  rw [List.length_append] at hp ⊢
  simp only [List.length_singleton] at hp ⊢
  rw [show a.length + 1 - (p + 1 - p) = a.length by omega]
  by_cases hpa : p = a.length
  · subst hpa
    rw [if_pos rfl, List.take_of_length_le (by rw [List.length_append]; simp), List.drop_left, List.drop_eq_nil_of_le (by rw [List.length_append, List.length_singleton]; omega)]; rfl
  · rw [if_neg hpa, show max (p + 1) a.length = a.length by omega, List.drop_left, List.drop_eq_nil_of_le (by rw [List.length_take]; omega)]; rfl

/-- C80: `erase(first, last)` closes the gap; of the last elements see `tailOf`. -/
theorem C80_erase_range (t : Ty α) (a : List α) (f l : Nat) (hf : f ≤ l) (hl : l ≤ a.length) (hs : f < l ∨ ∀ v, t.self v = v) :
    eraseRange t a f l = .ok (a.take f ++ a.drop l ++ tailOf t a f l, f) := by
  unfold eraseRange; simp only [bind, Except.bind, erase_core t a hf hl hs]

/-- C80: for types whose moves are copies (all of C++03, numbers, ...) the last elements stay as they were. -/
theorem C80_erase_range_copies (t : Ty α) (ht : ∀ v, t.gone v = v) (hs : ∀ v, t.self v = v) (a : List α) (f l : Nat) (hf : f ≤ l) (hl : l ≤ a.length) :
    eraseRange t a f l = .ok (a.take f ++ a.drop l ++ a.drop (a.length - (l - f)), f) := by
  rw [C80_erase_range t a f l hf hl (Or.inr hs)]
  congr 3
  unfold tailOf
  rw [show t.gone = id from funext ht, List.map_id]
  by_cases h : a.length - (l - f) ≤ l
  · rw [show max l (a.length - (l - f)) = l by omega]
    have h1 := List.drop_append_of_le_length (l₁ := a.take l) (l₂ := a.drop l) (i := a.length - (l - f)) (by rw [List.length_take]; omega)
    rw [List.take_append_drop] at h1
    exact h1.symm
  · rw [List.drop_eq_nil_of_le (by rw [List.length_take]; omega), show max l (a.length - (l - f)) = a.length - (l - f) by omega, List.nil_append]

/-- C80: `erase(position, value)`: as `erase`, and the last element is the value. -/
theorem C80_erase_fill (t : Ty α) (a : List α) (p : Nat) (hp : p < a.length) (v : α) :
    eraseFill t a p (.val v) = .ok (a.eraseIdx p ++ [v], p) := by
  have h := erase_core t a (f := p) (l := p + 1) (by omega) (by omega) (Or.inl (by omega))
  unfold eraseFill
  have hlt : (a.take p ++ a.drop (p + 1)).length = a.length - 1 := by rw [List.length_append, List.length_take, List.length_drop]; omega
  have htl : (tailOf t a p (p + 1)).length = 1 := by unfold tailOf; rw [List.length_append, List.length_drop, List.length_take, List.length_map, List.length_drop]; omega
  obtain ⟨y, hy⟩ : ∃ y, tailOf t a p (p + 1) = [y] := List.length_eq_one_iff.mp htl
  rw [hy] at h
  simp only [bind, Except.bind, h]
  have hr : (Arg.val v).read (a.take p ++ a.drop (p + 1) ++ [y]) = .ok v := rfl
  simp only [hr]
  rw [wr_lt _ (by simp)]
  simp only []
  congr 2
  rw [List.eraseIdx_eq_take_drop_succ, List.length_append, List.length_singleton, Nat.add_sub_cancel, List.set_append_right _ _ (Nat.le_refl _), Nat.sub_self]; rfl

/-- C80: `erase(first, last, value)`: as `erase`, and the elements left over are all the value. -/
theorem C80_erase_range_fill (t : Ty α) (a : List α) (f l : Nat) (hf : f ≤ l) (hl : l ≤ a.length) (hs : f < l ∨ ∀ v, t.self v = v) (v : α) :
    eraseRangeFill t a f l v = .ok (a.take f ++ a.drop l ++ List.replicate (l - f) v, f) := by
  have h := erase_core t a hf hl hs
  have hl1 : (a.take f).length = f := by rw [List.length_take]; omega
  have hl2 : (a.take f ++ a.drop l).length = a.length - (l - f) := by rw [List.length_append, hl1, List.length_drop]; omega
  have hl3 : (tailOf t a f l).length = l - f := by unfold tailOf; rw [List.length_append, List.length_drop, List.length_take, List.length_map, List.length_drop]; omega
  have hl4 : (a.take f ++ a.drop l ++ tailOf t a f l).length = a.length := by rw [List.length_append, hl2, hl3]; omega
  obtain ⟨r, r1, r2, r3⟩ := fillRange_get v (l - f) a.length (a.take f ++ a.drop l ++ tailOf t a f l) (a.length - (l - f)) (by omega) (by omega)
  rw [show a.length - (l - f) + (l - f) = a.length by omega] at r1
  unfold eraseRangeFill
  simp only [bind, Except.bind, h, hl4, r1]
  congr 2
  refine eq_of_get fun i => ?_
  rw [r3]
  by_cases h1 : i < a.length - (l - f)
  · rw [if_neg (by omega), List.getElem?_append_left (l₁ := a.take f ++ a.drop l) (by omega), List.getElem?_append_left (l₁ := a.take f ++ a.drop l) (by omega)]
  · rw [List.getElem?_append_right (l₁ := a.take f ++ a.drop l) (by omega), List.getElem?_append_right (l₁ := a.take f ++ a.drop l) (by omega), hl2, List.getElem?_replicate]
    by_cases h2 : i < a.length
    · rw [if_pos (by omega), if_pos (by omega)]
    · rw [if_neg (by omega), if_neg (by omega), List.getElem?_eq_none (by omega)]

/-- C80: `fill`. -/
theorem C80_fill (v : α) (a : List α) : fill v a = .ok (List.replicate a.length v) := by
  obtain ⟨r, r1, r2, r3⟩ := fillRange_get v a.length a.length a 0 (Nat.le_refl _) (by omega)
  rw [Nat.zero_add] at r1
  unfold fill
  rw [r1]
  congr 1
  refine eq_of_get fun i => ?_
  rw [r3, List.getElem?_replicate]
  by_cases h : i < a.length
  · rw [if_pos (by omega), if_pos h]
  · rw [if_neg (by omega), if_neg h, List.getElem?_eq_none (by omega)]

/-- C80: `assign(first, last)` copies as much as fits, leaves the other elements, and returns the first one not assigned. -/
theorem C80_assign (random : Bool) (vs a : List α) : assign random vs a = .ok (vs.take a.length ++ a.drop vs.length, min vs.length a.length) := by
  unfold assign
  rw [copySAt_spec random vs a (Nat.zero_le _)]
  simp

/-- C80: `assign(first, last, value)` fills the other elements with the value. -/
theorem C80_assign_fill (random : Bool) (vs : List α) (v : α) (a : List α) :
    assignFill random vs v a = .ok (vs.take a.length ++ List.replicate (a.length - vs.length) v, min vs.length a.length) := by
  have h := C80_assign random vs a
  unfold assign at h
  have hl : (vs.take a.length ++ a.drop vs.length).length = a.length := by rw [List.length_append, List.length_take, List.length_drop]; omega
  obtain ⟨r, r1, r2, r3⟩ := fillRange_get v (a.length - min vs.length a.length) a.length (vs.take a.length ++ a.drop vs.length) (min vs.length a.length) (by omega) (by omega)
  rw [show min vs.length a.length + (a.length - min vs.length a.length) = a.length by omega] at r1
  unfold assignFill
  simp only [bind, Except.bind, h, hl, r1]
  congr 2
  refine eq_of_get fun i => ?_
  have hl1 : (vs.take a.length).length = min vs.length a.length := by rw [List.length_take, Nat.min_comm]
  rw [r3]
  by_cases h1 : i < min vs.length a.length
  · rw [if_neg (by omega), List.getElem?_append_left (by omega), List.getElem?_append_left (by omega)]
  · rw [List.getElem?_append_right (by omega), hl1, List.getElem?_append_right (by omega), hl1, List.getElem?_replicate, List.getElem?_drop]
    by_cases h2 : i < a.length
    · rw [if_pos (by omega), if_pos (by omega)]
    · rw [if_neg (by omega), if_neg (by omega), List.getElem?_eq_none (by omega)]

theorem swap_spec (n : Nat) : ∀ (P Q A B : List α), P.length = Q.length → A.length = n → B.length = n → swap n P.length (P ++ A) (Q ++ B) = .ok (P ++ B, Q ++ A) := by
  induction n with
  | zero =>
    intro P Q A B _ hA hB
    rw [List.length_eq_zero_iff.mp hA, List.length_eq_zero_iff.mp hB]; rfl
  | succ n ih =>
    intro P Q A B hPQ hA hB
    match A, B, hA, hB with
    | x :: A, y :: B, hA, hB =>
      have r1 : rd (P ++ x :: A) P.length = .ok x := by rw [rd_ok]; simp
      have r2 : rd (Q ++ y :: B) P.length = .ok y := by rw [rd_ok, hPQ]; simp
      have w1 : wr (P ++ x :: A) P.length y = .ok ((P ++ [y]) ++ A) := by rw [wr_lt _ (by simp)]; simp
      have w2 : wr (Q ++ y :: B) P.length x = .ok ((Q ++ [x]) ++ B) := by rw [hPQ, wr_lt _ (by simp)]; simp
      unfold swap
      simp only [bind, Except.bind, r1, r2, w1, w2]
      have h := ih (P ++ [y]) (Q ++ [x]) A B (by simp [hPQ]) (by simpa using hA) (by simpa using hB)
      rw [List.length_append, List.length_singleton] at h
      rw [h]; simp

/-- C80: `swap` exchanges the contents. -/
theorem C80_swap (a b : List α) (h : a.length = b.length) : swap a.length 0 a b = .ok (b, a) := swap_spec a.length [] [] a b rfl rfl h.symm

/-! ## Examples -/

/-- A type with pointers: what is moved from is 0. -/
def exTy : Ty Nat := ⟨fun _ => 0, fun v => v⟩

example : insert exTy [1, 2, 3, 4] 1 (.val 9) = .ok ([1, 9, 2, 3], 1) := by rfl
example : insert exTy [1, 2, 3, 4] 2 (.elem 0) = .ok ([1, 2, 1, 3], 2) := by rfl
example : insertRange exTy true [1, 2, 3, 4, 5] 1 [8, 9] = .ok ([1, 8, 9, 2, 3], 1) := by rfl
example : insertRange exTy false [1, 2, 3] 1 [6, 7, 8, 9] = .ok ([1, 6, 7], 1) := by rfl
example : eraseRange exTy [1, 2, 3, 4, 5] 1 3 = .ok ([1, 4, 5, 0, 0], 1) := by rfl
example : eraseRange exTy [1, 2, 3, 4, 5] 0 4 = .ok ([5, 2, 3, 4, 0], 0) := by rfl
example : eraseRangeFill exTy [1, 2, 3, 4, 5] 1 3 7 = .ok ([1, 4, 5, 7, 7], 1) := by rfl

/-! ## Findings -/

/-- `insert` of an element of the array itself, at or before that element: a different value is inserted (here the 2 was meant). -/
theorem C80_finding_alias : insert ⟨id, id⟩ [1, 2, 3] 0 (.elem 1) = .ok ([1, 1, 2], 0) ∧ eraseFill ⟨id, id⟩ [1, 2, 3] 0 (.elem 1) = .ok ([2, 3, 3], 0) := by exact ⟨rfl, rfl⟩

/-- Erasing an empty range, and inserting one, moves every element after the position to itself: a type that does not survive this loses its values. -/
theorem C80_finding_self_move : eraseRange ⟨fun _ => 0, fun _ => 0⟩ [1, 2, 3] 1 1 = .ok ([1, 0, 0], 1) ∧ insertRange ⟨fun _ => 0, fun _ => 0⟩ true [1, 2, 3] 1 [] = .ok ([1, 0, 0], 1) := by exact ⟨rfl, rfl⟩

/-- `insert(end(), value)` does not stop at once: the loop runs from the last element down past the beginning. -/
theorem C80_finding_insert_end : insert ⟨id, id⟩ [1, 2, 3] 3 (.val 9) = .error .outOfBounds := by rfl

end Etl.Arr
