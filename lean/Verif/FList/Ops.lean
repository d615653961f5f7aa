import Verif.FList.Lemmas
import Mathlib.Tactic.SplitIfs

/-!
# The operations of the forward_list model, at the level of nodes
-/
namespace Etl.FList
open FLinks
variable {α : Type}

theorem live_inj {a b : α} (h : Cell.live a = Cell.live b) : a = b := by cases h; rfl

theorem Inv.not_full {s : St α} {ns : List Nat} (i : Inv s ns) (h : ns.length < s.cap) : full s = false ∧ s.free ≠ [] := by
  have h1 := i.pl.full_len; have h2 := i.pl.len
  refine ⟨by rw [h1, decide_eq_false (by omega)], fun e => ?_⟩
  rw [e] at h2; simp at h2; omega
theorem Inv.is_full {s : St α} {ns : List Nat} (i : Inv s ns) (h : ¬ ns.length < s.cap) : full s = true ∧ s.free = [] := by
  have h0 := i.len
  have h1 : full s = true := by rw [i.pl.full_len, decide_eq_true (by omega)]
  exact ⟨h1, i.pl.full_iff.1 h1⟩

/-- Appending at the end, value by value (`assign`). -/
theorem assignLoop_ok : ∀ (vs : List α) {s : St α} {X : List Nat}, Inv s X →
    ∃ s' N, assignLoop s (lst S X) vs = .ok (s', if X.length + vs.length ≤ s.cap then .ok else .err .full) ∧ Inv s' (X ++ N) ∧ Same s s' ∧ Vals s' N (vs.take (s.cap - X.length)) ∧ (∀ y ∈ X, s'.val y = s.val y)
  | [], s, X, i => ⟨s, [], by have := i.len; simp [assignLoop, this], by simpa using i, Same.refl s, by simp [Vals], fun _ _ => rfl⟩
  | v :: vs, s, X, i => by
    by_cases hc : X.length < s.cap
    · obtain ⟨hf, hfr⟩ := i.not_full hc
      obtain ⟨s1, n, e1, i1, sm1, v1, v2⟩ := append_ok i hfr v
      obtain ⟨s2, N, e2, i2, sm2, w1, w2⟩ := assignLoop_ok vs i1
      rw [lst_concat] at e2
      have hx : X.length + 1 + vs.length = X.length + (vs.length + 1) := by omega
      simp only [List.length_append, List.length_cons, List.length_nil, Nat.zero_add, sm1.1, hx] at e2 w1
      refine ⟨s2, n :: N, ?_, by simpa using i2, sm1.trans sm2, ?_, fun y hy => ?_⟩
      · simp only [assignLoop, hf, e1, e2, bind, Except.bind, List.length_cons]; simp
      · have : s.cap - X.length = (s.cap - (X.length + 1)) + 1 := by omega
        rw [this, List.take_succ_cons]
        exact (Vals.one (by rw [w2 n (by simp)]; exact v1)).append (A := [n]) (l := [v]) w1
      · rw [w2 y (by simp [hy])]; exact v2 y hy
    · obtain ⟨hf, _⟩ := i.is_full hc
      refine ⟨s, [], ?_, by simpa using i, Same.refl s, ?_, fun _ _ => rfl⟩
      · simp only [assignLoop, hf, if_true, List.length_cons]
        rw [if_neg (by omega)]
      · rw [show s.cap - X.length = 0 by omega]; simp [Vals]

theorem fillLoop_ok (v : α) (n : Nat) : ∀ (k : Nat) {s : St α} {X : List Nat}, Inv s X → n ≤ s.cap → n - X.length ≤ k →
    ∃ s' N, fillLoop s (lst S X) n v k = .ok (s', .ok) ∧ Inv s' (X ++ N) ∧ Same s s' ∧ Vals s' N (List.replicate (n - X.length) v) ∧ (∀ y ∈ X, s'.val y = s.val y)
  | k, s, X, i, hn, hk => by
    by_cases hc : X.length < n
    · obtain ⟨k, rfl⟩ : ∃ k', k = k' + 1 := ⟨k - 1, by omega⟩
      obtain ⟨hf, hfr⟩ := i.not_full (by omega)
      obtain ⟨s1, m, e1, i1, sm1, v1, v2⟩ := append_ok i hfr v
      obtain ⟨s2, N, e2, i2, sm2, w1, w2⟩ := fillLoop_ok v n k i1 (by rw [sm1.1]; exact hn) (by simp; omega)
      rw [lst_concat] at e2
      refine ⟨s2, m :: N, ?_, by simpa using i2, sm1.trans sm2, ?_, fun y hy => ?_⟩
      · simp only [fillLoop]; rw [if_pos (by rw [i.pl.size]; exact hc)]
        simp only [e1, e2, bind, Except.bind]
      · have : n - X.length = (n - (X ++ [m]).length) + 1 := by simp; omega
        rw [this, List.replicate_succ]
        exact (Vals.one (by rw [w2 m (by simp)]; exact v1)).append (A := [m]) (l := [v]) w1
      · rw [w2 y (by simp [hy])]; exact v2 y hy
    · have hs : ¬ size s < n := by rw [i.pl.size]; exact hc
      refine ⟨s, [], ?_, by simpa using i, Same.refl s, by rw [show n - X.length = 0 by omega]; simp [Vals], fun _ _ => rfl⟩
      cases k <;> simp [fillLoop, hs]

theorem insertNLoop_ok (v : α) : ∀ (k : Nat) {s : St α} {X B : List Nat}, Inv s (X ++ B) →
    ∃ s' N, insertNLoop s (lst S X) v k = .ok (s', .ok) ∧ Inv s' (X ++ N ++ B) ∧ Same s s' ∧ Vals s' N (List.replicate (min k (s.cap - (X.length + B.length))) v) ∧ (∀ y ∈ X ++ B, s'.val y = s.val y)
  | 0, s, X, B, i => ⟨s, [], rfl, by simpa using i, Same.refl s, by simp [Vals], fun _ _ => rfl⟩
  | k + 1, s, X, B, i => by
    by_cases hc : (X ++ B).length < s.cap
    · obtain ⟨hf, hfr⟩ := i.not_full hc
      obtain ⟨s1, n, e1, i1, sm1, v1, v2⟩ := addAfter_ok i hfr v
      obtain ⟨s2, N, e2, i2, sm2, w1, w2⟩ := insertNLoop_ok v k (X := X) (B := n :: B) (by simpa using i1)
      refine ⟨s2, N ++ [n], ?_, by simpa using i2, sm1.trans sm2, ?_, fun y hy => ?_⟩
      · simp only [insertNLoop, hf, e1, e2, bind, Except.bind]; simp
      · have h1 := w1.append (Vals.one (s := s2) (n := n) (v := v) (by rw [w2 n (by simp)]; exact v1))
        simp only [List.length_append, List.length_cons, sm1.1] at h1 hc
        have : min (k + 1) (s.cap - (X.length + B.length)) = min k (s.cap - (X.length + (B.length + 1))) + 1 := by omega
        rw [this, List.replicate_succ']; exact h1
      · rw [w2 y (by simp only [List.mem_append, List.mem_cons] at hy ⊢; tauto)]; exact v2 y hy
    · obtain ⟨hf, _⟩ := i.is_full hc
      refine ⟨s, [], by simp [insertNLoop, hf], by simpa using i, Same.refl s, ?_, fun _ _ => rfl⟩
      have : min (k + 1) (s.cap - (X.length + B.length)) = 0 := by simp at hc; omega
      rw [this]; simp [Vals]

theorem insertRangeLoop_ok : ∀ (vs : List α) {s : St α} {X B : List Nat}, Inv s (X ++ B) →
    ∃ s' N, insertRangeLoop s (lst S X) vs = .ok (s', lst S (X ++ N), if X.length + B.length + vs.length ≤ s.cap then .ok else .err .noAlloc) ∧ Inv s' (X ++ N ++ B) ∧ Same s s' ∧
      Vals s' N (vs.take (s.cap - (X.length + B.length))) ∧ (∀ y ∈ X ++ B, s'.val y = s.val y)
  | [], s, X, B, i => ⟨s, [], by have := i.len; simp at this; simp [insertRangeLoop, this], by simpa using i, Same.refl s, by simp [Vals], fun _ _ => rfl⟩
  | v :: vs, s, X, B, i => by
    by_cases hc : (X ++ B).length < s.cap
    · obtain ⟨hf, hfr⟩ := i.not_full hc
      obtain ⟨s1, n, e1, i1, sm1, v1, v2⟩ := addAfter_ok i hfr v
      have hnx : s1.h.next (lst S X) = .ok n := by
        have := (show Inv s1 (X ++ n :: B) by simpa using i1).nxl; simpa using this
      obtain ⟨s2, N, e2, i2, sm2, w1, w2⟩ := insertRangeLoop_ok vs (X := X ++ [n]) (B := B) i1
      rw [lst_concat] at e2
      have hx : X.length + 1 + B.length + vs.length = X.length + B.length + (vs.length + 1) := by omega
      simp only [List.length_append, List.length_cons, List.length_nil, Nat.zero_add, sm1.1, hx, List.append_assoc, List.singleton_append] at e2 w1
      refine ⟨s2, n :: N, ?_, by simpa using i2, sm1.trans sm2, ?_, fun y hy => ?_⟩
      · simp only [insertRangeLoop, e1, hnx, e2, bind, Except.bind, List.length_cons]
      · have h1 := (Vals.one (s := s2) (n := n) (v := v) (by rw [w2 n (by simp)]; exact v1)).append w1
        simp only [List.length_append] at hc
        have : s.cap - (X.length + B.length) = (s.cap - (X.length + 1 + B.length)) + 1 := by omega
        rw [this, List.take_succ_cons]; exact h1
      · rw [w2 y (by simp only [List.mem_append] at hy ⊢; tauto)]; exact v2 y hy
    · obtain ⟨_, hfr⟩ := i.is_full hc
      simp only [List.length_append] at hc
      refine ⟨s, [], ?_, by simpa using i, Same.refl s, ?_, fun _ _ => rfl⟩
      · simp only [insertRangeLoop, addAfter_full hfr, bind, Except.bind, List.append_nil, List.length_cons]
        rw [if_neg (by omega)]
      · rw [show s.cap - (X.length + B.length) = 0 by omega]; simp [Vals]

theorem growLoop_ok (v : α) : ∀ (k : Nat) {s : St α} {X : List Nat}, Inv s X → X.length + k ≤ s.cap →
    ∃ s' N, growLoop s v (lst S X) k = .ok (s', .ok) ∧ Inv s' (X ++ N) ∧ Same s s' ∧ Vals s' N (List.replicate k v) ∧ (∀ y ∈ X, s'.val y = s.val y)
  | 0, s, X, i, _ => ⟨s, [], rfl, by simpa using i, Same.refl s, by simp [Vals], fun _ _ => rfl⟩
  | k + 1, s, X, i, hc => by
    obtain ⟨hf, hfr⟩ := i.not_full (by omega)
    obtain ⟨s1, n, e1, i1, sm1, v1, v2⟩ := addAfter_ok (X := X) (B := []) (by simpa using i) hfr v
    obtain ⟨s2, N, e2, i2, sm2, w1, w2⟩ := growLoop_ok v k (X := X ++ [n]) (by simpa using i1) (by rw [sm1.1]; simp; omega)
    rw [lst_concat] at e2
    refine ⟨s2, n :: N, ?_, by simpa using i2, sm1.trans sm2, ?_, fun y hy => ?_⟩
    · simp only [growLoop, insertAfter, hf, e1, e2, bind, Except.bind]; simp [e2]
    · rw [List.replicate_succ]
      exact (Vals.one (by rw [w2 n (by simp)]; exact v1)).append (A := [n]) (l := [v]) w1
    · rw [w2 y (by simp [hy])]; exact v2 y (by simpa using hy)

theorem findLoop_ok {h : FLinks} {n : Nat} : ∀ (C : List Nat) (k i p last : Nat), Seg h.nx p C 0 → 0 ∉ C → (∀ x ∈ C, h.valid x) → C.length ≤ k →
    findLoop h n k i p last = .ok (i + min (n - i) C.length, hd 0 (C.drop (n - i)), lst last (C.take (n - i)))
  | [], k, i, p, last, sg, _, _, _ => by
    have : p = 0 := sg
    subst this
    cases k <;> simp [findLoop]
  | x :: C, 0, _, _, _, _, _, _, hk => by simp at hk
  | x :: C, k + 1, i, p, last, sg, h0, hv, hk => by
    obtain ⟨rfl, sg⟩ := sg
    have hp0 : p ≠ 0 := fun e => h0 (by simp [e])
    by_cases hi : i < n
    · simp only [findLoop]; rw [if_pos ⟨hi, hp0⟩]
      simp only [next_ok (hv p (by simp)), bind, Except.bind]
      rw [findLoop_ok C k (i + 1) _ p sg (fun y => h0 (by simp [y])) (fun y hy => hv y (by simp [hy])) (by simpa using hk)]
      have : n - i = (n - (i + 1)) + 1 := by omega
      rw [this, List.drop_succ_cons, List.take_succ_cons]
      have h2 : i + 1 + min (n - (i + 1)) C.length = i + min (n - (i + 1) + 1) (p :: C).length := by simp; omega
      rw [h2]; rfl
    · simp only [findLoop]; rw [if_neg (fun y => hi y.1)]
      rw [show n - i = 0 by omega]; simp

/-! ## Filtering loops -/

theorem removeLoop_ok (f : α → Bool) : ∀ (k : Nat) {s : St α} {X B : List Nat} {lb : List α}, Inv s (X ++ B) → Vals s B lb → lb.length ≤ k →
    ∃ s' B', removeLoop f s (hd 0 B) (lst S X) k = .ok s' ∧ Inv s' (X ++ B') ∧ Same s s' ∧ Vals s' B' (lb.filter (fun x => !f x)) ∧ (∀ y ∈ X, s'.val y = s.val y)
  | k, s, X, B, [], i, hv, _ => by
    have := hv.nil_split; subst this
    exact ⟨s, [], by cases k <;> simp [removeLoop], i, Same.refl s, by simp [Vals], fun _ _ => rfl⟩
  | 0, _, _, _, _ :: _, _, _, hk => by simp at hk
  | k + 1, s, X, B, v :: lb, i, hv, hk => by
    obtain ⟨x, N, rfl, hx, hN⟩ := hv.cons_split
    have hx0 := i.ne0 (x := x) (by simp)
    have hrd := i.read (x := x) (by simp) hx
    simp only [List.length_cons] at hk
    have hfst : removeLoop f s (hd 0 (x :: N)) (lst S X) (k + 1) = (do
      if f v then do
        let (s, q) ← eraseAfter s (lst S X)
        removeLoop f s q (lst S X) k
      else do removeLoop f s (← s.h.next x) (← s.h.next (lst S X)) k) := by
      rw [hd_cons, removeLoop, if_pos hx0]
      simp only [hrd, bind, Except.bind]
    rw [hfst]
    cases hf : f v with
    | true =>
      obtain ⟨s1, e1, i1, sm1, v1⟩ := eraseAfter_ok i
      obtain ⟨s2, B', e2, i2, sm2, w1, w2⟩ := removeLoop_ok f k (X := X) (B := N) i1 (hN.congr (fun y hy => v1 y (by simp [hy]))) (by omega)
      refine ⟨s2, B', ?_, i2, sm1.trans sm2, by simpa [hf] using w1, fun y hy => ?_⟩
      · simp only [e1, e2, bind, Except.bind, if_true]
      · rw [w2 y hy]; exact v1 y (by simp [hy])
    | false =>
      have i' : Inv s ((X ++ [x]) ++ N) := by simpa using i
      have hnx := i'.nxl; rw [lst_concat] at hnx
      obtain ⟨s2, B', e2, i2, sm2, w1, w2⟩ := removeLoop_ok f k (X := X ++ [x]) (B := N) i' hN (by omega)
      rw [lst_concat] at e2
      refine ⟨s2, x :: B', ?_, by simpa using i2, sm2, ?_, fun y hy => w2 y (by simp [hy])⟩
      · have h1 := i.nxl; rw [hd_cons] at h1
        simp only [hnx, h1, e2, bind, Except.bind]; simp
      · simp only [List.filter_cons, hf, Bool.not_false, if_true]
        exact (Vals.one (by rw [w2 x (by simp)]; exact hx)).append (A := [x]) (l := [v]) w1

/-- `unique`: drop each element that equals the last one kept (`isEqual(current, last)`). -/
def uniq (eq : α → α → Bool) (a : α) : List α → List α
  | [] => [a]
  | b :: l => if eq b a then uniq eq a l else a :: uniq eq b l

theorem uniqueLoop_ok (eq : α → α → Bool) : ∀ (k : Nat) {s : St α} {X B : List Nat} {p : Nat} {a : α} {vb : List α}, Inv s (X ++ p :: B) → s.val p = .live a → Vals s B vb → vb.length ≤ k →
    ∃ s' B', uniqueLoop eq s p (hd 0 B) k = .ok s' ∧ Inv s' (X ++ B') ∧ Same s s' ∧ Vals s' B' (uniq eq a vb) ∧ (∀ y ∈ X, s'.val y = s.val y)
  | k, s, X, B, p, a, [], i, hp, hv, _ => by
    have := hv.nil_split; subst this
    exact ⟨s, [p], by cases k <;> simp [uniqueLoop], i, Same.refl s, by simp [Vals, uniq, hp], fun _ _ => rfl⟩
  | 0, _, _, _, _, _, _ :: _, _, _, _, hk => by simp at hk
  | k + 1, s, X, B, p, a, v :: vb, i, hp, hv, hk => by
    obtain ⟨x, N, rfl, hx, hN⟩ := hv.cons_split
    have i' : Inv s ((X ++ [p]) ++ x :: N) := by simpa using i
    have hx0 := i.ne0 (x := x) (by simp)
    have hfst : uniqueLoop eq s p (hd 0 (x :: N)) (k + 1) = (do
      if eq v a then do
        let s ← removeNodeAfter s p
        uniqueLoop eq s p (← s.h.next p) k
      else do uniqueLoop eq s x (← s.h.next x) k) := by
      rw [hd_cons, uniqueLoop, if_pos hx0]
      simp only [i.read (x := x) (by simp) hx, i.read (x := p) (by simp) hp, bind, Except.bind]
    rw [hfst]
    cases hf : eq v a with
    | true =>
      obtain ⟨s1, e1, i1, sm1, v1⟩ := removeNodeAfter_ok i'
      have hnx := i1.nxl; rw [lst_concat] at hnx e1
      obtain ⟨s2, B', e2, i2, sm2, w1, w2⟩ := uniqueLoop_ok eq k (X := X) (B := N) (p := p) (a := a) (vb := vb) (by simpa using i1) (by rw [v1 p (by simp)]; exact hp) (hN.congr (fun y hy => v1 y (by simp [hy]))) (by simpa using hk)
      refine ⟨s2, B', ?_, i2, sm1.trans sm2, by simpa [uniq, hf] using w1, fun y hy => ?_⟩
      · simp only [e1, hnx, e2, bind, Except.bind, if_true]
      · rw [w2 y hy]; exact v1 y (by simp [hy])
    | false =>
      have i2 : Inv s ((X ++ [p] ++ [x]) ++ N) := by simpa using i
      have hnx := i2.nxl; rw [lst_concat] at hnx
      obtain ⟨s2, B', e2, i2, sm2, w1, w2⟩ := uniqueLoop_ok eq k (X := X ++ [p]) (B := N) (p := x) (a := v) (vb := vb) i' hx hN (by simpa using hk)
      refine ⟨s2, p :: B', ?_, by simpa using i2, sm2, ?_, fun y hy => w2 y (by simp [hy])⟩
      · simp only [hnx, e2, bind, Except.bind]; simp
      · simp only [uniq, hf]
        exact (Vals.one (by rw [w2 p (by simp)]; exact hp)).append (A := [p]) (l := [a]) w1

/-! ## Moving nodes -/

theorem checkLoop_ok {h : FLinks} {last to : Nat} : ∀ (C : List Nat) (k p : Nat), Seg h.nx p C last → last ∉ C → (∀ x ∈ C, h.valid x) → C.length ≤ k →
    checkLoop h last to p k = .ok (decide (to ∉ C))
  | [], k, p, sg, _, _, _ => by
    have : p = last := sg
    cases k <;> simp [checkLoop, this]
  | x :: C, 0, _, _, _, _, hk => by simp at hk
  | x :: C, k + 1, p, sg, hl, hv, hk => by
    obtain ⟨rfl, sg⟩ := sg
    simp only [checkLoop]; rw [if_pos (fun e => hl (by simp [e]))]
    by_cases ht : p = to
    · rw [if_pos ht]; simp [ht]
    · rw [if_neg ht]
      simp only [next_ok (hv p (by simp)), bind, Except.bind]
      rw [checkLoop_ok C k _ sg (fun y => hl (by simp [y])) (fun y hy => hv y (by simp [hy])) (by simpa using hk)]
      have : to ∈ p :: C ↔ to ∈ C := by simp [Ne.symm ht]
      simp [this]

theorem finalLoop_ok {h : FLinks} {last : Nat} : ∀ (C : List Nat) (k p : Nat), Seg h.nx (h.nx p) C last → last ∉ C → h.valid p → (∀ x ∈ C, h.valid x) → C.length < k →
    finalLoop h last p k = .ok (lst p C)
  | _, 0, _, _, _, _, _, hk => by omega
  | [], k + 1, p, sg, _, hp, _, _ => by
    have : h.nx p = last := sg
    simp [finalLoop, next_ok hp, this, bind, Except.bind]
  | x :: C, k + 1, p, sg, hl, hp, hv, hk => by
    obtain ⟨hx, sg⟩ := sg
    simp only [finalLoop, next_ok hp, bind, Except.bind]
    rw [if_pos (by rw [hx]; exact fun e => hl (by simp [e])), hx, finalLoop_ok C k x sg (fun y => hl (by simp [y])) (hv x (by simp)) (fun y hy => hv y (by simp [hy])) (by simpa using hk)]
    rfl

theorem Inv.disj {s : St α} {X M B : List Nat} (i : Inv s (X ++ M ++ B)) : ∀ x ∈ M, x ∉ S :: (X ++ B) := by
  intro x hx y
  have h1 := i.line.nd
  have hp : (S :: (X ++ M ++ B)).Perm (M ++ S :: (X ++ B)) := by
    rw [show S :: (X ++ M ++ B) = (S :: X) ++ M ++ B by simp, show M ++ S :: (X ++ B) = M ++ (S :: X) ++ B by simp]
    exact List.Perm.append_right B List.perm_append_comm
  exact (List.nodup_append.1 (hp.nodup_iff.1 h1)).2.2 x hx x y rfl

/-- The segment of the moved nodes, with the node before it. -/
theorem Inv.range {s : St α} {X M B : List Nat} (i : Inv s (X ++ M ++ B)) :
    Seg s.h.nx (lst S X) (lst S X :: M) (hd 0 B) ∧ hd 0 B ∉ lst S X :: M ∧ (∀ x ∈ lst S X :: M, s.h.valid x) := by
  have iX : Inv s (X ++ (M ++ B)) := by rw [← List.append_assoc]; exact i
  have hB : hd 0 B ∉ M := by
    intro x
    cases B with
    | nil => exact i.ne0 (x := 0) (by simp at x; simp [x]) rfl
    | cons b B => exact i.disj b (by simpa using x) (by simp)
  refine ⟨⟨rfl, ?_⟩, ?_, ?_⟩
  · have := iX.line.mid.2.2
    rw [seg_append] at this
    obtain ⟨q, h1, h2⟩ := this
    rw [h2.hd] at h1; exact h1
  · intro x
    rcases List.mem_cons.1 x with x | x
    · cases B with
      | nil => exact iX.lst0 (by simpa using x.symm)
      | cons b B => exact iX.line.lst_notin (by rw [← x]; simp)
    · exact hB x
  · intro x hx
    rcases List.mem_cons.1 hx with rfl | hx
    · exact iX.vlst
    · exact i.valid (by simp [hx])

theorem moveRange_ok {s : St α} {X M B P Q : List Nat} (i : Inv s (X ++ M ++ B)) (hM : M ≠ []) (hPQ : X ++ B = P ++ Q) (hX : lst S P ≠ lst S X) (hB : lst S P ≠ hd 0 B) :
    ∃ s', moveRange s (lst S X) (hd 0 B) (lst S P) = .ok (s', .ok) ∧ Inv s' (P ++ M ++ Q) ∧ Same s s' ∧ s'.val = s.val := by
  obtain ⟨sg, hl, hv⟩ := i.range
  have hlen := i.len
  simp only [List.length_append] at hlen
  have hPM : lst S P ∉ lst S X :: M := by
    intro x
    rcases List.mem_cons.1 x with x | x
    · exact hX x
    · refine i.disj _ x ?_
      rw [hPQ]; have := lst_mem S P; simp only [List.mem_cons, List.mem_append] at this ⊢; tauto
  have hck := checkLoop_ok (to := lst S P) (lst S X :: M) (s.cap + 2) _ sg hl hv (by simp; omega)
  rw [decide_eq_true hPM] at hck
  have hfn := finalLoop_ok M (s.cap + 2) (lst S X) sg.2 (fun y => hl (by simp [y])) (hv _ (by simp)) (fun y hy => hv y (by simp [hy])) (by omega)
  rw [← lst_append] at hfn
  obtain ⟨v1, v2, v3, c⟩ := i.line.move hM hPQ rfl rfl
  refine ⟨{ s with h := ((s.h.linked (lst S X) (s.h.nx (lst S (X ++ M)))).linked (lst S (X ++ M)) ((s.h.linked (lst S X) (s.h.nx (lst S (X ++ M)))).nx (lst S P))).linked (lst S P) (s.h.nx (lst S X)) }, ?_, ⟨c, ?_⟩, ⟨rfl, rfl, rfl, rfl⟩, rfl⟩
  · simp only [moveRange]
    rw [if_neg (by rintro (x | x); exact hX x.symm; exact hB x.symm)]
    simp only [hck, bind, Except.bind, if_true, next_ok v1, hfn, next_ok v2, join_ok v1]
    rw [next_ok (show (s.h.linked (lst S X) (s.h.nx (lst S (X ++ M)))).valid (lst S P) from v3)]
    simp only
    rw [join_ok (show (s.h.linked (lst S X) (s.h.nx (lst S (X ++ M)))).valid (lst S (X ++ M)) from v2)]
    simp only
    rw [join_ok (by simpa using v3)]
  · refine Pl.perm (U := X ++ M ++ B) (i.pl.links (by rfl)) ?_
    have h1 : (X ++ M ++ B).Perm (M ++ (X ++ B)) := by rw [← List.append_assoc]; exact List.Perm.append_right B List.perm_append_comm
    rw [hPQ] at h1
    refine h1.trans ?_
    rw [← List.append_assoc]; exact List.Perm.append_right Q List.perm_append_comm

theorem moveRange_inside {s : St α} {X M B : List Nat} {p : Nat} (i : Inv s (X ++ M ++ B)) (hp : p ∈ M) :
    moveRange s (lst S X) (hd 0 B) p = .ok (s, .err .iterator) := by
  obtain ⟨sg, hl, hv⟩ := i.range
  have hlen := i.len
  simp only [List.length_append] at hlen
  have hck := checkLoop_ok (to := p) (lst S X :: M) (s.cap + 2) _ sg hl hv (by simp; omega)
  rw [decide_eq_false (by simp [hp])] at hck
  simp only [moveRange]
  rw [if_neg]
  · simp only [hck, bind, Except.bind]; simp
  · rintro (x | x)
    · subst x
      exact i.disj _ hp (by have := lst_mem S X; simp only [List.mem_cons, List.mem_append] at this ⊢; tauto)
    · exact hl (by rw [x]; simp [hp])

theorem moveAfter_ok {s : St α} {X B P Q : List Nat} {x : Nat} (i : Inv s (X ++ [x] ++ B)) (hPQ : X ++ B = P ++ Q) (hX : lst S P ≠ lst S X) :
    ∃ s', moveAfter s (lst S X) (lst S P) = .ok s' ∧ Inv s' (P ++ [x] ++ Q) ∧ Same s s' ∧ s'.val = s.val := by
  obtain ⟨v1, v2, v3, c⟩ := i.line.move (by simp) hPQ rfl rfl
  rw [lst_concat] at v2 c
  have hnx : s.h.nx (lst S X) = x := by
    have := (show Inv s (X ++ x :: B) by simpa using i).line.nx_lst; simpa using this
  rw [hnx] at c
  refine ⟨{ s with h := ((s.h.linked (lst S X) (s.h.nx x)).linked x ((s.h.linked (lst S X) (s.h.nx x)).nx (lst S P))).linked (lst S P) x }, ?_, ⟨c, ?_⟩, ⟨rfl, rfl, rfl, rfl⟩, rfl⟩
  · simp only [moveAfter]
    rw [if_neg (fun e => hX e.symm)]
    simp only [next_ok v1, hnx, next_ok v2, join_ok v1, bind, Except.bind]
    rw [next_ok (show (s.h.linked (lst S X) (s.h.nx x)).valid (lst S P) from v3)]
    simp only
    rw [join_ok (show (s.h.linked (lst S X) (s.h.nx x)).valid x from v2)]
    simp only
    rw [join_ok (by simpa using v3)]
  · refine Pl.perm (U := X ++ [x] ++ B) (i.pl.links (by rfl)) ?_
    have h1 : (X ++ [x] ++ B).Perm ([x] ++ (X ++ B)) := by rw [← List.append_assoc]; exact List.Perm.append_right B List.perm_append_comm
    rw [hPQ] at h1
    refine h1.trans ?_
    rw [← List.append_assoc]; exact List.Perm.append_right Q List.perm_append_comm

/-! ## Moving between lists -/

theorem take_ok {s : St α} {ns : List Nat} (i : Inv s ns) {x : Nat} (hx : x ∈ ns) {v : α} (hv : s.val x = .live v) :
    FList.take s x = .ok (v, { s with val := upd s.val x .moved }) ∧ Inv { s with val := upd s.val x .moved } ns := by
  refine ⟨by simp [FList.take, i.read hx hv, bind, Except.bind], ⟨i.line, i.pl.lim, i.pl.part, ?_, ?_⟩⟩
  · intro n hn
    by_cases h : n = x
    · subst h; simp
    · simp only [upd_other _ _ h]; exact i.pl.used n hn
  · intro n hn
    have : n ≠ x := by rintro rfl; exact (List.nodup_append.1 i.pl.nd).2.2 n hx n hn rfl
    simp only [upd_other _ _ this]; exact i.pl.raw n hn

theorem moveAll_ok : ∀ (k : Nat) {a b : St α} {A YA Y : List Nat} {wy : List α}, Inv a A → Inv b (YA ++ Y) → Vals b Y wy → A.length + wy.length ≤ a.cap → wy.length ≤ k →
    ∃ a' b' N, moveAll a b (lst S A) (hd 0 Y) k = .ok (a', b', .ok) ∧ Inv a' (A ++ N) ∧ Same a a' ∧ Vals a' N wy ∧ (∀ z ∈ A, a'.val z = a.val z) ∧ Inv b' (YA ++ Y) ∧ Same b b'
  | k, a, b, A, YA, Y, [], ia, ib, hv, _, _ => by
    have hY := hv.nil_split; subst hY
    exact ⟨a, b, [], by cases k <;> simp [moveAll], by simpa using ia, Same.refl a, rfl, fun _ _ => rfl, ib, Same.refl b⟩
  | 0, _, _, _, _, _, _ :: _, _, _, _, _, h => by simp at h
  | k + 1, a, b, A, YA, Y, w :: wy, ia, ib, hv, hc, hk => by
    obtain ⟨y, N, rfl, hy, hN⟩ := hv.cons_split
    have hy0 : y ≠ 0 := ib.ne0 (by simp)
    simp only [List.length_cons] at hc hk
    obtain ⟨et, ib1⟩ := take_ok ib (x := y) (by simp) hy
    obtain ⟨hf, hfr⟩ := ia.not_full (by omega)
    obtain ⟨a1, n, e1, i1, sm1, v1, v2⟩ := append_ok ia hfr w
    have hN1 : Vals { b with val := upd b.val y .moved } N wy := hN.congr (fun z hz => upd_other _ _ (by
      rintro rfl; exact (List.nodup_cons.1 (List.nodup_append.1 ib.nodup).2.1).1 hz))
    have ib2 : Inv { b with val := upd b.val y .moved } (YA ++ [y] ++ N) := by simpa using ib1
    have hnx := ib2.nxl; rw [lst_concat] at hnx
    obtain ⟨a2, b2, M, e2, i2, sm2, v3, v4, ib3, smb⟩ := moveAll_ok k i1 ib2 hN1 (by rw [sm1.1]; simp; omega) (by omega)
    rw [lst_concat] at e2
    refine ⟨a2, b2, n :: M, ?_, by simpa using i2, sm1.trans sm2, ?_, fun z hz => ?_, by simpa using ib3, smb⟩
    · rw [hd_cons, moveAll, if_pos hy0, hf, if_neg (by simp)]
      simp only [et, e1, bind, Except.bind]
      rw [hnx]; simp only [e2]
    · rw [Vals, List.map_cons, List.map_cons, v3, v4 n (by simp), v1]
    · rw [v4 z (by simp [hz])]; exact v2 z hz

end Etl.FList
