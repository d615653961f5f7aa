import Verif.List.Lemmas
import Batteries.Tactic.SeqFocus
import Mathlib.Tactic.ByContra

/-!
# Lemmas about the loops of the list model
-/
namespace Etl.DList
open Links
variable {α : Type}

theorem nodeAt_app0 (A B : List Nat) : nodeAt T (A ++ B) A.length = nodeAt T B 0 := by
  have := nodeAt_append T A B 0; simpa using this

/-- cells that hold the values `l` -/
abbrev Vals (s : St α) (ns : List Nat) (l : List α) : Prop := ns.map s.val = l.map Cell.live

theorem Vals.len {s : St α} {ns : List Nat} {l : List α} (h : Vals s ns l) : ns.length = l.length := by
  have := congrArg List.length h; simpa using this
theorem Vals.congr {s s' : St α} {ns : List Nat} {l : List α} (h : Vals s ns l) (he : ∀ y ∈ ns, s'.val y = s.val y) : Vals s' ns l := by
  rw [Vals, List.map_congr_left he]; exact h
theorem live_inj : Function.Injective (Cell.live : α → Cell α) := fun a b h => by cases h; rfl
theorem Vals.split {s : St α} {ns : List Nat} {la lb : List α} (h : Vals s ns (la ++ lb)) : ∃ A B, ns = A ++ B ∧ Vals s A la ∧ Vals s B lb := by
  rw [Vals, List.map_append] at h
  obtain ⟨A, B, rfl, h1, h2⟩ := List.map_eq_append_iff.1 h
  exact ⟨A, B, rfl, h1, h2⟩
theorem Vals.cons_split {s : St α} {ns : List Nat} {v : α} {l : List α} (h : Vals s ns (v :: l)) : ∃ x N, ns = x :: N ∧ s.val x = .live v ∧ Vals s N l := by
  rw [Vals, List.map_cons] at h
  obtain ⟨x, N, rfl, h1, h2⟩ := List.map_eq_cons_iff.1 h
  exact ⟨x, N, rfl, h1, h2⟩
theorem Vals.nil_split {s : St α} {ns : List Nat} (h : Vals s ns ([] : List α)) : ns = [] := by simpa [Vals] using h
theorem Vals.append {s : St α} {A B : List Nat} {la lb : List α} (h1 : Vals s A la) (h2 : Vals s B lb) : Vals s (A ++ B) (la ++ lb) := by
  rw [Vals, List.map_append, List.map_append, h1, h2]

theorem addAt_ok' {s : St α} {A B : List Nat} (i : Inv s (A ++ B)) (hf : A.length + B.length < s.cap) (v : α) :
    ∃ s' n, addAt s (nodeAt T B 0) v = .ok (s', some n) ∧ Inv s' (A ++ n :: B) ∧ Same s s' ∧ s'.val n = .live v ∧ (∀ y ∈ A ++ B, s'.val y = s.val y) := by
  have hne : s.free ≠ [] := by
    intro h; have := i.pl.len; rw [h] at this; simp at this; omega
  obtain ⟨s', n, e, i', sm, hv, _⟩ := addAt_ok i hne v
  rw [nodeAt_app0] at e
  rw [List.map_append, List.map_cons] at hv
  obtain ⟨h1, h2⟩ := List.append_inj hv (by simp)
  obtain ⟨h2, h3⟩ := List.cons.inj h2
  refine ⟨s', n, e, i', sm, h2, fun y hy => ?_⟩
  rcases List.mem_append.1 hy with hy | hy
  · exact List.map_inj_left.1 h1 y hy
  · exact List.map_inj_left.1 h3 y hy

theorem full_false {s : St α} {ns : List Nat} (p : Pl s ns) (h : ns.length < s.cap) : full s = false := by
  cases hf : full s with
  | false => rfl
  | true => have := p.full_len.1 hf; omega
theorem full_true {s : St α} {ns : List Nat} (p : Pl s ns) (h : ns.length = s.cap) : full s = true := p.full_len.2 h

theorem insertAll_ok : ∀ (vs : List α) {s : St α} {A B : List Nat}, Inv s (A ++ B) →
    ∃ s' N, insertAll s (nodeAt T B 0) vs = .ok (s', if A.length + B.length + vs.length ≤ s.cap then .ok else .err .full) ∧ Inv s' (A ++ N ++ B) ∧ Same s s' ∧
      Vals s' N (vs.take (s.cap - (A.length + B.length))) ∧ (∀ y ∈ A ++ B, s'.val y = s.val y)
  | [], s, A, B, i => by
    have := i.len; simp at this
    exact ⟨s, [], by simp [insertAll, this], by simpa using i, Same.refl s, by simp [Vals], fun _ _ => rfl⟩
  | v :: vs, s, A, B, i => by
    have hl := i.len; simp at hl
    by_cases hc : A.length + B.length < s.cap
    · obtain ⟨s1, n, e1, i1, sm1, v1, v2⟩ := addAt_ok' i hc v
      have i1' : Inv s1 ((A ++ [n]) ++ B) := by simpa using i1
      obtain ⟨s2, N, e2, i2, sm2, v3, v4⟩ := insertAll_ok vs i1'
      refine ⟨s2, n :: N, ?_, by simpa using i2, sm1.trans sm2, ?_, fun y hy => ?_⟩
      · unfold insertAll
        rw [full_false i.pl (by simpa using hc)]
        simp only [e1, e2, bind, Except.bind, sm1.1, List.length_append, List.length_cons, List.length_nil]
        simp only [Bool.false_eq_true, if_false]
        congr 2
        have : (A.length + (0 + 1) + B.length + vs.length ≤ s.cap) ↔ (A.length + B.length + (vs.length + 1) ≤ s.cap) := by omega
        simp only [this]
      · have h1 : s.cap - (A.length + B.length) = (s.cap - (A.length + 1 + B.length)) + 1 := by omega
        rw [h1, List.take_succ_cons]
        rw [sm1.1] at v3
        simp only [List.length_append, List.length_cons, List.length_nil, Nat.zero_add] at v3
        rw [Vals, List.map_cons, List.map_cons, v3, v4 n (by simp), v1]
      · rw [v4 y (by simp at hy ⊢; tauto)]; exact v2 y hy
    · have hx : s.cap - (A.length + B.length) = 0 := by omega
      refine ⟨s, [], ?_, by simpa using i, Same.refl s, by simp [Vals, hx], fun _ _ => rfl⟩
      unfold insertAll
      rw [full_true i.pl (by simp; omega), if_pos rfl, if_neg (by simp; omega)]

theorem appendAll_ok : ∀ (vs : List α) {s : St α} {A : List Nat}, Inv s A →
    ∃ s' N, appendAll s vs = .ok (s', if A.length + vs.length ≤ s.cap then .ok else .err .noAlloc) ∧ Inv s' (A ++ N) ∧ Same s s' ∧
      Vals s' N (vs.take (s.cap - A.length)) ∧ (∀ y ∈ A, s'.val y = s.val y)
  | [], s, A, i => by
    have := i.len
    exact ⟨s, [], by simp [appendAll, this], by simpa using i, Same.refl s, by simp [Vals], fun _ _ => rfl⟩
  | v :: vs, s, A, i => by
    have hl := i.len
    by_cases hc : A.length < s.cap
    · have i0 : Inv s (A ++ []) := by simpa using i
      obtain ⟨s1, n, e1, i1, sm1, v1, v2⟩ := addAt_ok' i0 (by simpa using hc) v
      obtain ⟨s2, N, e2, i2, sm2, v3, v4⟩ := appendAll_ok vs i1
      refine ⟨s2, n :: N, ?_, by simpa using i2, sm1.trans sm2, ?_, fun y hy => ?_⟩
      · unfold appendAll
        have hT : nodeAt T ([] : List Nat) 0 = T := rfl
        rw [hT] at e1
        simp only [addAt, bind, Except.bind] at e1
        cases ha : allocate s v with
        | error u => rw [ha] at e1; cases e1
        | ok o =>
          rw [ha] at e1
          cases o with
          | none => simp at e1
          | some q =>
            obtain ⟨m, sa⟩ := q
            simp only [insertNode, bind, Except.bind] at e1
            simp only [bind, Except.bind]
            cases h1 : sa.h.prev T with
            | error u => rw [h1] at e1; cases e1
            | ok p =>
              rw [h1] at e1; simp only at e1 ⊢
              cases h2 : sa.h.join p m with
              | error u => rw [h2] at e1; cases e1
              | ok k =>
                rw [h2] at e1; simp only at e1 ⊢
                cases h3 : k.join m T with
                | error u => rw [h3] at e1; cases e1
                | ok k' =>
                  rw [h3] at e1; simp only at e1 ⊢
                  simp only [Except.ok.injEq, Prod.mk.injEq] at e1
                  rw [e1.1, e2, sm1.1]
                  simp only [List.length_append, List.length_cons, List.length_nil]
                  have : (A.length + (0 + 1) + vs.length ≤ s.cap) ↔ (A.length + (vs.length + 1) ≤ s.cap) := by omega
                  simp only [this]
      · have h1 : s.cap - A.length = (s.cap - (A.length + 1)) + 1 := by omega
        rw [h1, List.take_succ_cons]
        rw [sm1.1] at v3
        simp only [List.length_append, List.length_cons, List.length_nil, Nat.zero_add] at v3
        rw [Vals, List.map_cons, List.map_cons, v3, v4 n (by simp), v1]
      · rw [v4 y (by simp [hy])]; exact v2 y (by simpa using hy)
    · have hx : s.cap - A.length = 0 := by omega
      refine ⟨s, [], ?_, by simpa using i, Same.refl s, by simp [Vals, hx], fun _ _ => rfl⟩
      unfold appendAll
      have hf : s.free = [] := i.pl.full_iff.1 (full_true i.pl (by omega))
      simp only [allocate, hf, bind, Except.bind]
      rw [if_neg (by simp; omega)]

theorem valid_at {s : St α} {A B : List Nat} (i : Inv s (A ++ B)) : s.h.valid (nodeAt T B 0) := by
  cases B with
  | nil => exact i.circ.tv
  | cons b B => exact i.valid (by simp [nodeAt])
theorem at_ne {s : St α} {A B : List Nat} {b : Nat} (i : Inv s (A ++ b :: B)) : nodeAt T (b :: B) 0 ≠ T := i.neT (by simp [nodeAt])

theorem removeLoop_ok (f : α → Bool) : ∀ (k : Nat) {s : St α} {A B : List Nat} {vb : List α}, Inv s (A ++ B) → Vals s B vb → vb.length < k →
    ∃ s' B', removeLoop f s (nodeAt T B 0) k = .ok s' ∧ Inv s' (A ++ B') ∧ Same s s' ∧ Vals s' B' (vb.filter (fun x => !f x)) ∧ (∀ y ∈ A, s'.val y = s.val y)
  | 0, _, _, _, _, _, _, h => by omega
  | k + 1, s, A, B, [], i, hv, _ => by
    have hB := hv.nil_split; subst hB
    exact ⟨s, [], by simp [removeLoop, nodeAt], i, Same.refl s, by simp [Vals], fun _ _ => rfl⟩
  | k + 1, s, A, B, v :: vb, i, hv, hk => by
    obtain ⟨x, N, rfl, hx, hN⟩ := hv.cons_split
    have hxT : x ≠ T := i.neT (by simp)
    have hr := i.read (x := x) (by simp) hx
    have hnA : ∀ y ∈ A, y ≠ x := by
      intro y hy e
      exact (List.nodup_append.1 i.nodup).2.2 y hy x (by simp) e
    by_cases hf : f v = true
    · obtain ⟨s1, e1, i1, sm1, v1⟩ := erase_ok i
      obtain ⟨s2, B', e2, i2, sm2, v2, v3⟩ := removeLoop_ok f k i1 (hN.congr (fun y hy => v1 y (by simp [hy]))) (by simp at hk; omega)
      refine ⟨s2, B', ?_, i2, sm1.trans sm2, ?_, fun y hy => (v3 y hy).trans (v1 y (by simp [hy]))⟩
      · show removeLoop f s x (k + 1) = _
        unfold removeLoop
        rw [if_pos hxT]
        simp only [hr, hf, e1, e2, bind, Except.bind, if_true]
      · simpa [hf] using v2
    · have i1 : Inv s ((A ++ [x]) ++ N) := by simpa using i
      obtain ⟨s2, B', e2, i2, sm2, v2, v3⟩ := removeLoop_ok f k i1 hN (by simp at hk; omega)
      have hf' : f v = false := by simpa using hf
      refine ⟨s2, x :: B', ?_, by simpa using i2, sm2, ?_, fun y hy => v3 y (by simp [hy])⟩
      · show removeLoop f s x (k + 1) = _
        unfold removeLoop
        rw [if_pos hxT]
        simp only [hr, hf', next_ok (i.valid (x := x) (by simp)), i.nx_mid, e2, bind, Except.bind]
        simp
      · rw [List.filter_cons, hf']
        simp only [Bool.not_false, if_true]
        rw [Vals, List.map_cons, List.map_cons, v2, v3 x (by simp), hx]

/-- `unique`: drop each element that equals the last one kept. -/
def uniq (eq : α → α → Bool) (a : α) : List α → List α
  | [] => [a]
  | b :: l => if eq a b then uniq eq a l else a :: uniq eq b l

theorem uniqueLoop_ok (eq : α → α → Bool) : ∀ (k : Nat) {s : St α} {A B : List Nat} {p : Nat} {a : α} {vb : List α}, Inv s (A ++ p :: B) → s.val p = .live a → Vals s B vb → vb.length < k →
    ∃ s' B', uniqueLoop eq s p (nodeAt T B 0) k = .ok s' ∧ Inv s' (A ++ B') ∧ Same s s' ∧ Vals s' B' (uniq eq a vb) ∧ (∀ y ∈ A, s'.val y = s.val y)
  | 0, _, _, _, _, _, _, _, _, _, h => by omega
  | k + 1, s, A, B, p, a, [], i, hp, hv, _ => by
    have hB := hv.nil_split; subst hB
    exact ⟨s, [p], by simp [uniqueLoop, nodeAt], i, Same.refl s, by simp [Vals, uniq, hp], fun _ _ => rfl⟩
  | k + 1, s, A, B, p, a, v :: vb, i, hp, hv, hk => by
    obtain ⟨x, N, rfl, hx, hN⟩ := hv.cons_split
    have hxT : x ≠ T := i.neT (by simp)
    have hr := i.read (x := x) (by simp) hx
    have hrp := i.read (x := p) (by simp) hp
    have i0 : Inv s ((A ++ [p]) ++ x :: N) := by simpa using i
    by_cases hf : eq a v = true
    · obtain ⟨s1, e1, i1, sm1, v1⟩ := erase_ok i0
      have i1' : Inv s1 (A ++ p :: N) := by simpa using i1
      obtain ⟨s2, B', e2, i2, sm2, v2, v3⟩ := uniqueLoop_ok eq k (a := a) i1' (by rw [v1 p (by simp)]; exact hp) (hN.congr (fun y hy => v1 y (by simp [hy]))) (by simp at hk; omega)
      refine ⟨s2, B', ?_, i2, sm1.trans sm2, ?_, fun y hy => (v3 y hy).trans (v1 y (by simp [hy]))⟩
      · show uniqueLoop eq s p x (k + 1) = _
        unfold uniqueLoop
        rw [if_pos hxT]
        simp only [hr, hrp, hf, e1, e2, bind, Except.bind, if_true]
      · simpa [hf, uniq] using v2
    · obtain ⟨s2, B', e2, i2, sm2, v2, v3⟩ := uniqueLoop_ok eq k (a := v) i0 hx hN (by simp at hk; omega)
      have hf' : eq a v = false := by simpa using hf
      refine ⟨s2, p :: B', ?_, by simpa using i2, sm2, ?_, fun y hy => v3 y (by simp [hy])⟩
      · show uniqueLoop eq s p x (k + 1) = _
        unfold uniqueLoop
        rw [if_pos hxT]
        simp only [hr, hrp, hf', next_ok (i.valid (x := x) (by simp)), i0.nx_mid, e2, bind, Except.bind]
        simp
      · simp only [uniq, hf', Bool.false_eq_true, if_false]
        rw [Vals, List.map_cons, List.map_cons, v2, v3 p (by simp), hp]

/-! ### reverse -/

theorem reverseLoop_ok : ∀ (k : Nat) {h : Links} {M : List Nat}, Fw h (M ++ [T]) → (M ++ [T]).Nodup → (∀ x ∈ M ++ [T], h.valid x) → M.length < k →
    ∃ h', reverseLoop h (nodeAt T M 0) k = .ok h' ∧ h'.lim = h.lim ∧ (∀ x ∈ M ++ [T], h'.nx x = h.pv x ∧ h'.pv x = h.nx x)
      ∧ (∀ x, x ∉ M ++ [T] → h'.nx x = h.nx x ∧ h'.pv x = h.pv x)
  | 0, _, _, _, _, _, h => by omega
  | k + 1, h, [], _, _, hv, _ => by
    have hT := hv T (by simp)
    refine ⟨{ h with pv := upd h.pv T (h.nx T), nx := upd h.nx T (h.pv T) }, ?_, rfl, ?_, ?_⟩
    · simp [reverseLoop, nodeAt, next_ok hT, prev_ok hT, bind, Except.bind]
    · intro x hx; have : x = T := by simpa using hx
      subst this; simp
    · intro x hx; have : x ≠ T := by simpa using hx
      simp [upd_other _ _ this]
  | k + 1, h, x :: M, f, nd, hv, hk => by
    have hx := hv x (by simp)
    have nd' := List.nodup_cons.1 (show (x :: (M ++ [T])).Nodup from nd)
    have hxT : x ≠ T := by rintro rfl; exact nd'.1 (by simp)
    have f' : Fw ({ h with pv := upd h.pv x (h.nx x), nx := upd h.nx x (h.pv x) } : Links) (M ++ [T]) := by
      refine (Fw.tail (a := x) f).frame (fun y hy => upd_other _ _ ?_)
      rintro rfl; exact nd'.1 (List.dropLast_subset _ hy)
    obtain ⟨h', e, l1, s1, s2⟩ := reverseLoop_ok k f' nd'.2 (fun y hy => hv y (List.mem_cons_of_mem _ hy)) (by simp at hk; omega)
    have hnx : h.nx x = nodeAt T M 0 := by
      cases M with
      | nil => exact f.1
      | cons b M => exact f.1
    refine ⟨h', ?_, l1, ?_, ?_⟩
    · show reverseLoop h x (k + 1) = _
      unfold reverseLoop
      rw [hnx] at e
      simp only [next_ok hx, prev_ok hx, hnx, bind, Except.bind]
      rw [if_pos hxT]; exact e
    · intro y hy
      by_cases hyx : y = x
      · subst hyx
        have := s2 y nd'.1
        rw [this.1, this.2]; simp
      · have := s1 y (by simpa [hyx] using hy)
        rw [this.1, this.2]; simp [upd_other _ _ hyx]
    · intro y hy
      have hyx : y ≠ x := by rintro rfl; exact hy (by simp)
      have := s2 y (fun z => hy (List.mem_cons_of_mem _ z))
      rw [this.1, this.2]; simp [upd_other _ _ hyx]

/-! ### moving a range -/

theorem moveLinks_ok {h : Links} {A M B P Q : List Nat} (c : Circle h T (A ++ M ++ B)) (hM : M ≠ []) (e : A ++ B = P ++ Q) :
    ∃ h', moveLinks h (nodeAt T Q 0) (M.head hM) (nodeAt T B 0) = .ok h' ∧ h'.lim = h.lim ∧ Circle h' T (P ++ M ++ Q) := by
  obtain ⟨h1, h2, h3⟩ := c.cut
  have hnd := c.nd
  have hTM : T ∉ M := fun x => (List.nodup_cons.1 hnd).1 (by simp [x])
  have hnd' := (List.nodup_cons.1 hnd).2
  rw [List.append_assoc] at hnd'
  have hAM : ∀ x ∈ A, x ∉ M := fun x hx hy => (List.nodup_append.1 hnd').2.2 x hx x (by simp [hy]) rfl
  have hBM : ∀ x ∈ M, x ∉ B := fun x hx hy => (List.nodup_append.1 (List.nodup_append.1 hnd').2.1).2.2 x hx x hy rfl
  have hp : (T :: A).getLast (by simp) ∉ M := by
    have := List.getLast_mem (l := T :: A) (by simp)
    rcases List.mem_cons.1 this with h | h
    · rw [h]; exact hTM
    · exact hAM _ h
  have hq : (B ++ [T]).head (by simp) ∉ M := by
    have := List.head_mem (l := B ++ [T]) (by simp)
    rcases List.mem_append.1 this with h | h
    · exact fun x => hBM _ x h
    · rw [List.mem_singleton.1 h]; exact hTM
  have hchM : Ch h M := by
    have := c.ch
    rw [show T :: (A ++ M ++ B) ++ [T] = (T :: A) ++ (M ++ (B ++ [T])) by simp] at this
    exact this.right.left
  have hchM' : Ch (h.joined ((T :: A).getLast (by simp)) ((B ++ [T]).head (by simp))) M :=
    hchM.join_frame (fun x => hp (List.dropLast_subset _ x)) (fun x => hq (List.mem_of_mem_tail x))
  have hval : ∀ x ∈ M, h.valid x := fun x hx => c.ok x (by simp [hx])
  have h3' := h3
  rw [e] at h3
  have hperm : (T :: (P ++ Q) ++ M).Perm (T :: (A ++ M ++ B)) := by
    rw [← e]
    simp only [List.cons_append, List.append_assoc]
    exact (List.Perm.append_left A List.perm_append_comm).cons T
  obtain ⟨g1, g2, g3, g4, g5⟩ := h3.insertSeg (N := M) hM rfl rfl hchM' (hperm.nodup_iff.2 hnd) (fun x hx => hval x hx)
  rw [nodeAt_app0] at g1 g2 g5
  have hfv := hval _ (List.head_mem hM)
  -- links read from the original circle
  have hpvf : h.pv (M.head hM) = (T :: A).getLast (by simp) := by
    obtain ⟨m, M', rfl⟩ := List.exists_cons_of_ne_nil hM
    obtain ⟨P', p, q, S, e1, e2, _, _, _, e4⟩ := Circle.split (A := A) (B := (m :: M') ++ B) (by rw [← List.append_assoc]; exact c)
    simp only [List.cons_append, List.cons.injEq] at e2
    rw [List.head_cons, e2.1, e4]
    simp [e1]
  have hpvl : h.pv (nodeAt T B 0) = M.getLast hM := by
    obtain ⟨P', p, q, S, e1, e2, _, _, _, e4⟩ := Circle.split c
    have : nodeAt T B 0 = q := by
      rw [← head_nodeAt T B (by simp)]; simp [e2]
    rw [this, e4]
    have e5 : (T :: (A ++ M)).getLast (by simp) = p := by simp [e1]
    rw [← e5, List.getLast_cons (by simp [hM]), List.getLast_append_of_ne_nil _ hM]
  have hlv : h.valid (nodeAt T B 0) := by rw [← head_nodeAt T B (by simp)]; exact h2
  rw [head_nodeAt] at h2
  refine ⟨_, ?_, ?_, g5⟩
  · simp only [moveLinks, prev_ok hlv, prev_ok hfv, hpvf, hpvl, join_ok h1 h2, bind, Except.bind]
    rw [head_nodeAt] at g1 g2 g3 g4
    rw [prev_ok g2]
    simp only
    rw [join_ok g1 g3]
    simp only
    rw [join_ok (by simpa using g4) (by simpa using g2)]
    simp only [head_nodeAt]
  · rfl

theorem inRange_ok {s : St α} {ns : List Nat} (i : Inv s ns) {to last : Nat} (hto : to ≤ ns.length) (hl : last ≤ ns.length) : ∀ (k j : Nat), j ≤ last → last - j < k →
    inRange s.h (nodeAt T ns to) (nodeAt T ns j) (nodeAt T ns last) k = .ok (decide (j ≤ to ∧ to < last))
  | 0, _, _, h => by omega
  | k + 1, j, hj, hk => by
    unfold inRange
    by_cases h1 : j = last
    · subst h1
      have : ¬ (j ≤ to ∧ to < j) := by omega
      simp [this]
    · rw [if_pos (fun x => h1 ((nodeAt_inj i (by omega) hl).1 x))]
      by_cases h2 : j = to
      · subst h2
        have : j ≤ j ∧ j < last := by omega
        simp only [if_true, this, and_self, decide_true]
      · rw [if_neg (fun x => h2 ((nodeAt_inj i (by omega) hto).1 x))]
        have hjl : j < ns.length := by omega
        have := inRange_ok i hto hl k (j + 1) (by omega) (by omega)
        simp only [nodeAt_lt hjl, next_ok (i.valid (List.getElem_mem hjl)), i.circ.nx_at hjl, bind, Except.bind]
        rw [this]
        congr 1
        have : (j + 1 ≤ to ∧ to < last) ↔ (j ≤ to ∧ to < last) := by omega
        simp only [this]

end Etl.DList
