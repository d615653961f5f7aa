import Verif.List.Ops

/-!
# Lemmas about the two-list operations
-/
namespace Etl.DList
open Links
variable {α : Type}

theorem mapM_read {s : St α} {ns : List Nat} (i : Inv s ns) : ∀ {B : List Nat} {vb : List α}, (∀ x ∈ B, x ∈ ns) → Vals s B vb → B.mapM (read s) = (.ok vb : Res (List α))
  | [], vb, _, hv => by
    have : vb = [] := by have := hv.len; simpa using this.symm
    subst this; rfl
  | x :: B, [], _, hv => by simp [Vals] at hv
  | x :: B, v :: vb, hs, hv => by
    rw [Vals, List.map_cons, List.map_cons] at hv
    obtain ⟨h1, h2⟩ := List.cons.inj hv
    have := mapM_read i (fun y hy => hs y (List.mem_cons_of_mem _ hy)) h2
    rw [List.mapM_cons, i.read (hs x (by simp)) h1]
    simp only [bind, Except.bind, pure, Except.pure, this]

/-- The segment between two positions, by iteration. -/
theorem walk_seg {s : St α} : ∀ (k : Nat) {A M B : List Nat}, Inv s (A ++ M ++ B) → M.length < k →
    s.h.walk (nodeAt T B 0) (nodeAt T (M ++ B) 0) k = .ok M
  | 0, _, _, _, _, h => by omega
  | k + 1, A, [], B, i, _ => by simp [Links.walk]
  | k + 1, A, m :: M, B, i, h => by
    have i' : Inv s (A ++ m :: (M ++ B)) := by simpa using i
    have hne : m ≠ nodeAt T B 0 := by
      cases B with
      | nil => exact i.neT (by simp)
      | cons b B =>
        simp only [nodeAt, List.getElem?_cons_zero, Option.getD_some]
        rintro rfl
        have hnd := i'.nodup
        exact (List.nodup_cons.1 (List.nodup_append.1 hnd).2.1).1 (by simp)
    have := walk_seg k (A := A ++ [m]) (M := M) (B := B) (by simpa using i) (by simp at h; omega)
    show s.h.walk (nodeAt T B 0) m (k + 1) = _
    unfold Links.walk
    rw [if_neg hne]
    simp only [next_ok (i.valid (x := m) (by simp)), i'.nx_mid, this, bind, Except.bind]

theorem values_ok {s : St α} {ns : List Nat} {l : List α} (i : Inv s ns) (hv : Vals s ns l) : values s = .ok l := by
  have hw := walk_seg (s.cap + 1) (A := []) (M := ns) (B := []) (by simpa using i) (by have := i.len; omega)
  simp only [List.append_nil] at hw
  simp only [values, next_ok i.circ.tv, i.circ.first, bind, Except.bind]
  rw [show nodeAt T ([] : List Nat) 0 = T from rfl] at hw
  rw [hw]
  exact mapM_read i (fun _ h => h) hv

theorem isSorted_iff {lt : α → α → Bool} (h : StrictWeak lt) : ∀ (l : List α), isSorted lt l = true ↔ SortedBy lt l
  | [] => by simp [isSorted, SortedBy]
  | [x] => by simp [isSorted, SortedBy]
  | x :: y :: l => by
    rw [isSorted, Bool.and_eq_true, isSorted_iff h (y :: l)]
    unfold SortedBy
    rw [List.pairwise_cons (a := x)]
    constructor
    · rintro ⟨h1, h2⟩
      refine ⟨fun z hz => ?_, h2⟩
      rcases List.mem_cons.1 hz with rfl | hz
      · simpa using h1
      · exact h.le_trans (by simpa using h1) ((List.pairwise_cons.1 h2).1 z hz)
    · rintro ⟨h1, h2⟩
      exact ⟨by simpa using h1 y (by simp), h2⟩

section Merge
variable {lt : α → α → Bool}

theorem mergeSkip_ok {a b : St α} {YA Y : List Nat} {w : α} {y : Nat} (ib : Inv b (YA ++ y :: Y)) (hy : b.val y = .live w) :
    ∀ (k : Nat) {A B : List Nat} {lb : List α}, Inv a (A ++ B) → Vals a B lb → lb.length < k →
    ∃ B1 B2 l1 l2, B = B1 ++ B2 ∧ lb = l1 ++ l2 ∧ Vals a B1 l1 ∧ Vals a B2 l2 ∧ mergeSkip lt a b (nodeAt T B 0) y k = .ok (nodeAt T B2 0) ∧
      (∀ v ∈ l1, lt w v = false) ∧ (∀ v, l2.head? = some v → lt w v = true)
  | 0, _, _, _, _, _, h => by omega
  | k + 1, A, B, [], i, hv, _ => by
    have hB := hv.nil_split; subst hB
    exact ⟨[], [], [], [], rfl, rfl, rfl, rfl, by simp [mergeSkip, nodeAt], by simp, by simp⟩
  | k + 1, A, B, v :: lb, i, hv, hk => by
    obtain ⟨x, N, rfl, hx, hN⟩ := hv.cons_split
    have hxT : x ≠ T := i.neT (by simp)
    have hr := i.read (x := x) (by simp) hx
    have hry := ib.read (x := y) (by simp) hy
    cases hc : lt w v with
    | true =>
      refine ⟨[], x :: N, [], v :: lb, rfl, rfl, rfl, hv, ?_, by simp, by simp [hc]⟩
      show mergeSkip lt a b x y (k + 1) = .ok x
      unfold mergeSkip
      rw [if_pos hxT]
      simp [hr, hry, hc, bind, Except.bind]
    | false =>
      obtain ⟨B1, B2, l1, l2, e1, e2, v1, v2, e3, h1, h2⟩ := mergeSkip_ok ib hy k (A := A ++ [x]) (B := N) (by simpa using i) hN (by simp at hk; omega)
      refine ⟨x :: B1, B2, v :: l1, l2, by simp [e1], by simp [e2], ?_, v2, ?_, ?_, h2⟩
      · rw [Vals, List.map_cons, List.map_cons, hx, v1]
      · show mergeSkip lt a b x y (k + 1) = _
        unfold mergeSkip
        rw [if_pos hxT]
        simp only [hr, hry, hc, bind, Except.bind, Bool.not_false, if_true, next_ok (i.valid (x := x) (by simp)), i.nx_mid]
        exact e3
      · intro z hz
        rcases List.mem_cons.1 hz with rfl | hz
        · exact hc
        · exact h1 z hz

theorem mergeIns_ok {b : St α} {x : Nat} {u : α} : ∀ (k : Nat) {a : St α} {A B YA Y : List Nat} {wy : List α}, Inv a (A ++ x :: B) → a.val x = .live u → Inv b (YA ++ Y) → Vals b Y wy →
    A.length + (B.length + 1) + wy.length ≤ a.cap → wy.length < k →
    ∃ a' N Y1 Y2 w1 w2, Y = Y1 ++ Y2 ∧ wy = w1 ++ w2 ∧ mergeIns lt a b x (nodeAt T Y 0) k = .ok (a', nodeAt T Y2 0, .ok) ∧ Inv a' (A ++ N ++ x :: B) ∧ Same a a' ∧ Vals a' N w1 ∧ Vals b Y2 w2 ∧
      (∀ z ∈ A ++ x :: B, a'.val z = a.val z) ∧ (∀ v ∈ w1, lt v u = true) ∧ (∀ v, w2.head? = some v → lt v u = false)
  | 0, _, _, _, _, _, _, _, _, _, _, _, h => by omega
  | k + 1, a, A, B, YA, Y, [], ia, hx, ib, hv, _, _ => by
    have hB := hv.nil_split; subst hB
    exact ⟨a, [], [], [], [], [], rfl, rfl, by simp [mergeIns, nodeAt], by simpa using ia, Same.refl a, rfl, rfl, fun _ _ => rfl, by simp, by simp⟩
  | k + 1, a, A, B, YA, Y, w :: wy, ia, hx, ib, hv, hc, hk => by
    obtain ⟨y, N, rfl, hy, hN⟩ := hv.cons_split
    have hyT : y ≠ T := ib.neT (by simp)
    have hr := ia.read (x := x) (by simp) hx
    have hry := ib.read (x := y) (by simp) hy
    simp only [List.length_cons] at hc hk
    cases hcm : lt w u with
    | false =>
      refine ⟨a, [], [], y :: N, [], w :: wy, rfl, rfl, ?_, by simpa using ia, Same.refl a, rfl, hv, fun _ _ => rfl, by simp, by simp [hcm]⟩
      show mergeIns lt a b x y (k + 1) = .ok (a, y, .ok)
      unfold mergeIns
      rw [if_pos hyT]
      simp [hr, hry, hcm, bind, Except.bind]
    | true =>
      obtain ⟨a1, n, e1, i1, sm1, v1, v2⟩ := addAt_ok' ia (by simp; omega) w
      rw [show nodeAt T (x :: B) 0 = x from rfl] at e1
      have hff : full a = false := full_false ia.pl (by simp; omega)
      obtain ⟨a2, M, Y1, Y2, w1, w2, q1, q2, e2, i2, sm2, v3, v4, v5, h1, h2⟩ := mergeIns_ok k (a := a1) (A := A ++ [n]) (B := B) (YA := YA ++ [y]) (Y := N) (by simpa using i1) (by rw [v2 x (by simp)]; exact hx) (by simpa using ib) hN
        (by rw [sm1.1]; simp; omega) (by omega)
      refine ⟨a2, n :: M, y :: Y1, Y2, w :: w1, w2, by simp [q1], by simp [q2], ?_, by simpa using i2, sm1.trans sm2, ?_, v4, fun z hz => ?_, ?_, h2⟩
      · show mergeIns lt a b x y (k + 1) = _
        unfold mergeIns
        rw [if_pos hyT]
        simp only [hr, hry, hcm, insert, hff, e1, bind, Except.bind, if_true, Bool.false_eq_true, if_false, next_ok (ib.valid (x := y) (by simp)), ib.nx_mid, e2]
      · rw [Vals, List.map_cons, List.map_cons, v3, v5 n (by simp), v1]
      · rw [v5 z (by simp at hz ⊢; tauto)]; exact v2 z hz
      · intro z hz
        rcases List.mem_cons.1 hz with rfl | hz
        · exact hcm
        · exact h1 z hz

theorem mrg_skip (l1 : List α) (l2 r : List α) (w : α) (h : ∀ v ∈ l1, lt w v = false) : mrg lt (l1 ++ l2) (w :: r) = l1 ++ mrg lt l2 (w :: r) := by
  induction l1 with
  | nil => rfl
  | cons v l1 ih =>
    rw [List.cons_append, mrg_cons_left _ _ (h v (by simp)), ih (fun x hx => h x (List.mem_cons_of_mem _ hx))]; rfl
theorem mrg_ins (w1 : List α) (l r : List α) (u : α) (h : ∀ v ∈ w1, lt v u = true) : mrg lt (u :: l) (w1 ++ r) = w1 ++ mrg lt (u :: l) r := by
  induction w1 with
  | nil => rfl
  | cons v l1 ih =>
    rw [List.cons_append, mrg_cons_right _ _ (h v (by simp)), ih (fun x hx => h x (List.mem_cons_of_mem _ hx))]; rfl

theorem mergeLoop_ok {b : St α} : ∀ (k : Nat) {a : St α} {A B YA Y : List Nat} {la lb wy : List α}, Inv a (A ++ B) → Vals a A la → Vals a B lb → Inv b (YA ++ Y) → Vals b Y wy →
    A.length + B.length + wy.length ≤ a.cap → wy.length + (if lb = [] then 0 else 1) < k →
    ∃ a' A' B' Y' la' lb' wy', mergeLoop lt a b (nodeAt T B 0) (nodeAt T Y 0) k = .ok (a', nodeAt T B' 0, nodeAt T Y' 0, .ok) ∧ Inv a' (A' ++ B') ∧ Same a a' ∧ Vals a' A' la' ∧ Vals a' B' lb' ∧
      (∃ YA', YA ++ Y = YA' ++ Y') ∧ Vals b Y' wy' ∧ (lb' = [] ∨ wy' = []) ∧ la' ++ lb' ++ wy' = la ++ mrg lt lb wy
  | 0, _, _, _, _, _, _, _, _, _, _, _, _, _, _, h => by omega
  | k + 1, a, A, B, YA, Y, la, lb, wy, ia, hA, hB, ib, hY, hc, hk => by
    by_cases h0 : lb = [] ∨ wy = []
    · refine ⟨a, A, B, Y, la, lb, wy, ?_, ia, Same.refl a, hA, hB, ⟨YA, rfl⟩, hY, h0, ?_⟩
      · unfold mergeLoop
        rw [if_neg]
        rintro ⟨x1, x2⟩
        rcases h0 with rfl | rfl
        · exact x1 (by rw [hB.nil_split]; rfl)
        · exact x2 (by rw [hY.nil_split]; rfl)
      · rcases h0 with rfl | rfl
        · simp [mrg_nil_left]
        · simp [mrg_nil_right]
    · obtain ⟨hb0, hw0⟩ : lb ≠ [] ∧ wy ≠ [] := by simpa [not_or] using h0
      obtain ⟨w, wr, rfl⟩ := List.exists_cons_of_ne_nil hw0
      obtain ⟨y, N, rfl, hy, hN⟩ := hY.cons_split
      have hyT : y ≠ T := ib.neT (by simp)
      have hxT : nodeAt T B 0 ≠ T := by
        obtain ⟨v, lr, rfl⟩ := List.exists_cons_of_ne_nil hb0
        obtain ⟨x, M, rfl, _, _⟩ := hB.cons_split
        exact ia.neT (by simp [nodeAt])
      have hlen := hB.len
      obtain ⟨B1, B2, l1, l2, e1, e2, v1, v2, e3, h1, h2⟩ := mergeSkip_ok (lt := lt) ib hy (a.cap + 1) ia hB (by have := ia.len; simp at this; omega)
      subst e1; subst e2
      have hA' : Vals a (A ++ B1) (la ++ l1) := hA.append v1
      have ia' : Inv a ((A ++ B1) ++ B2) := by simpa using ia
      cases l2 with
      | nil =>
        have hB2 := v2.nil_split; subst hB2
        have e4 := mergeLoop_ok k (b := b) ia' hA' v2 ib hY (by simpa using hc) (by simp [hb0] at hk ⊢; simp at hb0; simp [hb0] at hk; omega)
        obtain ⟨a', A', B', Y', la', lb', wy', q1, q2, q3, q4, q5, q6, q7, q8, q9⟩ := e4
        refine ⟨a', A', B', Y', la', lb', wy', ?_, q2, q3, q4, q5, q6, q7, q8, ?_⟩
        · unfold mergeLoop
          rw [if_pos ⟨hxT, hyT⟩]
          rw [show nodeAt T (y :: N) 0 = y from rfl] at q1 ⊢
          simp only [e3, bind, Except.bind]
          rw [if_neg (by simp [nodeAt])]
          exact q1
        · rw [q9, mrg_skip _ _ _ _ h1]; simp
      | cons u l2 =>
        obtain ⟨x, M, rfl, hx, hM⟩ := v2.cons_split
        have hux := h2 u rfl
        have hlen1 := v1.len; have hlen2 := hM.len; have hlen3 := hN.len
        have hcap := ib.len
        simp only [List.length_append, List.length_cons] at hc hlen hk hcap
        obtain ⟨a1, Ns, Y1, Y2, w1, w2, q1, q2, e4, i1, sm1, v3, v4, v5, g1, g2⟩ := mergeIns_ok (lt := lt) (b.cap + 1) ia' hx ib hY (by simp; omega) (by simp; omega)
        have hw1 : w1 ≠ [] := by
          rintro rfl
          have := g2 w (by simp only [List.nil_append] at q2; rw [← q2]; rfl)
          rw [this] at hux; simp at hux
        have hl1 : 0 < w1.length := List.length_pos_iff.2 hw1
        have hlw : w1.length + w2.length = wr.length + 1 := by have := congrArg List.length q2; simpa using this.symm
        have hV1 := v3.len
        obtain ⟨a', A', B', Y', la', lb', wy', r1, r2, r3, r4, r5, ⟨YA', r6⟩, r7, r8, r9⟩ := mergeLoop_ok k (a := a1) (b := b) (A := A ++ B1 ++ Ns) (B := x :: M) (YA := YA ++ Y1) (Y := Y2) (la := la ++ l1 ++ w1) (lb := u :: l2) (wy := w2) i1
          ((hA'.congr (fun z hz => v5 z (by simp only [List.mem_append] at hz ⊢; tauto))).append v3)
          (v2.congr (fun z hz => v5 z (List.mem_append_right _ hz)))
          (by rw [List.append_assoc, ← q1]; exact ib) v4 (by rw [sm1.1]; simp; omega) (by simp at hk ⊢; omega)
        refine ⟨a', A', B', Y', la', lb', wy', ?_, r2, sm1.trans r3, r4, r5, ⟨YA', by rw [← r6, q1]; simp⟩, r7, r8, ?_⟩
        · unfold mergeLoop
          rw [if_pos ⟨hxT, hyT⟩]
          rw [show nodeAt T (y :: N) 0 = y from rfl] at e4 ⊢
          rw [show nodeAt T (x :: M) 0 = x from rfl] at e3 r1
          simp only [e3, bind, Except.bind]
          rw [if_pos (ia.neT (by simp))]
          simp only [e4]
          exact r1
        · rw [r9, mrg_skip _ _ _ _ h1, q2, mrg_ins _ _ _ _ g1]; simp
end Merge

/-- `take`: the node's value is moved out. -/
theorem take_ok {s : St α} {ns : List Nat} (i : Inv s ns) {x : Nat} (hx : x ∈ ns) {v : α} (hv : s.val x = .live v) :
    take s x = .ok (v, { s with val := upd s.val x .moved }) ∧ Inv { s with val := upd s.val x .moved } ns := by
  refine ⟨by simp [take, i.read hx hv, bind, Except.bind], i.circ, ⟨i.pl.lim, i.pl.part, fun n hn => ?_, fun n hn => ?_⟩⟩
  · by_cases e : n = x
    · subst e; simp
    · simp only [upd_other _ _ e]; exact i.pl.used n hn
  · have : n ≠ x := by rintro rfl; exact (List.nodup_append.1 i.pl.nd).2.2 n hx n hn rfl
    simp only [upd_other _ _ this]; exact i.pl.raw n hn

theorem moveAll_ok : ∀ (k : Nat) {a b : St α} {A YA Y : List Nat} {wy : List α}, Inv a A → Inv b (YA ++ Y) → Vals b Y wy → A.length + wy.length ≤ a.cap → wy.length < k →
    ∃ a' b' N, moveAll a b (nodeAt T Y 0) k = .ok (a', b', .ok) ∧ Inv a' (A ++ N) ∧ Same a a' ∧ Vals a' N wy ∧ (∀ z ∈ A, a'.val z = a.val z) ∧ Inv b' (YA ++ Y) ∧ Same b b'
  | 0, _, _, _, _, _, _, _, _, _, _, h => by omega
  | k + 1, a, b, A, YA, Y, [], ia, ib, hv, _, _ => by
    have hY := hv.nil_split; subst hY
    exact ⟨a, b, [], by simp [moveAll, nodeAt], by simpa using ia, Same.refl a, rfl, fun _ _ => rfl, ib, Same.refl b⟩
  | k + 1, a, b, A, YA, Y, w :: wy, ia, ib, hv, hc, hk => by
    obtain ⟨y, N, rfl, hy, hN⟩ := hv.cons_split
    have hyT : y ≠ T := ib.neT (by simp)
    simp only [List.length_cons] at hc hk
    obtain ⟨et, ib1⟩ := take_ok ib (x := y) (by simp) hy
    have ia0 : Inv a (A ++ []) := by simpa using ia
    obtain ⟨a1, n, e1, i1, sm1, v1, v2⟩ := addAt_ok' ia0 (by simp; omega) w
    have hff : full a = false := full_false ia.pl (by omega)
    have hN1 : Vals { b with val := upd b.val y .moved } N wy := hN.congr (fun z hz => upd_other _ _ (by
      rintro rfl; exact (List.nodup_cons.1 (List.nodup_append.1 ib.nodup).2.1).1 hz))
    obtain ⟨a2, b2, M, e2, i2, sm2, v3, v4, ib2, smb⟩ := moveAll_ok k (a := a1) (b := { b with val := upd b.val y .moved }) (A := A ++ [n]) (YA := YA ++ [y]) (Y := N) (by simpa using i1) (by simpa using ib1) hN1 (by rw [sm1.1]; simp; omega) (by omega)
    refine ⟨a2, b2, n :: M, ?_, by simpa using i2, sm1.trans sm2, ?_, fun z hz => ?_, by simpa using ib2, smb⟩
    · show moveAll a b y (k + 1) = _
      unfold moveAll
      rw [if_pos hyT, hff, if_neg (by simp)]
      rw [show nodeAt T ([] : List Nat) 0 = T from rfl] at e1
      simp only [et, e1, bind, Except.bind]
      have : ({ b with val := upd b.val y .moved } : St α).h.next y = .ok (nodeAt T N 0) := by
        rw [next_ok (ib1.valid (x := y) (by simp))]; exact congrArg _ ib.nx_mid
      simp only [this, e2]
    · rw [Vals, List.map_cons, List.map_cons, v3, v4 n (by simp), v1]
    · rw [v4 z (by simp [hz])]; exact v2 z (by simpa using hz)

theorem spliceMoveLoop_ok : ∀ (k : Nat) {a b : St α} {A B YA Y : List Nat} {wy : List α}, Inv a (A ++ B) → Inv b (YA ++ Y) → Vals b Y wy → A.length + B.length + wy.length ≤ a.cap → wy.length < k →
    ∃ a' b' N, spliceMoveLoop a (nodeAt T B 0) b (nodeAt T Y 0) k = .ok (a', b', .ok) ∧ Inv a' (A ++ N ++ B) ∧ Same a a' ∧ Vals a' N wy.reverse ∧ (∀ z ∈ A ++ B, a'.val z = a.val z) ∧ Inv b' (YA ++ Y) ∧ Same b b'
  | 0, _, _, _, _, _, _, _, _, _, _, _, h => by omega
  | k + 1, a, b, A, B, YA, Y, [], ia, ib, hv, _, _ => by
    have hY := hv.nil_split; subst hY
    exact ⟨a, b, [], by simp [spliceMoveLoop, nodeAt], by simpa using ia, Same.refl a, rfl, fun _ _ => rfl, ib, Same.refl b⟩
  | k + 1, a, b, A, B, YA, Y, w :: wy, ia, ib, hv, hc, hk => by
    obtain ⟨y, N, rfl, hy, hN⟩ := hv.cons_split
    have hyT : y ≠ T := ib.neT (by simp)
    simp only [List.length_cons] at hc hk
    obtain ⟨et, ib1⟩ := take_ok ib (x := y) (by simp) hy
    obtain ⟨a1, n, e1, i1, sm1, v1, v2⟩ := addAt_ok' ia (by omega) w
    have hff : full a = false := full_false ia.pl (by simp; omega)
    have hN1 : Vals { b with val := upd b.val y .moved } N wy := hN.congr (fun z hz => upd_other _ _ (by
      rintro rfl; exact (List.nodup_cons.1 (List.nodup_append.1 ib.nodup).2.1).1 hz))
    obtain ⟨a2, b2, M, e2, i2, sm2, v3, v4, ib2, smb⟩ := spliceMoveLoop_ok k (a := a1) (b := { b with val := upd b.val y .moved }) (A := A) (B := n :: B) (YA := YA ++ [y]) (Y := N) i1 (by simpa using ib1) hN1 (by rw [sm1.1]; simp; omega) (by omega)
    refine ⟨a2, b2, M ++ [n], ?_, by simpa using i2, sm1.trans sm2, ?_, fun z hz => ?_, by simpa using ib2, smb⟩
    · show spliceMoveLoop a (nodeAt T B 0) b y (k + 1) = _
      unfold spliceMoveLoop
      rw [if_pos hyT, hff, if_neg (by simp)]
      simp only [et, e1, bind, Except.bind]
      have : ({ b with val := upd b.val y .moved } : St α).h.next y = .ok (nodeAt T N 0) := by
        rw [next_ok (ib1.valid (x := y) (by simp))]; exact congrArg _ ib.nx_mid
      simp only [this]
      exact e2
    · rw [List.reverse_cons]
      refine v3.append ?_
      rw [Vals, List.map_cons, v4 n (by simp), v1]; rfl
    · rw [v4 z (by simp at hz ⊢; tauto)]; exact v2 z hz

end Etl.DList
