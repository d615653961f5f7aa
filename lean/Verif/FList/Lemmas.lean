import Verif.FList.Model

/-!
# Lemmas about the forward_list model
-/
namespace Etl.FList
open FLinks
variable {α : Type}

theorem mem_items {cap n : Nat} : n ∈ items cap ↔ 2 ≤ n ∧ n ≤ cap + 1 := by
  simp only [items, List.mem_range'_1]; omega
theorem nodup_items (cap : Nat) : (items cap).Nodup := List.nodup_range'
theorem length_items (cap : Nat) : (items cap).length = cap := by simp [items]

/-- The pool: `U` are the nodes in use. -/
structure Pl (s : St α) (U : List Nat) : Prop where
  lim : s.h.lim = s.cap + 1
  part : (U ++ s.free).Perm (items s.cap)
  used : ∀ n ∈ U, s.val n ≠ .raw
  raw : ∀ n ∈ s.free, s.val n = .raw

structure Inv (s : St α) (ns : List Nat) : Prop where
  line : Line s.h S 0 ns
  pl : Pl s ns

/-- The nodes `ns` hold the live values `l`. -/
def Vals (s : St α) (ns : List Nat) (l : List α) : Prop := ns.map s.val = l.map Cell.live

theorem Vals.len {s : St α} {ns : List Nat} {l : List α} (h : Vals s ns l) : ns.length = l.length := by have := congrArg List.length h; simpa using this
theorem Vals.congr {s s' : St α} {ns : List Nat} {l : List α} (h : Vals s ns l) (hc : ∀ y ∈ ns, s'.val y = s.val y) : Vals s' ns l :=
  (List.map_congr_left hc).trans h
theorem Vals.append {s : St α} {A B : List Nat} {l m : List α} (h1 : Vals s A l) (h2 : Vals s B m) : Vals s (A ++ B) (l ++ m) := by
  rw [Vals, List.map_append, List.map_append, h1, h2]
theorem Vals.one {s : St α} {n : Nat} {v : α} (h : s.val n = .live v) : Vals s [n] [v] := by simp [Vals, h]
theorem Vals.split {s : St α} {ns : List Nat} {l m : List α} (h : Vals s ns (l ++ m)) : ∃ A B, ns = A ++ B ∧ Vals s A l ∧ Vals s B m := by
  have hl := h.len; rw [List.length_append] at hl
  refine ⟨ns.take l.length, ns.drop l.length, (List.take_append_drop _ _).symm, ?_, ?_⟩
  · rw [Vals, List.map_take, h]; simp
  · rw [Vals, List.map_drop, h]; simp
theorem Vals.cons_split {s : St α} {ns : List Nat} {v : α} {l : List α} (h : Vals s ns (v :: l)) : ∃ x N, ns = x :: N ∧ s.val x = .live v ∧ Vals s N l := by
  cases ns with
  | nil => simp [Vals] at h
  | cons x N => simp [Vals] at h; exact ⟨x, N, rfl, h.1, h.2⟩
theorem Vals.nil_split {s : St α} {ns : List Nat} (h : Vals s ns []) : ns = [] := by simpa [Vals] using h
theorem Vals.live {s : St α} {ns : List Nat} {l : List α} (h : Vals s ns l) {x : Nat} (hx : x ∈ ns) : ∃ v, s.val x = .live v := by
  have : s.val x ∈ ns.map s.val := List.mem_map.2 ⟨x, hx, rfl⟩
  rw [h] at this
  obtain ⟨v, _, hv⟩ := List.mem_map.1 this
  exact ⟨v, hv.symm⟩

/-- `s` and `s'` are of the same list object. -/
def Same (s s' : St α) : Prop := s'.cap = s.cap ∧ s'.check = s.check ∧ s'.dbg = s.dbg ∧ s'.triv = s.triv
theorem Same.refl (s : St α) : Same s s := ⟨rfl, rfl, rfl, rfl⟩
theorem Same.trans {a b c : St α} (h : Same a b) (h' : Same b c) : Same a c :=
  ⟨h'.1.trans h.1, h'.2.1.trans h.2.1, h'.2.2.1.trans h.2.2.1, h'.2.2.2.trans h.2.2.2⟩

theorem Pl.perm {s : St α} {U V : List Nat} (h : Pl s U) (p : U.Perm V) : Pl s V :=
  ⟨h.lim, (p.symm.append_right _).trans h.part, fun n hn => h.used n (p.mem_iff.2 hn), h.raw⟩
theorem Pl.nd {s : St α} {U : List Nat} (h : Pl s U) : (U ++ s.free).Nodup := h.part.nodup_iff.2 (nodup_items _)
theorem Pl.len {s : St α} {U : List Nat} (h : Pl s U) : U.length + s.free.length = s.cap := by
  have := h.part.length_eq; rw [List.length_append, length_items] at this; exact this
theorem Pl.size {s : St α} {U : List Nat} (h : Pl s U) : size s = U.length := by have := h.len; unfold FList.size; omega
theorem Pl.bd {s : St α} {U : List Nat} (h : Pl s U) {n : Nat} (hn : n ∈ U ++ s.free) : 2 ≤ n ∧ n ≤ s.cap + 1 := mem_items.1 (h.part.mem_iff.1 hn)
theorem Pl.valid {s : St α} {U : List Nat} (h : Pl s U) {n : Nat} (hn : n ∈ U ++ s.free) : s.h.valid n := by
  have := h.bd hn; unfold FLinks.valid; rw [h.lim]; omega
theorem Pl.neS {s : St α} {U : List Nat} (h : Pl s U) {n : Nat} (hn : n ∈ U ++ s.free) : n ≠ S := by
  have := h.bd hn; unfold S; omega
theorem Pl.ne0 {s : St α} {U : List Nat} (h : Pl s U) {n : Nat} (hn : n ∈ U ++ s.free) : n ≠ 0 := by
  have := h.bd hn; omega
theorem Pl.full_iff {s : St α} {U : List Nat} (h : Pl s U) : full s = true ↔ s.free = [] := by
  have := h.len; have := h.size
  unfold full; rw [h.size]; simp only [beq_iff_eq]
  rw [← List.length_eq_zero_iff]; omega
theorem Pl.full_len {s : St α} {U : List Nat} (h : Pl s U) : full s = decide (U.length = s.cap) := by
  unfold full; rw [h.size]; rfl
theorem Svalid {s : St α} {U : List Nat} (h : Pl s U) : s.h.valid S := by unfold FLinks.valid S; rw [h.lim]; omega

/-- changing only the links -/
theorem Pl.links {s : St α} {U : List Nat} (h : Pl s U) {k : FLinks} (hl : k.lim = s.h.lim) : Pl { s with h := k } U :=
  ⟨hl.trans h.lim, h.part, h.used, h.raw⟩

theorem destroyNode_ok {s : St α} {x : Nat} {U : List Nat} (h : Pl s (x :: U)) :
    ∃ s', destroyNode s x = .ok s' ∧ Pl s' U ∧ Same s s' ∧ s'.h.lim = s.h.lim ∧ (∀ y, y ≠ x → s'.val y = s.val y ∧ s'.h.nx y = s.h.nx y) := by
  have hx : x ∈ (x :: U) ++ s.free := by simp
  have hnd := h.nd
  have hxf : x ∉ s.free := fun y => (List.nodup_append.1 hnd).2.2 x (by simp) x y rfl
  have hxU : x ∉ U := (List.nodup_cons.1 (List.nodup_append.1 hnd).1).1
  have hu := h.used x (by simp)
  refine ⟨{ s with val := upd s.val x .raw, free := x :: s.free, h := s.h.linked x (s.free.headD 0) }, ?_, ?_, ⟨rfl, rfl, rfl, rfl⟩, rfl, fun y hy => ⟨upd_other _ _ hy, upd_other _ _ hy⟩⟩
  · unfold destroyNode
    rw [if_pos ⟨h.valid hx, h.neS hx, hxf⟩]
    cases hv : s.val x with
    | raw => exact absurd hv hu
    | moved => rfl
    | live v => rfl
  · refine ⟨h.lim, ?_, ?_, ?_⟩
    · refine List.Perm.trans ?_ h.part
      exact List.perm_middle
    · intro n hn
      have : n ≠ x := by rintro rfl; exact hxU hn
      simp only [upd_other _ _ this]; exact h.used n (by simp [hn])
    · intro n hn
      by_cases hnx : n = x
      · subst hnx; simp
      · simp only [upd_other _ _ hnx]; exact h.raw n (by simpa [hnx] using hn)

theorem allocate_ok {s : St α} {U : List Nat} (h : Pl s U) (hf : s.free ≠ []) (v : α) :
    ∃ s' n, allocate s v = .ok (some (n, s')) ∧ Pl s' (n :: U) ∧ Same s s' ∧ s'.h = s.h ∧ s'.val n = .live v ∧ (∀ y, y ≠ n → s'.val y = s.val y) ∧ n ∉ S :: U ∧ n ≠ 0 ∧ s.h.valid n := by
  obtain ⟨n, f, hf⟩ := List.exists_cons_of_ne_nil hf
  have hn : n ∈ U ++ s.free := by simp [hf]
  have hnd := h.nd
  have hnU : n ∉ U := fun y => (List.nodup_append.1 hnd).2.2 n y n (by simp [hf]) rfl
  rw [hf] at hnd
  have hnf : n ∉ f := (List.nodup_cons.1 (List.nodup_append.1 hnd).2.1).1
  refine ⟨{ s with val := upd s.val n (.live v), free := f }, n, ?_, ?_, ⟨rfl, rfl, rfl, rfl⟩, rfl, by simp, fun y hy => upd_other _ _ hy, ?_, h.ne0 hn, h.valid hn⟩
  · unfold allocate; rw [hf]; simp only [h.raw n (by simp [hf])]
  · refine ⟨h.lim, ?_, ?_, ?_⟩
    · refine List.Perm.trans ?_ h.part
      rw [hf]; exact List.perm_middle.symm
    · intro m hm
      by_cases hmn : m = n
      · subst hmn; simp
      · simp only [upd_other _ _ hmn]; exact h.used m (by simpa [hmn] using hm)
    · intro m hm
      have : m ≠ n := by rintro rfl; exact hnf hm
      simp only [upd_other _ _ this]; exact h.raw m (by simp [hf, hm])
  · intro y; rcases List.mem_cons.1 y with y | y
    · exact h.neS hn y
    · exact hnU y

theorem Inv.valid {s : St α} {ns : List Nat} (i : Inv s ns) {x : Nat} (hx : x ∈ ns) : s.h.valid x := i.line.ok x (by simp [hx])
theorem Inv.neS {s : St α} {ns : List Nat} (i : Inv s ns) {x : Nat} (hx : x ∈ ns) : x ≠ S := by
  rintro rfl; exact (List.nodup_cons.1 i.line.nd).1 hx
theorem Inv.ne0 {s : St α} {ns : List Nat} (i : Inv s ns) {x : Nat} (hx : x ∈ ns) : x ≠ 0 := by
  rintro rfl; exact i.line.ne (by simp [hx])
theorem Inv.nodup {s : St α} {ns : List Nat} (i : Inv s ns) : ns.Nodup := (List.nodup_cons.1 i.line.nd).2
theorem Inv.len {s : St α} {ns : List Nat} (i : Inv s ns) : ns.length ≤ s.cap := by have := i.pl.len; omega
theorem Inv.vlst {s : St α} {X B : List Nat} (i : Inv s (X ++ B)) : s.h.valid (lst S X) := i.line.mid.1
theorem Inv.lst0 {s : St α} {X B : List Nat} (i : Inv s (X ++ B)) : lst S X ≠ 0 := by
  have := i.vlst; unfold FLinks.valid at this; omega
theorem Inv.nxl {s : St α} {X B : List Nat} (i : Inv s (X ++ B)) : s.h.next (lst S X) = .ok (hd 0 B) := by rw [next_ok i.vlst, i.line.nx_lst]
theorem Inv.hd0 {s : St α} {X B : List Nat} (i : Inv s (X ++ B)) : hd 0 B = 0 ↔ B = [] := by
  cases B with
  | nil => simp
  | cons b B => simpa using i.ne0 (x := b) (by simp)
theorem Inv.nxS {s : St α} {ns : List Nat} (i : Inv s ns) : s.h.next S = .ok (hd 0 ns) := Inv.nxl (X := []) (B := ns) i

theorem Inv.read {s : St α} {ns : List Nat} (i : Inv s ns) {x : Nat} (hx : x ∈ ns) {v : α} (hv : s.val x = .live v) : FList.read s x = .ok v := by
  unfold FList.read; rw [if_pos ⟨i.valid hx, i.neS hx⟩, hv]

theorem empty_ok {s : St α} {ns : List Nat} (i : Inv s ns) : empty s = .ok (decide (ns = [])) := by
  simp only [empty, i.nxS, bind, Except.bind]
  cases ns with
  | nil => simp
  | cons a l => simpa using i.ne0 (x := a) (by simp)

/-! ## Adding -/

theorem addAfter_ok {s : St α} {X B : List Nat} (i : Inv s (X ++ B)) (hf : s.free ≠ []) (v : α) :
    ∃ s' n, addAfter s (lst S X) v = .ok (s', some n) ∧ Inv s' (X ++ [n] ++ B) ∧ Same s s' ∧ s'.val n = .live v ∧ (∀ y ∈ X ++ B, s'.val y = s.val y) := by
  obtain ⟨s1, n, e1, p1, sm, hh, hv, hvo, hn, hn0, hnv⟩ := allocate_ok i.pl hf v
  have hnl : n ≠ lst S X := by
    rintro rfl; apply hn
    have := lst_mem S X; simp only [List.mem_cons, List.mem_append] at this ⊢; tauto
  have hl : Line ((s1.h.linked n (hd 0 B)).linked (lst S X) n) S 0 (X ++ [n] ++ B) := by
    rw [hh]
    refine i.line.ins rfl ?_ ?_ (by simp) (by simpa using ⟨by simpa using hn, hnv, hn0⟩)
    · intro x hx hne; rw [linked_nx, upd_other _ _ hne, linked_nx, upd_other _ _ (by rintro rfl; exact hn hx)]
    · simp only [linked_nx, upd_same, Seg, true_and]
      rw [upd_other _ _ hnl, upd_same, i.line.nx_lst]
  refine ⟨{ s1 with h := (s1.h.linked n (hd 0 B)).linked (lst S X) n }, n, ?_, ⟨hl, (p1.links (k := (s1.h.linked n (hd 0 B)).linked (lst S X) n) rfl).perm (by rw [List.append_assoc]; exact List.perm_middle.symm)⟩, sm, hv, ?_⟩
  · have hnx : s1.h.next (lst S X) = .ok (hd 0 B) := by rw [hh]; exact i.nxl
    simp only [addAfter, e1, hnx, bind, Except.bind]
    rw [join_ok (by rw [hh]; exact hnv)]
    simp only
    rw [join_ok (by rw [linked_valid, hh]; exact i.vlst)]
  · intro y hy; exact hvo y (by rintro rfl; exact hn (List.mem_cons_of_mem _ hy))

theorem addAfter_full {s : St α} (hf : s.free = []) (p : Nat) (v : α) : addAfter s p v = .ok (s, none) := by
  simp [addAfter, allocate, hf, bind, Except.bind]

theorem append_ok {s : St α} {X : List Nat} (i : Inv s X) (hf : s.free ≠ []) (v : α) :
    ∃ s' n, append s (lst S X) v = .ok (s', some n) ∧ Inv s' (X ++ [n]) ∧ Same s s' ∧ s'.val n = .live v ∧ (∀ y ∈ X, s'.val y = s.val y) := by
  obtain ⟨s1, n, e1, p1, sm, hh, hv, hvo, hn, hn0, hnv⟩ := allocate_ok i.pl hf v
  have i' : Inv s (X ++ []) := by simpa using i
  have hnl : n ≠ lst S X := by rintro rfl; exact hn (lst_mem S X)
  have hl : Line ((s1.h.linked (lst S X) n).linked n 0) S 0 (X ++ [n] ++ []) := by
    rw [hh]
    refine i'.line.ins rfl ?_ ?_ (by simp) (by simpa using ⟨by simpa using hn, hnv, hn0⟩)
    · intro x hx hne
      have hxn : x ≠ n := by rintro rfl; exact hn (by simpa using hx)
      rw [linked_nx, upd_other _ _ hxn, linked_nx, upd_other _ _ hne]
    · simp only [linked_nx, upd_same, Seg]
      rw [upd_other _ _ hnl.symm, upd_same, i'.line.nx_lst]; simp
  rw [List.append_nil] at hl
  refine ⟨{ s1 with h := (s1.h.linked (lst S X) n).linked n 0 }, n, ?_, ⟨hl, (p1.links (k := (s1.h.linked (lst S X) n).linked n 0) rfl).perm (List.perm_append_singleton n X).symm⟩, sm, hv, ?_⟩
  · simp only [append, e1, bind, Except.bind]
    rw [join_ok (by rw [hh]; exact i'.vlst)]
    simp only
    rw [join_ok (by rw [linked_valid, hh]; exact hnv)]
  · intro y hy; exact hvo y (by rintro rfl; exact hn (List.mem_cons_of_mem _ hy))

/-! ## Removing -/

theorem eraseLoop_ok : ∀ (k : Nat) {s : St α} {U M : List Nat} {p last : Nat}, Pl s (M ++ U) → Seg s.h.nx p M last → last ∉ M → M.length ≤ k →
    ∃ s', eraseLoop s p last k = .ok s' ∧ Pl s' U ∧ Same s s' ∧ s'.h.lim = s.h.lim ∧ (∀ y, y ∉ M → s'.val y = s.val y ∧ s'.h.nx y = s.h.nx y)
  | k, s, U, [], p, last, pl, sg, _, _ => by
    have : p = last := sg
    exact ⟨s, by cases k <;> simp [eraseLoop, this], pl, Same.refl s, rfl, fun _ _ => ⟨rfl, rfl⟩⟩
  | 0, _, _, _ :: _, _, _, _, _, _, hk => by simp at hk
  | k + 1, s, U, x :: M, p, last, pl, sg, hl, hk => by
    obtain ⟨rfl, sg⟩ := sg
    have hx : p ∈ (p :: M ++ U) ++ s.free := by simp
    have hxM : p ∉ M ++ U := (List.nodup_cons.1 (List.nodup_append.1 pl.nd).1).1
    obtain ⟨s1, e1, p1, sm1, l1, v1⟩ := destroyNode_ok (U := M ++ U) pl
    have sg1 : Seg s1.h.nx (s.h.nx p) M last := sg.frame (fun y hy => (v1 y (by rintro rfl; exact hxM (by simp [hy]))).2)
    obtain ⟨s2, e2, p2, sm2, l2, v2⟩ := eraseLoop_ok k p1 sg1 (fun y => hl (by simp [y])) (by simpa using hk)
    refine ⟨s2, ?_, p2, sm1.trans sm2, l2.trans l1, fun y hy => ?_⟩
    · simp only [eraseLoop]
      rw [if_pos (show p ≠ last by rintro rfl; simp at hl)]
      simp only [next_ok (pl.valid hx), e1, e2, bind, Except.bind]
    · have h1 := v1 y (by rintro rfl; simp at hy)
      have h2 := v2 y (fun z => hy (by simp [z]))
      exact ⟨h2.1.trans h1.1, h2.2.trans h1.2⟩

theorem initialise_ok {s : St α} {ns : List Nat} (i : Inv s ns) :
    ∃ s', initialise s = .ok s' ∧ Inv s' [] ∧ Same s s' := by
  have hfin : ∀ s1 : St α, releaseAll s = .ok s1 → Pl s1 [] → Same s s1 → ∃ s', initialise s = .ok s' ∧ Inv s' [] ∧ Same s s' := by
    intro s1 e1 p1 sm1
    have hsv : s1.h.valid S := Svalid p1
    refine ⟨{ s1 with h := s1.h.linked S 0 }, by simp only [initialise, e1, join_ok hsv, bind, Except.bind], ⟨⟨?_, by simp, by simpa using hsv, by simp [S]⟩, p1.links rfl⟩, sm1⟩
    simp [Seg]
  by_cases h0 : ns = []
  · subst h0
    exact hfin s (by simp [releaseAll, empty_ok i, bind, Except.bind]) i.pl (Same.refl s)
  · by_cases ht : s.triv = true
    · refine hfin { s with val := fun _ => .raw, free := items s.cap } ?_ ?_ ⟨rfl, rfl, rfl, rfl⟩
      · simp [releaseAll, empty_ok i, h0, ht, bind, Except.bind]
      · exact ⟨i.pl.lim, by simp, by simp, by simp⟩
    · obtain ⟨s1, e1, p1, sm1, _, _⟩ := eraseLoop_ok (s.cap + 1) (U := []) (M := ns) (by simpa using i.pl) i.line.first (fun x => i.line.ne (by simp [x])) (by have := i.len; omega)
      refine hfin s1 ?_ p1 sm1
      simp [releaseAll, empty_ok i, h0, ht, next_ok i.line.tv, bind, Except.bind, e1]

theorem eraseRange_ok {s : St α} {X M B : List Nat} (i : Inv s (X ++ M ++ B)) :
    ∃ s', eraseRange s (lst S X) (hd 0 B) = .ok (s', hd 0 B) ∧ Inv s' (X ++ B) ∧ Same s s' ∧ (∀ y ∈ X ++ B, s'.val y = s.val y) := by
  have iX : Inv s (X ++ (M ++ B)) := by rw [← List.append_assoc]; exact i
  have hnd := i.nodup
  have hl : Line (s.h.linked (lst S X) (hd 0 B)) S 0 (X ++ B) :=
    i.line.cut' rfl (fun x _ hne => by rw [linked_nx, upd_other _ _ hne]) (by simp)
  have hlX : lst S X ∉ M ++ B := fun x => iX.line.lst_notin (by simp only [List.mem_append] at x ⊢; tauto)
  have hMd : ∀ x ∈ M, x ∉ S :: (X ++ B) := by
    intro x hx y
    have h1 := iX.line.nd
    have hp : (S :: (X ++ (M ++ B))).Perm (M ++ S :: (X ++ B)) := by
      rw [show S :: (X ++ (M ++ B)) = (S :: X) ++ M ++ B by simp, show M ++ S :: (X ++ B) = M ++ (S :: X) ++ B by simp]
      exact List.Perm.append_right B List.perm_append_comm
    exact (List.nodup_append.1 (hp.nodup_iff.1 h1)).2.2 x hx x y rfl
  have hlast : hd 0 B ∉ M := by
    intro x
    cases B with
    | nil => exact i.ne0 (x := 0) (by simp at x; simp [x]) rfl
    | cons b B => exact hMd b (by simpa using x) (by simp)
  have sg : Seg s.h.nx (s.h.nx (lst S X)) M (hd 0 B) := by
    have := iX.line.mid.2.2
    rw [seg_append] at this
    obtain ⟨q, h1, h2⟩ := this
    rw [h2.hd] at h1; exact h1
  have sg' : Seg (s.h.linked (lst S X) (hd 0 B)).nx (hd 0 (M ++ B)) M (hd 0 B) := by
    rw [iX.line.nx_lst] at sg
    exact sg.upd (fun x => hlX (by simp [x]))
  obtain ⟨s', e1, p1, sm, l1, v1⟩ := eraseLoop_ok (s.cap + 1) (s := { s with h := s.h.linked (lst S X) (hd 0 B) }) (U := X ++ B) (M := M)
    ((i.pl.links (k := s.h.linked (lst S X) (hd 0 B)) rfl).perm (by rw [← List.append_assoc]; exact List.Perm.append_right B List.perm_append_comm)) sg' hlast
    (by have := i.len; simp at this; omega)
  have hne : lst S X ≠ hd 0 B := by
    intro e
    cases B with
    | nil => exact iX.lst0 (by simpa using e)
    | cons b B => exact hlX (by rw [e]; simp)
  refine ⟨s', ?_, ⟨hl.frame l1 (fun x hx => (v1 x (fun y => hMd x y hx)).2), p1⟩, sm, fun y hy => (v1 y (fun z => hMd y z (List.mem_cons_of_mem _ hy))).1⟩
  simp only [eraseRange, bind, Except.bind, pure, Except.pure]
  rw [if_pos ⟨iX.lst0, hne⟩]
  simp only [iX.nxl, join_ok iX.vlst, e1]
  congr 2
  split_ifs with h1 h2 h3
  · rw [← h1, h2]
  · rfl
  · exact h3.symm
  · rfl

theorem removeNodeAfter_ok {s : St α} {X B : List Nat} {x : Nat} (i : Inv s (X ++ x :: B)) :
    ∃ s', removeNodeAfter s (lst S X) = .ok s' ∧ Inv s' (X ++ B) ∧ Same s s' ∧ (∀ y ∈ X ++ B, s'.val y = s.val y) := by
  have ix : Inv s ((X ++ [x]) ++ B) := by simpa using i
  have i2 : Inv s (X ++ [x] ++ B) := ix
  have hl : Line (s.h.linked (lst S X) (hd 0 B)) S 0 (X ++ B) :=
    i2.line.cut' rfl (fun x _ hne => by rw [linked_nx, upd_other _ _ hne]) (by simp)
  have hnx : s.h.next x = .ok (hd 0 B) := by have := ix.nxl; rwa [lst_concat] at this
  have hx : x ∉ S :: (X ++ B) := by
    intro y
    rcases List.mem_cons.1 y with y | y
    · exact i.neS (by simp) y
    · exact (List.nodup_cons.1 (List.perm_middle.nodup_iff.1 i.nodup)).1 y
  obtain ⟨s', e1, p1, sm, l1, v1⟩ := destroyNode_ok (s := { s with h := s.h.linked (lst S X) (hd 0 B) }) (x := x) (U := X ++ B) ((i.pl.perm List.perm_middle).links rfl)
  refine ⟨s', ?_, ⟨hl.frame l1 (fun y hy => (v1 y (by rintro rfl; exact hx hy)).2), p1⟩, sm, fun y hy => (v1 y (by rintro rfl; exact hx (List.mem_cons_of_mem _ hy))).1⟩
  simp only [removeNodeAfter, i.nxl, hd_cons, bind, Except.bind]
  rw [if_pos (i.ne0 (by simp))]
  simp only [hnx, join_ok i.vlst, e1]

theorem removeNodeAfter_none {s : St α} {X : List Nat} (i : Inv s X) : removeNodeAfter s (lst S X) = .ok s := by
  have i' : Inv s (X ++ []) := by simpa using i
  simp [removeNodeAfter, i'.nxl, bind, Except.bind]

theorem eraseAfter_ok {s : St α} {X B : List Nat} {x : Nat} (i : Inv s (X ++ x :: B)) :
    ∃ s', eraseAfter s (lst S X) = .ok (s', hd 0 B) ∧ Inv s' (X ++ B) ∧ Same s s' ∧ (∀ y ∈ X ++ B, s'.val y = s.val y) := by
  obtain ⟨s', e1, i1, sm, v1⟩ := removeNodeAfter_ok i
  refine ⟨s', ?_, i1, sm, v1⟩
  have hnx : s.h.next x = .ok (hd 0 B) := by
    have ix : Inv s ((X ++ [x]) ++ B) := by simpa using i
    have := ix.nxl; rwa [lst_concat] at this
  simp only [eraseAfter, bind, Except.bind]
  rw [if_pos i.lst0]
  simp only [i.nxl, hd_cons]
  rw [if_pos (i.ne0 (by simp))]
  simp only [hnx, e1]

theorem eraseAfter_none {s : St α} {X : List Nat} (i : Inv s X) : eraseAfter s (lst S X) = .ok (s, 0) := by
  have i' : Inv s (X ++ []) := by simpa using i
  simp only [eraseAfter, bind, Except.bind]
  rw [if_pos i'.lst0]
  simp [i'.nxl]

/-! ## Iterators -/

theorem iter_ok {s : St α} {X B : List Nat} (i : Inv s (X ++ B)) : iter s X.length = .ok (lst S X) := by
  have := i.line.mid.2.1.fwd (h := s.h) (fun x hx => i.line.ok x (by have := List.dropLast_subset _ hx; simp only [List.mem_cons, List.mem_append] at this ⊢; tauto))
  simpa [iter] using this

theorem iter_end {s : St α} {ns : List Nat} (i : Inv s ns) : iter s (ns.length + 1) = .ok 0 := by
  have := i.line.seg.fwd (h := s.h) (fun x hx => i.line.ok x hx)
  simpa [iter] using this

theorem iter_hd {s : St α} {X B : List Nat} (i : Inv s (X ++ B)) : iter s (X.length + 1) = .ok (hd 0 B) := by
  cases B with
  | nil => have := iter_end (ns := X) (by simpa using i); simpa using this
  | cons b B => have := iter_ok (X := X ++ [b]) (B := B) (by simpa using i); simpa using this

theorem posOf_ok {s : St α} : ∀ (k : Nat) {C : List Nat} {p q : Nat}, Seg s.h.nx q C p → p ∉ C → (∀ x ∈ C, s.h.valid x) → C.length < k → posOf s p q k = .ok C.length
  | 0, _, _, _, _, _, _, hk => by omega
  | k + 1, [], p, q, sg, _, _, _ => by rw [posOf, if_pos (show q = p from sg)]; rfl
  | k + 1, x :: C, p, q, sg, hp, hv, hk => by
    obtain ⟨rfl, sg⟩ := sg
    rw [posOf, if_neg (fun e => hp (by simp [e]))]
    simp only [next_ok (hv q (by simp)), posOf_ok k sg (fun y => hp (by simp [y])) (fun y hy => hv y (by simp [hy])) (by simpa using hk), bind, Except.bind, List.length_cons]

theorem position_ok {s : St α} {X B : List Nat} (i : Inv s (X ++ B)) : position s (lst S X) = .ok X.length := by
  have := posOf_ok (s := s) (s.cap + 2) i.line.mid.2.1 (fun y => i.line.lst_notin (by simp [y]))
    (fun x hx => i.line.ok x (by have := List.dropLast_subset _ hx; simp only [List.mem_cons, List.mem_append] at this ⊢; tauto)) (by have := i.len; simp at this ⊢; omega)
  simpa [position] using this

theorem position_end {s : St α} {ns : List Nat} (i : Inv s ns) : position s 0 = .ok (ns.length + 1) := by
  have := posOf_ok (s := s) (s.cap + 2) i.line.seg i.line.ne i.line.ok (by have := i.len; simp; omega)
  simpa [position] using this

theorem position_hd {s : St α} {X B : List Nat} (i : Inv s (X ++ B)) : position s (hd 0 B) = .ok (X.length + 1) := by
  cases B with
  | nil => have := position_end (ns := X) (by simpa using i); simpa using this
  | cons b B => have := position_ok (X := X ++ [b]) (B := B) (by simpa using i); simpa using this

theorem mapM_read {s : St α} {ns : List Nat} (i : Inv s ns) : ∀ {N : List Nat} {l : List α}, (∀ x ∈ N, x ∈ ns) → Vals s N l → N.mapM (FList.read s) = .ok l
  | [], l, _, hv => by simp [Vals] at hv; subst hv; rfl
  | x :: N, l, hs, hv => by
    cases l with
    | nil => simp [Vals] at hv
    | cons v l =>
      simp [Vals] at hv
      have := mapM_read i (N := N) (l := l) (fun y hy => hs y (by simp [hy])) hv.2
      rw [List.mapM_cons, i.read (hs x (by simp)) hv.1, this]; rfl

theorem values_ok {s : St α} {ns : List Nat} {l : List α} (i : Inv s ns) (hv : Vals s ns l) : values s = .ok l := by
  have hw := i.line.walk (k := s.cap + 1) (by have := i.len; omega)
  rw [values, next_ok i.line.tv]
  simp only [bind, Except.bind, hw]
  exact mapM_read i (fun x hx => hx) hv

end Etl.FList
