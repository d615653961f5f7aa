import Verif.IntrusiveList.Model
import Mathlib.Tactic.Tauto
import Mathlib.Tactic.SplitIfs
import Batteries.Data.List.Perm
import Batteries.Tactic.SeqFocus

/-!
# Heap lemmas for the intrusive list
-/
namespace Etl.IList
open Links

/-- `h'` differs from `h` at most on the nodes in `S`. -/
structure Only (h h' : Links) (S : List Nat) : Prop where
  lim : h'.lim = h.lim
  out : ∀ x, x ∉ S → h'.nx x = h.nx x ∧ h'.pv x = h.pv x

theorem Only.refl (h : Links) (S : List Nat) : Only h h S := ⟨rfl, fun _ _ => ⟨rfl, rfl⟩⟩
theorem Only.trans {a b c : Links} {S : List Nat} (h1 : Only a b S) (h2 : Only b c S) : Only a c S :=
  ⟨h2.lim.trans h1.lim, fun x hx => ⟨(h2.out x hx).1.trans (h1.out x hx).1, (h2.out x hx).2.trans (h1.out x hx).2⟩⟩
theorem Only.mono {a b : Links} {S S' : List Nat} (h : Only a b S) (hs : ∀ x ∈ S, x ∈ S') : Only a b S' :=
  ⟨h.lim, fun x hx => h.out x (fun y => hx (hs x y))⟩
theorem Only.valid {a b : Links} {S : List Nat} (h : Only a b S) {x : Nat} : b.valid x ↔ a.valid x := by unfold Links.valid; rw [h.lim]
theorem Only.join {h : Links} {S : List Nat} {a b : Nat} (ha : a ∈ S) (hb : b ∈ S) : Only h (h.joined a b) S :=
  ⟨rfl, fun x hx => ⟨upd_other _ _ (fun e => hx (e ▸ ha)), upd_other _ _ (fun e => hx (e ▸ hb))⟩⟩

theorem Circle.frame {h h' : Links} {t : Nat} {l S : List Nat} (c : Circle h t l) (o : Only h h' S) (hd : ∀ x ∈ t :: l, x ∉ S) : Circle h' t l := by
  refine ⟨c.ch.frame (fun x hx => (o.out x (hd x ?_)).1) (fun x hx => (o.out x (hd x ?_)).2), c.nd, fun x hx => o.valid.2 (c.ok x hx)⟩
  · have := List.dropLast_subset _ hx; simp at this ⊢; tauto
  · have := List.mem_of_mem_tail hx; simp at this ⊢; tauto

theorem Circle.len {h : Links} {t : Nat} {l : List Nat} (c : Circle h t l) : l.length + 1 ≤ h.lim := by
  have hsub : (t :: l) ⊆ List.range' 1 h.lim := by
    intro x hx
    have := c.ok x hx
    simp only [List.mem_range'_1]; unfold Links.valid at this; omega
  have := (List.subperm_of_subset c.nd hsub).length_le
  simpa using this

theorem at_head (t : Nat) (B : List Nat) (h : B ++ [t] ≠ []) : (B ++ [t]).head h = nodeAt t B 0 := by cases B <;> simp [nodeAt]
theorem nodeAt_app (t : Nat) (A B : List Nat) : nodeAt t (A ++ B) A.length = nodeAt t B 0 := by
  simp only [nodeAt]; rw [List.getElem?_append_right (by omega)]; simp
theorem at_mem (t : Nat) (B : List Nat) : nodeAt t B 0 ∈ t :: B := by cases B <;> simp [nodeAt]
theorem last_sub (t : Nat) (A S : List Nat) (h : ∀ x ∈ t :: A, x ∈ S) : (t :: A).getLast (by simp) ∈ S := h _ (List.getLast_mem _)
theorem last_mem (t : Nat) (A : List Nat) : (t :: A).getLast (by simp) ∈ t :: A := List.getLast_mem _

theorem Circle.pv_mid {h : Links} {t : Nat} {A B : List Nat} (c : Circle h t (A ++ B)) : h.pv (nodeAt t B 0) = (t :: A).getLast (by simp) := by
  obtain ⟨P, p, q, S, e1, e2, _, _, _, h4⟩ := c.split
  have : nodeAt t B 0 = q := by rw [← at_head t B (by simp)]; simp [e2]
  rw [this, h4]; simp [e1]
theorem Circle.nx_last {h : Links} {t : Nat} {A B : List Nat} (c : Circle h t (A ++ B)) : h.nx ((t :: A).getLast (by simp)) = nodeAt t B 0 := by
  obtain ⟨P, p, q, S, e1, e2, _, _, h3, _⟩ := c.split
  have h1 : nodeAt t B 0 = q := by rw [← at_head t B (by simp)]; simp [e2]
  have h2 : (t :: A).getLast (by simp) = p := by simp [e1]
  rw [h1, h2, h3]
theorem Circle.nx_mid {h : Links} {t : Nat} {A B : List Nat} {x : Nat} (c : Circle h t (A ++ x :: B)) : h.nx x = nodeAt t B 0 := by
  rw [c.next, at_head]
theorem Circle.ne {h : Links} {t : Nat} {l : List Nat} (c : Circle h t l) {x : Nat} (hx : x ∈ l) : x ≠ t := by
  rintro rfl; exact (List.nodup_cons.1 c.nd).1 hx
theorem Circle.valid_at {h : Links} {t : Nat} {A B : List Nat} (c : Circle h t (A ++ B)) : h.valid (nodeAt t B 0) := by
  have := at_mem t B
  exact c.ok _ (by simp at this ⊢; tauto)
theorem Circle.valid_last {h : Links} {t : Nat} {A B : List Nat} (c : Circle h t (A ++ B)) : h.valid ((t :: A).getLast (by simp)) := by
  exact c.ok _ (last_sub t A _ (by intro x hx; simp at hx ⊢; tauto))
theorem valid_ne {h : Links} {x : Nat} (hx : h.valid x) : x ≠ 0 := by unfold Links.valid at hx; omega

/-- `link_splice` in terms of `join` -/
theorem linkSplice_eq {h : Links} {p q n : Nat} (hp : h.valid p) (hn : h.valid n) (hq : h.valid q) (hpq : h.nx p = q) (hpn : p ≠ n) :
    linkSplice h p n = .ok ((h.joined p n).joined n q) := by
  unfold linkSplice
  rw [if_pos ⟨hp, hn⟩]
  simp only [bind, Except.bind, upd_other _ _ hpn, hpq, ne_eq, valid_ne hq, not_false_eq_true, if_true]
  rw [if_pos (show ({ h with nx := upd h.nx n q, pv := upd h.pv n p } : Links).valid q from hq)]
  simp only [joined]
  congr 2
  funext x
  simp only [upd]; split_ifs <;> simp_all

theorem linkSplice_ok {h : Links} {t : Nat} {A B : List Nat} (c : Circle h t (A ++ B)) {n : Nat} (hn : n ∉ t :: (A ++ B)) (hv : h.valid n) :
    ∃ h', linkSplice h ((t :: A).getLast (by simp)) n = .ok h' ∧ Circle h' t (A ++ n :: B) ∧ Only h h' (t :: (A ++ n :: B)) := by
  obtain ⟨h1, h2, h3⟩ := c.insert hn hv
  rw [nodeAt_app] at h1 h2 h3
  rw [Circle.pv_mid c] at h1 h3
  have hm := last_mem t A
  have hm2 := at_mem t B
  have hne : (t :: A).getLast (by simp) ≠ n := by
    intro e; rw [e] at hm; exact hn (by rcases List.mem_cons.1 hm with h | h <;> simp [h])
  refine ⟨_, linkSplice_eq h1 hv h2 (Circle.nx_last c) hne, h3, ?_⟩
  exact (Only.join (last_sub t A _ (by intro x hx; simp at hx ⊢; tauto)) (by simp)).trans (Only.join (by simp) (by simp at hm2 ⊢; tauto))

theorem unlink_ok {h : Links} {t : Nat} {A B : List Nat} {x : Nat} (c : Circle h t (A ++ x :: B)) :
    ∃ h', unlink h x = .ok h' ∧ Circle h' t (A ++ B) ∧ h'.nx x = 0 ∧ h'.pv x = 0 ∧ Only h h' (t :: (A ++ x :: B)) := by
  have e : A ++ x :: B = A ++ [x] ++ B := by simp
  have c' := c; rw [e] at c'
  obtain ⟨h1, h2, h3⟩ := c'.cut
  rw [at_head] at h2
  have hxv := c.ok x (by simp)
  have hpv : h.pv x = (t :: A).getLast (by simp) := Circle.pv_mid (B := x :: B) c
  have hnx : h.nx x = nodeAt t B 0 := Circle.nx_mid c
  have hm := last_mem t A
  have hm2 := at_mem t B
  have hx : x ∉ t :: (A ++ B) := by
    intro y
    have h5 := List.nodup_cons.1 ((List.perm_middle (a := x) (l₁ := A) (l₂ := B)).nodup_iff.1 (List.nodup_cons.1 c.nd).2)
    rcases List.mem_cons.1 y with y | y
    · exact Circle.ne c (x := x) (by simp) y
    · exact h5.1 y
  have o1 : Only h (h.joined ((t :: A).getLast (by simp)) (nodeAt t B 0)) (t :: (A ++ x :: B)) :=
    Only.join (last_sub t A _ (by intro y hy; simp at hy ⊢; tauto)) (by simp at hm2 ⊢; tauto)
  have o2 : ∀ k : Links, Only k (clearLink k x) [x] := fun k => ⟨rfl, fun y hy => by
    have : y ≠ x := by simpa using hy
    exact ⟨upd_other _ _ this, upd_other _ _ this⟩⟩
  refine ⟨clearLink (h.joined ((t :: A).getLast (by simp)) (nodeAt t B 0)) x, ?_, ?_, by simp [clearLink], by simp [clearLink], o1.trans ((o2 _).mono (by simp))⟩
  · unfold unlink
    rw [if_pos hxv]
    simp only [bind, Except.bind, hpv, hnx, ne_eq, valid_ne h1, valid_ne h2, not_false_eq_true, if_true, h1]
    rw [if_pos (show ({ h with nx := upd h.nx ((t :: A).getLast (by simp)) (nodeAt t B 0) } : Links).valid (nodeAt t B 0) from h2)]
    rfl
  · rw [at_head] at h3
    exact Circle.frame h3 (o2 _) (fun y hy => by simp only [List.mem_singleton]; rintro rfl; exact hx hy)

theorem clearLoop_ok : ∀ (k : Nat) {h : Links} {M : List Nat} {last : Nat}, Fw h (M ++ [last]) → (M ++ [last]).Nodup → (∀ x ∈ M, h.valid x) → M.length < k →
    ∃ h', clearLoop h (nodeAt last M 0) last k = .ok h' ∧ Only h h' M ∧ (∀ x ∈ M, h'.nx x = 0 ∧ h'.pv x = 0)
  | 0, _, _, _, _, _, _, hk => by omega
  | k + 1, h, [], last, _, _, _, _ => ⟨h, by simp [clearLoop, nodeAt], Only.refl _ _, by simp⟩
  | k + 1, h, x :: M, last, f, nd, hv, hk => by
    have nd' := List.nodup_cons.1 (show (x :: (M ++ [last])).Nodup from nd)
    have hne : x ≠ last := by rintro rfl; exact nd'.1 (by simp)
    have o1 : Only h (clearLink h x) [x] := ⟨rfl, fun y hy => by
      have : y ≠ x := by simpa using hy
      exact ⟨upd_other _ _ this, upd_other _ _ this⟩⟩
    have f1 : Fw (clearLink h x) (M ++ [last]) := (Fw.tail (a := x) f).frame (fun y hy => (o1.out y (by
      simp only [List.mem_singleton]; rintro rfl; exact nd'.1 (List.dropLast_subset _ hy))).1)
    obtain ⟨h', e, o2, z⟩ := clearLoop_ok k f1 nd'.2 (fun y hy => hv y (by simp [hy])) (by simp at hk; omega)
    have hnx : h.nx x = nodeAt last M 0 := by
      cases M with
      | nil => exact f.1
      | cons b M => exact f.1
    refine ⟨h', ?_, (o1.mono (by simp)).trans (o2.mono (by simp; tauto)), fun y hy => ?_⟩
    · show clearLoop h x last (k + 1) = _
      unfold clearLoop
      rw [if_pos hne]
      simp only [next_ok (hv x (by simp)), hnx, bind, Except.bind]
      exact e
    · by_cases hyM : y ∈ M
      · exact z y hyM
      · have : y = x := by simpa [hyM] using hy
        subst this
        rw [(o2.out y hyM).1, (o2.out y hyM).2]; simp [clearLink]

theorem reverseLoop_ok {t : Nat} : ∀ (k : Nat) {h : Links} {M : List Nat}, Fw h (M ++ [t]) → (M ++ [t]).Nodup → (∀ x ∈ M ++ [t], h.valid x) → M.length < k →
    ∃ h', reverseLoop h t (nodeAt t M 0) k = .ok h' ∧ (∀ x ∈ M ++ [t], h'.nx x = h.pv x ∧ h'.pv x = h.nx x) ∧ Only h h' (M ++ [t])
  | 0, _, _, _, _, _, h => by omega
  | k + 1, h, [], _, _, hv, _ => by
    have hT := hv t (by simp)
    refine ⟨{ h with pv := upd h.pv t (h.nx t), nx := upd h.nx t (h.pv t) }, ?_, ?_, rfl, ?_⟩
    · simp [reverseLoop, nodeAt, next_ok hT, prev_ok hT, bind, Except.bind]
    · intro x hx; have : x = t := by simpa using hx
      subst this; simp
    · intro x hx; have : x ≠ t := by simpa using hx
      simp [upd_other _ _ this]
  | k + 1, h, x :: M, f, nd, hv, hk => by
    have hx := hv x (by simp)
    have nd' := List.nodup_cons.1 (show (x :: (M ++ [t])).Nodup from nd)
    have hxT : x ≠ t := by rintro rfl; exact nd'.1 (by simp)
    have f' : Fw ({ h with pv := upd h.pv x (h.nx x), nx := upd h.nx x (h.pv x) } : Links) (M ++ [t]) := by
      refine (Fw.tail (a := x) f).frame (fun y hy => upd_other _ _ ?_)
      rintro rfl; exact nd'.1 (List.dropLast_subset _ hy)
    obtain ⟨h', e, s1, s2⟩ := reverseLoop_ok k f' nd'.2 (fun y hy => hv y (List.mem_cons_of_mem _ hy)) (by simp at hk; omega)
    have hnx : h.nx x = nodeAt t M 0 := by
      cases M with
      | nil => exact f.1
      | cons b M => exact f.1
    refine ⟨h', ?_, ?_, s2.lim, ?_⟩
    · show reverseLoop h t x (k + 1) = _
      unfold reverseLoop
      rw [hnx] at e
      simp only [next_ok hx, prev_ok hx, hnx, bind, Except.bind]
      rw [if_pos hxT]; simp only [upd, if_true]; exact e
    · intro y hy
      by_cases hyx : y = x
      · subst hyx
        have := s2.out y nd'.1
        rw [this.1, this.2]; simp
      · have := s1 y (by simpa [hyx] using hy)
        rw [this.1, this.2]; simp [upd_other _ _ hyx]
    · intro y hy
      have hyx : y ≠ x := by rintro rfl; exact hy (by simp)
      have := s2.out y (fun z => hy (List.mem_cons_of_mem _ z))
      rw [this.1, this.2]; simp [upd_other _ _ hyx]

theorem fwd_ok {h : Links} {t : Nat} {l : List Nat} (c : Circle h t l) : ∀ (k j : Nat), j + k ≤ l.length → fwd h (nodeAt t l j) k = .ok (nodeAt t l (j + k))
  | 0, j, _ => rfl
  | k + 1, j, hk => by
    have hj : j < l.length := by omega
    have := fwd_ok c k (j + 1) (by omega)
    simp only [fwd, nodeAt_lt hj, next_ok (c.ok l[j] (by simp)), c.nx_at hj, bind, Except.bind, this]
    congr 2; omega

theorem iter_ok {s : St} {t : Nat} {A B : List Nat} (c : Circle s.h t (A ++ B)) : iter s t A.length = .ok (nodeAt t B 0) := by
  simp only [iter, next_ok c.tv, c.first, bind, Except.bind]
  rw [fwd_ok c A.length 0 (by simp), Nat.zero_add, nodeAt_app]

theorem distance_ok {h : Links} {t : Nat} : ∀ (k : Nat) {A M B : List Nat}, Circle h t (A ++ M ++ B) → M.length < k →
    distance h (nodeAt t (M ++ B) 0) (nodeAt t B 0) k = .ok M.length
  | 0, _, _, _, _, hk => by omega
  | k + 1, A, [], B, c, _ => by simp [distance]
  | k + 1, A, m :: M, B, c, hk => by
    have c' : Circle h t (A ++ m :: (M ++ B)) := by simpa using c
    have hne : m ≠ nodeAt t B 0 := by
      cases B with
      | nil => exact Circle.ne c (by simp)
      | cons b B =>
        simp only [nodeAt, List.getElem?_cons_zero, Option.getD_some]
        rintro rfl
        exact (List.nodup_cons.1 (List.nodup_append.1 (List.nodup_cons.1 c'.nd).2).2.1).1 (by simp)
    have := distance_ok k (A := A ++ [m]) (M := M) (B := B) (by simpa using c) (by simp at hk; omega)
    show distance h m (nodeAt t B 0) (k + 1) = _
    unfold distance
    rw [if_neg hne]
    simp only [next_ok (c.ok m (by simp)), Circle.nx_mid c', this, bind, Except.bind]
    rfl

theorem inList_ok {h : Links} {t n : Nat} : ∀ (k : Nat) {A B : List Nat}, Circle h t (A ++ B) → B.length < k → inList h t n (nodeAt t B 0) k = .ok (decide (n ∈ B))
  | 0, _, _, _, hk => by omega
  | k + 1, A, [], c, _ => by simp [inList, nodeAt]
  | k + 1, A, b :: B, c, hk => by
    have hb : b ≠ t := Circle.ne c (by simp)
    have := inList_ok (n := n) k (A := A ++ [b]) (B := B) (by simpa using c) (by simp at hk; omega)
    show inList h t n b (k + 1) = _
    unfold inList
    rw [if_pos hb]
    by_cases hn : n = b
    · subst hn; simp
    · rw [if_neg hn]
      simp only [next_ok (c.ok b (by simp)), Circle.nx_mid c, this, bind, Except.bind]
      simp [hn]

end Etl.IList
