import Verif.Common.LinkSort

/-!
# Singly linked nodes

A heap of nodes with a `next` pointer, shared by the models of `etl::forward_list` (`/repo/include/etl/forward_list.h`) and
`etl::intrusive_forward_list` (`/repo/include/etl/intrusive_forward_list.h`).  Nodes are numbered `1..lim`; `0` is the null pointer.
Following or writing a pointer of anything else is the error `nullDeref`.
-/
namespace Etl

structure FLinks where
  lim : Nat
  nx : Nat → Nat

namespace FLinks

def valid (h : FLinks) (p : Nat) : Prop := 0 < p ∧ p ≤ h.lim
instance (h : FLinks) (p : Nat) : Decidable (h.valid p) := inferInstanceAs (Decidable (_ ∧ _))

/-- `p->next` -/
def next (h : FLinks) (p : Nat) : Res Nat := if h.valid p then .ok (h.nx p) else .error .nullDeref
/-- the heap after `left->next = right` -/
def linked (h : FLinks) (a b : Nat) : FLinks := { h with nx := upd h.nx a b }
/-- `join(left, right)`: `left->next = right;`, forward_list.h l.329-332; `etl::link(lhs, rhs)`, intrusive_links.h (forward_link overloads). -/
def join (h : FLinks) (a b : Nat) : Res FLinks := if h.valid a then .ok (h.linked a b) else .error .nullDeref

@[simp] theorem linked_lim (h : FLinks) (a b : Nat) : (h.linked a b).lim = h.lim := rfl
@[simp] theorem linked_valid (h : FLinks) (a b p : Nat) : (h.linked a b).valid p ↔ h.valid p := Iff.rfl
@[simp] theorem linked_nx (h : FLinks) (a b : Nat) : (h.linked a b).nx = upd h.nx a b := rfl
theorem next_ok {h : FLinks} {p : Nat} (hp : h.valid p) : h.next p = .ok (h.nx p) := if_pos hp
theorem join_ok {h : FLinks} {a b : Nat} (ha : h.valid a) : h.join a b = .ok (h.linked a b) := if_pos ha

/-- The nodes `l` are linked one after the other, starting with `p` and ending in a pointer to `e`. -/
def Seg (nx : Nat → Nat) (p : Nat) : List Nat → Nat → Prop
  | [], e => p = e
  | x :: l, e => p = x ∧ Seg nx (nx x) l e

theorem seg_append {nx : Nat → Nat} : ∀ {l m : List Nat} {p e : Nat}, Seg nx p (l ++ m) e ↔ ∃ q, Seg nx p l q ∧ Seg nx q m e
  | [], m, p, e => by simp [Seg]
  | x :: l, m, p, e => by simp [Seg, seg_append (l := l), and_assoc]

theorem seg_mid {nx : Nat → Nat} {l m : List Nat} {p x e : Nat} : Seg nx p (l ++ x :: m) e ↔ Seg nx p l x ∧ Seg nx (nx x) m e := by
  rw [seg_append]; constructor
  · rintro ⟨q, h1, rfl, h2⟩; exact ⟨h1, h2⟩
  · rintro ⟨h1, h2⟩; exact ⟨x, h1, rfl, h2⟩

theorem Seg.frame {nx nx' : Nat → Nat} : ∀ {l : List Nat} {p e : Nat}, Seg nx p l e → (∀ x ∈ l, nx' x = nx x) → Seg nx' p l e
  | [], _, _, h, _ => h
  | x :: l, _, _, h, hf => ⟨h.1, by rw [hf x (by simp)]; exact h.2.frame (fun y hy => hf y (by simp [hy]))⟩

theorem Seg.upd {nx : Nat → Nat} {l : List Nat} {p e a b : Nat} (h : Seg nx p l e) (ha : a ∉ l) : Seg (upd nx a b) p l e :=
  h.frame (fun x hx => upd_other _ _ (fun y => ha (y ▸ hx)))

theorem Seg.head {nx : Nat → Nat} {l : List Nat} {p e : Nat} (h : Seg nx p l e) : p = (l ++ [e]).head (by simp) := by
  cases l with
  | nil => exact h
  | cons x l => exact h.1

/-- The last node gets a new successor. -/
theorem Seg.relink {nx : Nat → Nat} {l : List Nat} {p x e b : Nat} (h : Seg nx p (l ++ [x]) e) (hx : x ∉ l) : Seg (Etl.upd nx x b) p (l ++ [x]) b := by
  rw [seg_mid] at h ⊢
  exact ⟨h.1.upd hx, by simp [Seg]⟩

theorem Seg.end_ne {nx : Nat → Nat} {l : List Nat} {p e : Nat} (h : Seg nx p l e) (he : e ∉ l) : p = e ↔ l = [] := by
  cases l with
  | nil => simp [show p = e from h]
  | cons x l =>
    simp only [List.cons_ne_nil, iff_false]; rintro rfl; exact he (by rw [h.1]; simp)

/-- A null-terminated (or terminator-terminated) list of the nodes `l`, hanging off the start node `t`. -/
structure Line (h : FLinks) (t e : Nat) (l : List Nat) : Prop where
  seg : Seg h.nx t (t :: l) e
  nd : (t :: l).Nodup
  ok : ∀ x ∈ t :: l, h.valid x
  ne : e ∉ t :: l

theorem Line.first {h : FLinks} {t e : Nat} {l : List Nat} (c : Line h t e l) : Seg h.nx (h.nx t) l e := c.seg.2
theorem Line.tv {h : FLinks} {t e : Nat} {l : List Nat} (c : Line h t e l) : h.valid t := c.ok t (by simp)

/-- Linking the chain `N` in after the node `p`. -/
theorem Line.insertSeg {h h' : FLinks} {t e p : Nat} {A B N : List Nat} {l : List Nat} (c : Line h t e l) (hl : t :: l = A ++ p :: B)
    (hlim : h'.lim = h.lim) (hf : ∀ x ∈ A ++ B, h'.nx x = h.nx x) (hp : Seg h'.nx (h'.nx p) N (h.nx p))
    (hN : N.Nodup) (hd : ∀ x ∈ N, x ∉ t :: l ∧ h.valid x ∧ x ≠ e) :
    ∃ l', t :: l' = A ++ p :: N ++ B ∧ Line h' t e l' := by
  have hseg := c.seg; rw [hl, seg_mid] at hseg
  obtain ⟨l', hl'⟩ : ∃ l', t :: l' = A ++ p :: N ++ B := by
    cases A with
    | nil => simp only [List.nil_append, List.cons.injEq] at hl; exact ⟨N ++ B, by simp [hl.1]⟩
    | cons a A => simp only [List.cons_append, List.cons.injEq] at hl; exact ⟨A ++ p :: N ++ B, by simp [hl.1]⟩
  have hperm : (A ++ p :: N ++ B).Perm (t :: l ++ N) := by
    rw [hl, List.append_assoc, List.append_assoc]
    exact List.Perm.append_left A (List.Perm.cons p List.perm_append_comm)
  refine ⟨l', hl', ?_, ?_, ?_, ?_⟩
  · rw [hl', List.append_assoc, List.cons_append, seg_mid, seg_append]
    exact ⟨hseg.1.frame (fun x hx => hf x (by simp [hx])), h.nx p, hp, hseg.2.frame (fun x hx => hf x (by simp [hx]))⟩
  · rw [hl', hperm.nodup_iff]
    exact List.nodup_append.2 ⟨c.nd, hN, fun x hx y hy e => (hd y hy).1 (e ▸ hx)⟩
  · intro x hx; rw [hl'] at hx
    unfold valid; rw [hlim]
    rcases List.mem_append.1 (hperm.mem_iff.1 hx) with h1 | h1
    · exact c.ok x h1
    · exact (hd x h1).2.1
  · intro hx; rw [hl'] at hx
    rcases List.mem_append.1 (hperm.mem_iff.1 hx) with h1 | h1
    · exact c.ne h1
    · exact (hd e h1).2.2 rfl

/-- Cutting out the nodes `M` after the node `p`. -/
theorem Line.cut {h h' : FLinks} {t e p q : Nat} {A M B : List Nat} {l : List Nat} (c : Line h t e l) (hl : t :: l = A ++ p :: M ++ B)
    (hlim : h'.lim = h.lim) (hf : ∀ x ∈ A ++ B, h'.nx x = h.nx x) (hp : h'.nx p = q) (hq : Seg h.nx q B e) :
    ∃ l', t :: l' = A ++ p :: B ∧ Line h' t e l' := by
  have hseg := c.seg; rw [hl, List.append_assoc, List.cons_append, seg_mid] at hseg
  obtain ⟨l', hl'⟩ : ∃ l', t :: l' = A ++ p :: B := by
    cases A with
    | nil => simp only [List.nil_append, List.cons_append, List.cons.injEq] at hl; exact ⟨B, by simp [hl.1]⟩
    | cons a A => simp only [List.cons_append, List.cons.injEq] at hl; exact ⟨A ++ p :: B, by simp [hl.1]⟩
  have hsub : (t :: l').Sublist (t :: l) := by
    rw [hl, hl', List.append_assoc]; exact List.Sublist.append_left (List.Sublist.cons_cons p (List.sublist_append_right M B)) A
  refine ⟨l', hl', ?_, c.nd.sublist hsub, ?_, fun hx => c.ne (hsub.subset hx)⟩
  · rw [hl', seg_mid, hp]
    exact ⟨hseg.1.frame (fun x hx => hf x (by simp [hx])), hq.frame (fun x hx => hf x (by simp [hx]))⟩
  · intro x hx; have := c.ok x (hsub.subset hx)
    unfold valid at this ⊢; rw [hlim]; exact this

/-! ## Positions: the last node of `t :: X` -/

/-- The node after which the elements following `X` hang. -/
def lst (t : Nat) (X : List Nat) : Nat := (t :: X).getLast (by simp)
/-- The first of `B`, or `e`. -/
def hd (e : Nat) (B : List Nat) : Nat := B.headD e

@[simp] theorem lst_nil (t : Nat) : lst t [] = t := rfl
@[simp] theorem lst_concat (t : Nat) (X : List Nat) (x : Nat) : lst t (X ++ [x]) = x := Links.getLast_cons_concat _ _ _ _
@[simp] theorem hd_nil (e : Nat) : hd e [] = e := rfl
@[simp] theorem hd_cons (e x : Nat) (B : List Nat) : hd e (x :: B) = x := rfl
theorem lst_append (t : Nat) (X Y : List Nat) : lst t (X ++ Y) = lst (lst t X) Y := by
  induction X generalizing t with
  | nil => rfl
  | cons x X ih => simp only [List.cons_append, lst, List.getLast_cons_cons]; exact ih x
theorem lst_split (t : Nat) (X : List Nat) : t :: X = (t :: X).dropLast ++ [lst t X] := (List.dropLast_concat_getLast _).symm
theorem lst_mem (t : Nat) (X : List Nat) : lst t X ∈ t :: X := List.getLast_mem _
theorem lst_mem_of_ne {t : Nat} {X : List Nat} (h : X ≠ []) : lst t X ∈ X := by
  rcases List.eq_nil_or_concat X with rfl | ⟨l, a, rfl⟩
  · exact absurd rfl h
  · simp

theorem Seg.hd {nx : Nat → Nat} {l : List Nat} {p e : Nat} (h : Seg nx p l e) : p = hd e l := by
  cases l with
  | nil => exact h
  | cons x l => exact h.1

theorem Line.frame {h h' : FLinks} {t e : Nat} {l : List Nat} (c : Line h t e l) (hl : h'.lim = h.lim) (hf : ∀ x ∈ t :: l, h'.nx x = h.nx x) : Line h' t e l :=
  ⟨c.seg.frame hf, c.nd, fun x hx => by have := c.ok x hx; unfold valid at this ⊢; rw [hl]; exact this, c.ne⟩

theorem split_at (t : Nat) (X B : List Nat) : t :: (X ++ B) = (t :: X).dropLast ++ lst t X :: B := by
  rw [show (t :: X).dropLast ++ lst t X :: B = ((t :: X).dropLast ++ [lst t X]) ++ B by simp, ← lst_split]; simp

theorem Line.mid {h : FLinks} {t e : Nat} {X B : List Nat} (c : Line h t e (X ++ B)) :
    h.valid (lst t X) ∧ Seg h.nx t (t :: X).dropLast (lst t X) ∧ Seg h.nx (h.nx (lst t X)) B e := by
  have hs := c.seg
  rw [split_at, seg_mid] at hs
  refine ⟨c.ok _ ?_, hs.1, hs.2⟩
  have := lst_mem t X; simp only [List.mem_cons, List.mem_append] at this ⊢; tauto

theorem Line.nx_lst {h : FLinks} {t e : Nat} {X B : List Nat} (c : Line h t e (X ++ B)) : h.nx (lst t X) = hd e B := c.mid.2.2.hd

theorem Line.lst_notin {h : FLinks} {t e : Nat} {X B : List Nat} (c : Line h t e (X ++ B)) : lst t X ∉ (t :: X).dropLast ++ B := by
  have := c.nd
  rw [split_at] at this
  exact (List.nodup_cons.1 (List.perm_middle.nodup_iff.1 this)).1

/-- Linking the chain `N` in after the last of `X`. -/
theorem Line.ins {h h' : FLinks} {t e : Nat} {X B N : List Nat} (c : Line h t e (X ++ B)) (hlim : h'.lim = h.lim) (hf : ∀ x ∈ t :: (X ++ B), x ≠ lst t X → h'.nx x = h.nx x)
    (hp : Seg h'.nx (h'.nx (lst t X)) N (h.nx (lst t X))) (hN : N.Nodup) (hd : ∀ x ∈ N, x ∉ t :: (X ++ B) ∧ h.valid x ∧ x ≠ e) : Line h' t e (X ++ N ++ B) := by
  have hf' : ∀ x ∈ (t :: X).dropLast ++ B, h'.nx x = h.nx x := by
    intro x hx
    refine hf x ?_ ?_
    · rw [split_at]; simp only [List.mem_append, List.mem_cons] at hx ⊢; tauto
    · rintro rfl; exact c.lst_notin hx
  obtain ⟨l', e1, c'⟩ := c.insertSeg (split_at t X B) hlim hf' hp hN hd
  have : t :: l' = t :: (X ++ N ++ B) := by
    rw [e1, show (t :: X).dropLast ++ lst t X :: N ++ B = ((t :: X).dropLast ++ [lst t X]) ++ (N ++ B) by simp, ← lst_split]; simp
  rw [(List.cons.inj this).2] at c'; exact c'

/-- Cutting out the nodes `M` after the last of `X`. -/
theorem Line.cut' {h h' : FLinks} {t e : Nat} {X M B : List Nat} (c : Line h t e (X ++ M ++ B)) (hlim : h'.lim = h.lim) (hf : ∀ x ∈ t :: (X ++ B), x ≠ lst t X → h'.nx x = h.nx x)
    (hp : h'.nx (lst t X) = hd e B) : Line h' t e (X ++ B) := by
  have hq : Seg h.nx (FLinks.hd e B) B e := by
    have := c.mid.2.2; rw [this.hd] at this; exact this
  have c0 : Line h t e (X ++ (M ++ B)) := by rw [← List.append_assoc]; exact c
  have e0 : t :: (X ++ M ++ B) = (t :: X).dropLast ++ lst t X :: M ++ B := by rw [List.append_assoc, split_at]; simp
  have hf' : ∀ x ∈ (t :: X).dropLast ++ B, h'.nx x = h.nx x := by
    intro x hx
    refine hf x ?_ ?_
    · rw [split_at]; simp only [List.mem_append, List.mem_cons] at hx ⊢; tauto
    · rintro rfl; exact c0.lst_notin (by simp only [List.mem_append] at hx ⊢; tauto)
  obtain ⟨l', e1, c'⟩ := c.cut e0 hlim hf' hp hq
  rw [← split_at] at e1
  rw [(List.cons.inj e1).2] at c'; exact c'

/-- Moving the nodes `M` from after `fb` to after `to`: the three pointer writes of `move_after`. -/
theorem Line.move {h h1 h' : FLinks} {t e : Nat} {X M B P Q : List Nat} (c : Line h t e (X ++ M ++ B)) (hM : M ≠ []) (hPQ : X ++ B = P ++ Q)
    (e1 : h1 = h.linked (lst t X) (h.nx (lst t (X ++ M)))) (e2 : h' = (h1.linked (lst t (X ++ M)) (h1.nx (lst t P))).linked (lst t P) (h.nx (lst t X))) :
    h.valid (lst t X) ∧ h.valid (lst t (X ++ M)) ∧ h.valid (lst t P) ∧ Line h' t e (P ++ M ++ Q) := by
  have cX : Line h t e (X ++ (M ++ B)) := by rw [← List.append_assoc]; exact c
  have vX := cX.mid.1
  have vM := c.mid.1
  have c1 : Line h1 t e (X ++ B) := by
    refine c.cut' (by rw [e1]; rfl) ?_ ?_
    · intro x _ hx; rw [e1, linked_nx, upd_other _ _ hx]
    · rw [e1, linked_nx, upd_same, c.nx_lst]
  rw [hPQ] at c1
  have hfin : lst t (X ++ M) ∈ M := by rw [lst_append]; exact lst_mem_of_ne hM
  have hnd := c.nd
  have hndM : M.Nodup := hnd.sublist (by rw [show t :: (X ++ M ++ B) = (t :: X) ++ (M ++ B) by simp]; exact (List.sublist_append_left M B).trans (List.sublist_append_right _ _))
  have hMn : ∀ x ∈ M, x ∉ t :: (P ++ Q) := by
    intro x hx hy
    rw [← hPQ] at hy
    have hp : (t :: (X ++ M ++ B)).Perm (M ++ t :: (X ++ B)) := by
      rw [show t :: (X ++ M ++ B) = (t :: X) ++ M ++ B by simp, show M ++ t :: (X ++ B) = M ++ (t :: X) ++ B by simp]
      exact List.Perm.append_right B List.perm_append_comm
    exact (List.nodup_append.1 (hp.nodup_iff.1 hnd)).2.2 x hx x hy rfl
  have hPne : lst t P ∉ M := fun hx => hMn _ hx (by have := lst_mem t P; simp only [List.mem_cons, List.mem_append] at this ⊢; tauto)
  have hXne : lst t X ∉ M := fun hx => hMn _ hx (by rw [← hPQ]; have := lst_mem t X; simp only [List.mem_cons, List.mem_append] at this ⊢; tauto)
  have vP : h.valid (lst t P) := by have := c1.mid.1; rw [e1] at this; simpa using this
  refine ⟨vX, vM, vP, ?_⟩
  refine c1.ins (by rw [e2]; rfl) ?_ ?_ hndM (fun x hx => ⟨hMn x hx, by rw [e1]; exact c.ok x (by simp [hx]), fun h => c.ne (by rw [← h]; simp [hx])⟩)
  · intro x hx hne
    rw [e2, linked_nx, upd_other _ _ hne, linked_nx, upd_other]
    rintro rfl; exact hMn _ hfin hx
  · have s1 : Seg h.nx (h.nx (lst t X)) M (h.nx (lst t (X ++ M))) := by
      have := cX.mid.2.2
      rw [seg_append] at this
      obtain ⟨q, h1, h2⟩ := this
      have h3 : h.nx (lst t (X ++ M)) = q := by rw [c.nx_lst, h2.hd]
      rw [h3]; exact h1
    have hMsp : M = M.dropLast ++ [lst t (X ++ M)] := by
      rcases List.eq_nil_or_concat M with rfl | ⟨l, a, rfl⟩
      · exact absurd rfl hM
      · simp [← List.append_assoc]
    have hfd : lst t (X ++ M) ∉ M.dropLast := by
      rw [hMsp] at hndM
      exact fun hx => (List.nodup_append.1 hndM).2.2 _ hx _ (by simp) rfl
    rw [e2]; simp only [linked_nx, upd_same]
    refine Seg.upd ?_ hPne
    have s2 : Seg h1.nx (h.nx (lst t X)) M (h.nx (lst t (X ++ M))) := by rw [e1]; exact s1.upd hXne
    have s3 : Seg h1.nx (h.nx (lst t X)) (M.dropLast ++ [lst t (X ++ M)]) (h.nx (lst t (X ++ M))) := by rw [← hMsp]; exact s2
    have s4 := s3.relink (b := h1.nx (lst t P)) hfd
    rw [← hMsp] at s4; exact s4

/-- Forward traversal: from `p` by `++` until `e`. -/
def walk (h : FLinks) (e : Nat) (p : Nat) : Nat → Res (List Nat)
  | 0 => .error .diverge
  | k + 1 => if p = e then .ok [] else do
    let q ← h.next p
    let l ← walk h e q k
    .ok (p :: l)

theorem Seg.walk {h : FLinks} {e : Nat} : ∀ {l : List Nat} {p : Nat} (k : Nat), Seg h.nx p l e → (∀ x ∈ l, h.valid x) → e ∉ l → l.length < k → h.walk e p k = .ok l
  | l, p, 0, _, _, _, hk => by omega
  | [], p, k + 1, hs, _, _, _ => by rw [FLinks.walk, if_pos (show p = e from hs)]
  | x :: l, p, k + 1, hs, hv, he, hk => by
    obtain ⟨rfl, h2⟩ := hs
    rw [FLinks.walk, if_neg (fun y => he (by simp [y])), next_ok (hv p (by simp))]
    simp only [bind, Except.bind, Seg.walk k h2 (fun x hx => hv x (by simp [hx])) (fun y => he (by simp [y])) (by simpa using hk)]

theorem Line.walk {h : FLinks} {t e : Nat} {l : List Nat} (c : Line h t e l) {k : Nat} (hk : l.length < k) : h.walk e (h.nx t) k = .ok l :=
  c.first.walk k (fun x hx => c.ok x (by simp [hx])) (fun x => c.ne (by simp [x])) hk

/-- `p` advanced `k` times. -/
def fwd (h : FLinks) (p : Nat) : Nat → Res Nat
  | 0 => .ok p
  | k + 1 => do fwd h (← h.next p) k

theorem Seg.fwd {h : FLinks} {e : Nat} : ∀ {A : List Nat} {p : Nat}, Seg h.nx p A e → (∀ x ∈ A, h.valid x) → h.fwd p A.length = .ok e
  | [], p, hs, _ => by rw [show p = e from hs]; rfl
  | x :: A, p, hs, hv => by
    obtain ⟨rfl, h2⟩ := hs
    simp only [List.length_cons, FLinks.fwd, next_ok (hv p (by simp)), bind, Except.bind]
    exact h2.fwd (fun x hx => hv x (by simp [hx]))

/-! ## Reversing -/

/-- `forward_list::reverse` / `intrusive_forward_list::reverse`: the loop that turns the links round.  `prev` is what the first node is linked to. -/
def revLoop (h : FLinks) (e prev cur : Nat) : Nat → Res (FLinks × Nat)
  | 0 => if cur ≠ e then .error .diverge else .ok (h, prev)
  | k + 1 => if cur ≠ e then do
      let n ← h.next cur
      let h ← h.join cur prev
      revLoop h e cur n k
    else .ok (h, prev)

theorem revLoop_ok {e : Nat} : ∀ {l : List Nat} (k : Nat) {h : FLinks} {prev cur z : Nat} {r : List Nat}, Seg h.nx cur l e → Seg h.nx prev r z → (l ++ r).Nodup → e ∉ l →
    (∀ x ∈ l, h.valid x) → l.length ≤ k →
    ∃ h' p, revLoop h e prev cur k = .ok (h', p) ∧ h'.lim = h.lim ∧ Seg h'.nx p (l.reverse ++ r) z ∧ (∀ x, x ∉ l → h'.nx x = h.nx x)
  | [], k, h, prev, cur, z, r, hs, hr, _, _, _, _ => by
    refine ⟨h, prev, ?_, rfl, by simpa using hr, fun _ _ => rfl⟩
    have : cur = e := hs
    cases k <;> simp [revLoop, this]
  | x :: l, 0, _, _, _, _, _, _, _, _, _, _, hk => by simp at hk
  | x :: l, k + 1, h, prev, cur, z, r, hs, hr, hnd, he, hv, hk => by
    obtain ⟨rfl, h2⟩ := hs
    have hcv := hv cur (by simp)
    have hnd' := List.nodup_cons.1 hnd
    have h3 : Seg (h.linked cur prev).nx (h.nx cur) l e := h2.upd (fun y => hnd'.1 (by simp [y]))
    have h4 : Seg (h.linked cur prev).nx cur (cur :: r) z := ⟨rfl, by simp only [linked_nx, upd_same]; exact hr.upd (fun y => hnd'.1 (by simp [y]))⟩
    obtain ⟨h', p, e1, e2, e3, e4⟩ := revLoop_ok k (z := z) h3 h4 (List.perm_middle.nodup_iff.2 hnd) (fun y => he (by simp [y])) (fun y hy => hv y (by simp [hy])) (by simpa using hk)
    refine ⟨h', p, ?_, e2, by simpa using e3, ?_⟩
    · simp only [revLoop]; rw [if_pos (fun y => he (by simp [y]))]
      simp only [next_ok hcv, join_ok hcv, bind, Except.bind, e1]
    · intro y hy; rw [e4 y (fun z => hy (by simp [z])), linked_nx, upd_other _ _ (fun z => hy (by simp [z]))]

end FLinks
end Etl
