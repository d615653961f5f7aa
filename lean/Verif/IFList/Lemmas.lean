import Verif.IFList.Model
import Mathlib.Tactic.Tauto
import Mathlib.Tactic.SplitIfs
import Batteries.Data.List.Perm
import Batteries.Tactic.SeqFocus

/-!
# Heap lemmas for the intrusive forward list
-/
namespace Etl.IFList
open FLinks

/-- `h'` differs from `h` at most on the nodes in `S`. -/
structure Only (h h' : FLinks) (S : List Nat) : Prop where
  lim : h'.lim = h.lim
  out : ∀ x, x ∉ S → h'.nx x = h.nx x

theorem Only.refl (h : FLinks) (S : List Nat) : Only h h S := ⟨rfl, fun _ _ => rfl⟩
theorem Only.trans {a b c : FLinks} {S : List Nat} (h1 : Only a b S) (h2 : Only b c S) : Only a c S :=
  ⟨h2.lim.trans h1.lim, fun x hx => (h2.out x hx).trans (h1.out x hx)⟩
theorem Only.mono {a b : FLinks} {S S' : List Nat} (h : Only a b S) (hs : ∀ x ∈ S, x ∈ S') : Only a b S' :=
  ⟨h.lim, fun x hx => h.out x (fun y => hx (hs x y))⟩
theorem Only.valid {a b : FLinks} {S : List Nat} (h : Only a b S) {x : Nat} : b.valid x ↔ a.valid x := by unfold FLinks.valid; rw [h.lim]
theorem Only.link {h : FLinks} {S : List Nat} {a b : Nat} (ha : a ∈ S) : Only h (h.linked a b) S :=
  ⟨rfl, fun x hx => upd_other _ _ (fun e => hx (e ▸ ha))⟩
theorem Only.clr {h : FLinks} {S : List Nat} {a : Nat} (ha : a ∈ S) : Only h (clearLink h a) S :=
  ⟨rfl, fun x hx => upd_other _ _ (fun e => hx (e ▸ ha))⟩

theorem Line.frm {h h' : FLinks} {t e : Nat} {l S : List Nat} (c : Line h t e l) (o : Only h h' S) (hd : ∀ x ∈ t :: l, x ∉ S) : Line h' t e l :=
  c.frame o.lim (fun x hx => o.out x (hd x hx))

theorem Line.len {h : FLinks} {t e : Nat} {l : List Nat} (c : Line h t e l) : l.length + 1 ≤ h.lim := by
  have hsub : (t :: l) ⊆ List.range' 1 h.lim := by
    intro x hx
    have := c.ok x hx
    simp only [List.mem_range'_1]; unfold FLinks.valid at this; omega
  have := (List.subperm_of_subset c.nd hsub).length_le
  simpa using this

theorem Line.nx_mem {h : FLinks} {t e x : Nat} {A B : List Nat} (c : Line h t e (A ++ x :: B)) : h.nx x = hd e B := by
  have c' : Line h t e ((A ++ [x]) ++ B) := by simpa using c
  have := c'.nx_lst; rwa [lst_concat] at this
theorem Line.neE {h : FLinks} {t e x : Nat} {l : List Nat} (c : Line h t e l) (hx : x ∈ l) : x ≠ e := by rintro rfl; exact c.ne (by simp [hx])
theorem Line.neT {h : FLinks} {t e x : Nat} {l : List Nat} (c : Line h t e l) (hx : x ∈ l) : x ≠ t := by
  rintro rfl; exact (List.nodup_cons.1 c.nd).1 hx
theorem valid_ne {h : FLinks} {x : Nat} (hx : h.valid x) : x ≠ 0 := by unfold FLinks.valid at hx; omega
theorem lst_sub (t : Nat) (A S : List Nat) (h : ∀ x ∈ t :: A, x ∈ S) : lst t A ∈ S := h _ (lst_mem t A)

theorem linkSplice_ok {h : FLinks} {t e : Nat} {A B : List Nat} (c : Line h t e (A ++ B)) {n : Nat} (hn : n ∉ t :: (A ++ B)) (hv : h.valid n) (hne : n ≠ e) :
    ∃ h', linkSplice h (lst t A) n = .ok h' ∧ Line h' t e (A ++ n :: B) ∧ Only h h' (t :: (A ++ n :: B)) ∧ h'.nx (lst t A) = n := by
  have hm : lst t A ∈ t :: (A ++ B) := lst_sub t A _ (by intro x hx; simp only [List.mem_cons, List.mem_append] at hx ⊢; tauto)
  have hln : lst t A ≠ n := by rintro rfl; exact hn hm
  have vA := c.mid.1
  refine ⟨(h.linked n (h.nx (lst t A))).linked (lst t A) n, ?_, ?_, ?_, by simp⟩
  · simp only [linkSplice, next_ok vA, join_ok hv, bind, Except.bind]
    exact join_ok (by simpa using vA)
  · have := c.ins (h' := (h.linked n (h.nx (lst t A))).linked (lst t A) n) (N := [n]) rfl (fun x hx hxl => by
      have : x ≠ n := by rintro rfl; exact hn hx
      simp only [linked_nx, upd_other _ _ hxl, upd_other _ _ this]) (by
      refine ⟨by simp, ?_⟩
      simp only [linked_nx, upd_other _ _ (Ne.symm hln), upd_same]; rfl) (by simp) (fun x hx => by
      have : x = n := by simpa using hx
      subst this; exact ⟨hn, hv, hne⟩)
    simpa using this
  · refine (Only.link (by simp)).trans (Only.link ?_)
    simp only [List.mem_cons, List.mem_append] at hm ⊢; tauto

theorem unlinkAfter_ok {h : FLinks} {t e : Nat} {A B : List Nat} {x : Nat} (c : Line h t e (A ++ x :: B)) :
    ∃ h', unlinkAfter h (lst t A) = .ok (h', x) ∧ Line h' t e (A ++ B) ∧ h'.nx x = 0 ∧ Only h h' (t :: (A ++ x :: B)) ∧ h'.nx (lst t A) = hd e B := by
  have vA := c.mid.1
  have vx := c.ok x (by simp)
  have e1 : h.nx (lst t A) = x := c.nx_lst
  have e2 := Line.nx_mem c
  have hnd : x ∉ t :: (A ++ B) := by
    have h1 : (t :: (A ++ x :: B)).Perm (x :: t :: (A ++ B)) := (List.Perm.cons t List.perm_middle).trans (List.Perm.swap ..)
    exact (List.nodup_cons.1 (h1.nodup_iff.1 c.nd)).1
  have hm : lst t A ∈ t :: (A ++ B) := lst_sub t A _ (by intro x hx; simp only [List.mem_cons, List.mem_append] at hx ⊢; tauto)
  have hlx : lst t A ≠ x := by rintro z; rw [z] at hm; exact hnd hm
  refine ⟨clearLink (h.linked (lst t A) (hd e B)) x, ?_, ?_, by simp [clearLink], ?_, ?_⟩
  · unfold unlinkAfter
    simp only [next_ok vA, e1, bind, Except.bind]
    rw [if_pos (valid_ne vx)]
    simp only [next_ok vx, e2, join_ok vA]
  · have c' : Line h t e (A ++ [x] ++ B) := by simpa using c
    refine c'.cut' rfl ?_ ?_
    · intro y hy hyl
      have : y ≠ x := by rintro rfl; exact hnd hy
      simp only [clearLink, linked_nx, upd_other _ _ this, upd_other _ _ hyl]
    · simp only [clearLink, linked_nx, upd_other _ _ hlx, upd_same]
  · refine (Only.link ?_).trans (Only.clr (by simp))
    simp only [List.mem_cons, List.mem_append] at hm ⊢; tauto
  · simp only [clearLink, linked_nx, upd_other _ _ hlx, upd_same]

theorem clearLoop_ok : ∀ (k : Nat) {h : FLinks} {M : List Nat} {p last : Nat}, Seg h.nx p M last → M.Nodup → last ∉ M → (∀ x ∈ M, h.valid x) → M.length ≤ k →
    ∃ h', clearLoop h p last k = .ok h' ∧ Only h h' M ∧ (∀ x ∈ M, h'.nx x = 0)
  | k, h, [], p, last, hs, _, _, _, _ => by
    have : p = last := hs
    refine ⟨h, ?_, Only.refl _ _, by simp⟩
    cases k <;> simp [clearLoop, this]
  | 0, h, x :: M, p, last, _, _, _, _, hk => by simp at hk
  | k + 1, h, x :: M, p, last, hs, nd, hl, hv, hk => by
    obtain ⟨rfl, hs⟩ := hs
    have nd' := List.nodup_cons.1 nd
    obtain ⟨h', e, o, z⟩ := clearLoop_ok k (h := clearLink h p) (p := h.nx p) (hs.upd nd'.1) nd'.2 (fun y => hl (by simp [y])) (fun y hy => hv y (by simp [hy])) (by simpa using hk)
    refine ⟨h', ?_, (Only.clr (by simp)).trans (o.mono (by simp; tauto)), fun y hy => ?_⟩
    · unfold clearLoop
      rw [if_pos (fun y => hl (by simp [y]))]
      simp only [next_ok (hv p (by simp)), bind, Except.bind]; exact e
    · by_cases hyM : y ∈ M
      · exact z y hyM
      · have : y = p := by simpa [hyM] using hy
        subst this; rw [o.out y hyM]; simp [clearLink]

/-- A heap in which the lists `ts` hold the node sequences `L`: each list ends at the terminator, lists share no node, nodes in no list (and the terminator) have a null link. -/
structure Sys (h : FLinks) (sz : Nat → Nat) (ts : List Nat) (L : Nat → List Nat) : Prop where
  line : ∀ t ∈ ts, Line h t E (L t)
  dis : ∀ t ∈ ts, ∀ u ∈ ts, t ≠ u → ∀ x ∈ t :: L t, x ∉ u :: L u
  free : ∀ x, (∀ t ∈ ts, x ∉ t :: L t) → h.valid x → h.nx x = 0
  size : ∀ t ∈ ts, sz t = (L t).length
  term : h.valid E

variable {h h' : FLinks} {sz sz' : Nat → Nat} {ts : List Nat} {L : Nat → List Nat} {t u : Nat}

theorem Sys.one (g : Sys h sz ts L) (ht : t ∈ ts) {l' N : List Nat} (c : Line h' t E l') (o : Only h h' (t :: (L t ++ N)))
    (hN : ∀ n ∈ N, ∀ u ∈ ts, n ∉ u :: L u) (hl : ∀ x ∈ l', x ∈ L t ++ N) (hz : ∀ x ∈ L t ++ N, x ∉ l' → h'.nx x = 0)
    (h1 : sz' t = l'.length) (h2 : ∀ v, v ≠ t → sz' v = sz v) : Sys h' sz' ts (upd L t l') := by
  have key : ∀ v ∈ ts, v ≠ t → ∀ x ∈ v :: L v, x ∉ t :: (L t ++ N) := by
    intro v hv hvt x hx hy
    have := g.dis v hv t ht hvt x hx
    simp only [List.mem_cons, List.mem_append] at hy this
    rcases hy with hy | hy | hy
    · exact this (Or.inl hy)
    · exact this (Or.inr hy)
    · exact hN x hy v hv hx
  have sub : ∀ x ∈ t :: l', x ∈ t :: (L t ++ N) := by
    intro x hx
    rcases List.mem_cons.1 hx with hx | hx
    · simp [hx]
    · exact List.mem_cons_of_mem _ (hl x hx)
  refine ⟨fun v hv => ?_, fun v hv w hw hvw x hx => ?_, fun x hx hval => ?_, fun v hv => ?_, o.valid.2 g.term⟩
  · by_cases e : v = t
    · subst e; rw [upd_same]; exact c
    · rw [upd_other _ _ e]; exact Line.frm (g.line v hv) o (key v hv e)
  · by_cases e1 : v = t
    · subst e1
      have e2 : w ≠ v := fun e => hvw e.symm
      rw [upd_same] at hx; rw [upd_other _ _ e2]
      intro hy; exact key w hw e2 x hy (sub x hx)
    · rw [upd_other _ _ e1] at hx
      by_cases e2 : w = t
      · subst e2; rw [upd_same]; intro hy; exact key v hv e1 x hx (sub x hy)
      · rw [upd_other _ _ e2]; exact g.dis v hv w hw hvw x hx
  · have hxt := hx t ht
    rw [upd_same] at hxt
    by_cases hm : x ∈ L t ++ N
    · exact hz x hm (fun z => hxt (List.mem_cons_of_mem _ z))
    · have hx0 : x ∉ t :: (L t ++ N) := by
        intro z; rcases List.mem_cons.1 z with z | z
        · exact hxt (by simp [z])
        · exact hm z
      rw [o.out x hx0]
      refine g.free x (fun v hv => ?_) (o.valid.1 hval)
      by_cases e : v = t
      · subst e; intro z; apply hx0; simp only [List.mem_cons, List.mem_append] at z ⊢; tauto
      · have := hx v hv; rw [upd_other _ _ e] at this; exact this
  · by_cases e : v = t
    · subst e; rw [upd_same, h1]
    · rw [upd_other _ _ e, h2 v e]; exact g.size v hv

theorem Sys.two (g : Sys h sz ts L) (ht : t ∈ ts) (hu : u ∈ ts) (htu : t ≠ u) {l' m' : List Nat} (ct : Line h' t E l') (cu : Line h' u E m')
    (p : (l' ++ m').Perm (L t ++ L u)) (o : Only h h' (t :: u :: (L t ++ L u)))
    (h1 : sz' t = l'.length) (h2 : sz' u = m'.length) (h3 : ∀ v, v ≠ t → v ≠ u → sz' v = sz v) : Sys h' sz' ts (upd (upd L t l') u m') := by
  have key : ∀ v ∈ ts, v ≠ t → v ≠ u → ∀ x ∈ v :: L v, x ∉ t :: u :: (L t ++ L u) := by
    intro v hv hvt hvu x hx hy
    have a := g.dis v hv t ht hvt x hx
    have b := g.dis v hv u hu hvu x hx
    simp only [List.mem_cons, List.mem_append] at hy a b
    tauto
  have et : upd (upd L t l') u m' t = l' := by rw [upd_other _ _ htu, upd_same]
  have eu : upd (upd L t l') u m' u = m' := by rw [upd_same]
  have ev : ∀ v, v ≠ t → v ≠ u → upd (upd L t l') u m' v = L v := fun v a b => by rw [upd_other _ _ b, upd_other _ _ a]
  have mt : ∀ x ∈ t :: l', x ∈ t :: u :: (L t ++ L u) := by
    intro x hx
    rcases List.mem_cons.1 hx with hx | hx
    · simp [hx]
    · have := p.mem_iff.1 (List.mem_append_left m' hx); simp only [List.mem_cons]; tauto
  have mu : ∀ x ∈ u :: m', x ∈ t :: u :: (L t ++ L u) := by
    intro x hx
    rcases List.mem_cons.1 hx with hx | hx
    · simp [hx]
    · have := p.mem_iff.1 (List.mem_append_right l' hx); simp only [List.mem_cons]; tauto
  have hnd : (l' ++ m').Nodup := by
    rw [p.nodup_iff]
    refine List.nodup_append.2 ⟨(List.nodup_cons.1 (g.line t ht).nd).2, (List.nodup_cons.1 (g.line u hu).nd).2, ?_⟩
    intro a ha b hb e
    subst e
    exact g.dis t ht u hu htu a (by simp [ha]) (by simp [hb])
  have htu' : ∀ x ∈ t :: l', x ∉ u :: m' := by
    intro x hx hy
    have tn : t ∉ L t ++ L u := by
      intro z
      rcases List.mem_append.1 z with z | z
      · exact (List.nodup_cons.1 (g.line t ht).nd).1 z
      · exact g.dis t ht u hu htu t (by simp) (by simp [z])
    have un : u ∉ L t ++ L u := by
      intro z
      rcases List.mem_append.1 z with z | z
      · exact g.dis u hu t ht (Ne.symm htu) u (by simp) (by simp [z])
      · exact (List.nodup_cons.1 (g.line u hu).nd).1 z
    rcases List.mem_cons.1 hx with hx | hx <;> rcases List.mem_cons.1 hy with hy | hy
    · exact htu (hx ▸ hy)
    · exact tn (p.mem_iff.1 (List.mem_append_right l' (hx ▸ hy)))
    · exact un (p.mem_iff.1 (List.mem_append_left m' (hy ▸ hx)))
    · exact (List.nodup_append.1 hnd).2.2 x hx x hy rfl
  refine ⟨fun v hv => ?_, fun v hv w hw hvw x hx => ?_, fun x hx hval => ?_, fun v hv => ?_, o.valid.2 g.term⟩
  · by_cases e : v = t
    · subst e; rw [et]; exact ct
    · by_cases e' : v = u
      · subst e'; rw [eu]; exact cu
      · rw [ev v e e']; exact Line.frm (g.line v hv) o (key v hv e e')
  · by_cases v1 : v = t
    · subst v1; rw [et] at hx
      by_cases w1 : w = u
      · subst w1; rw [eu]; exact htu' x hx
      · rw [ev w (Ne.symm hvw) w1]; intro hy; exact key w hw (Ne.symm hvw) w1 x hy (mt x hx)
    · by_cases v2 : v = u
      · subst v2; rw [eu] at hx
        by_cases w1 : w = t
        · subst w1; rw [et]; intro hy; exact htu' x hy hx
        · rw [ev w w1 (Ne.symm hvw)]; intro hy; exact key w hw w1 (Ne.symm hvw) x hy (mu x hx)
      · rw [ev v v1 v2] at hx
        by_cases w1 : w = t
        · subst w1; rw [et]; intro hy; exact key v hv v1 v2 x hx (mt x hy)
        · by_cases w2 : w = u
          · subst w2; rw [eu]; intro hy; exact key v hv v1 v2 x hx (mu x hy)
          · rw [ev w w1 w2]; exact g.dis v hv w hw hvw x hx
  · have a := hx t ht; rw [et] at a
    have b := hx u hu; rw [eu] at b
    have hx0 : x ∉ t :: u :: (L t ++ L u) := by
      intro z
      rcases List.mem_cons.1 z with z | z
      · exact a (by simp [z])
      · rcases List.mem_cons.1 z with z | z
        · exact b (by simp [z])
        · rcases List.mem_append.1 (p.mem_iff.2 z) with z | z
          · exact a (by simp [z])
          · exact b (by simp [z])
    rw [o.out x hx0]
    refine g.free x (fun v hv => ?_) (o.valid.1 hval)
    by_cases e : v = t
    · subst e; intro z; apply hx0; simp only [List.mem_cons, List.mem_append] at z ⊢; tauto
    · by_cases e' : v = u
      · subst e'; intro z; apply hx0; simp only [List.mem_cons, List.mem_append] at z ⊢; tauto
      · have := hx v hv; rw [ev v e e'] at this; exact this
  · by_cases e : v = t
    · subst e; rw [et, h1]
    · by_cases e' : v = u
      · subst e'; rw [eu, h2]
      · rw [ev v e e', h3 v e e']; exact g.size v hv

end Etl.IFList
