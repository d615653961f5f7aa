import Verif.IFList.Lemmas

/-!
# Effect of the intrusive forward list operations on a system of lists
-/
namespace Etl.IFList
open FLinks

variable {h h' : FLinks} {sz sz' : Nat → Nat} {ts : List Nat} {L : Nat → List Nat} {t u : Nat}

/-- Same options. -/
def Same (s s' : St) : Prop := s'.check = s.check ∧ s'.dbg = s.dbg ∧ s'.h.lim = s.h.lim
theorem Same.refl (s : St) : Same s s := ⟨rfl, rfl, rfl⟩
theorem Same.trans {a b c : St} (h1 : Same a b) (h2 : Same b c) : Same a c := ⟨h2.1.trans h1.1, h2.2.1.trans h1.2.1, h2.2.2.trans h1.2.2⟩

abbrev SysOf (s : St) (ts : List Nat) (L : Nat → List Nat) : Prop := Sys s.h s.sz ts L

/-- Free: in no list, and a real node. -/
def Free (h : FLinks) (ts : List Nat) (L : Nat → List Nat) (n : Nat) : Prop := h.valid n ∧ n ≠ E ∧ ∀ t ∈ ts, n ∉ t :: L t

variable {s : St}

theorem upd_self {L : Nat → List Nat} {t : Nat} {l : List Nat} (e : L t = l) : upd L t l = L := by
  funext v; by_cases hv : v = t <;> simp [upd, hv, e]
theorem upd_upd (L : Nat → List Nat) (t : Nat) (l m : List Nat) : upd (upd L t l) t m = upd L t m := by
  funext v; by_cases hv : v = t <;> simp [upd, hv]

theorem isLinked_mem (g : SysOf s ts L) (ht : t ∈ ts) {n : Nat} (hn : n ∈ L t) : isLinked s.h n = true := by
  obtain ⟨A, B, e⟩ := List.append_of_mem hn
  have c := g.line t ht; rw [e] at c
  have h1 := Line.nx_mem c
  have : s.h.nx n ≠ 0 := by
    rw [h1]
    cases B with
    | nil => exact valid_ne g.term
    | cons b B => exact valid_ne (c.ok b (by simp))
  simp [isLinked, this]

theorem isLinked_free (g : SysOf s ts L) {n : Nat} (hn : Free s.h ts L n) : isLinked s.h n = false := by
  simp [isLinked, g.free n hn.2.2 hn.1]

theorem insertLink_ok (g : SysOf s ts L) (ht : t ∈ ts) {A B : List Nat} (e : L t = A ++ B) {n : Nat} (hn : Free s.h ts L n) :
    ∃ s', insertLink s t (lst t A) n = .ok s' ∧ Same s s' ∧ SysOf s' ts (upd L t (A ++ n :: B)) ∧ s'.h.nx (lst t A) = n := by
  have c := g.line t ht; rw [e] at c
  have hnt := hn.2.2 t ht; rw [e] at hnt
  obtain ⟨h', e1, c1, o1, f1⟩ := linkSplice_ok c hnt hn.1 hn.2.1
  refine ⟨{ s with h := h', sz := upd s.sz t (s.sz t + 1) }, by simp [insertLink, e1, bind, Except.bind], ⟨rfl, rfl, o1.lim⟩, ?_, f1⟩
  refine g.one ht (N := [n]) c1 (o1.mono ?_) ?_ ?_ ?_ ?_ ?_
  · intro x hx; rw [e]; simp only [List.mem_cons, List.mem_append, List.not_mem_nil] at hx ⊢; tauto
  · intro m hm v hv; have : m = n := by simpa using hm
    subst this; exact hn.2.2 v hv
  · intro x hx; rw [e]; simp only [List.mem_cons, List.mem_append, List.not_mem_nil] at hx ⊢; tauto
  · intro x hx hy; exfalso; apply hy; rw [e] at hx; simp only [List.mem_cons, List.mem_append, List.not_mem_nil] at hx ⊢; tauto
  · have := g.size t ht; rw [e] at this; simp at this; simp [this]; omega
  · intro v hv; exact upd_other _ _ hv

theorem disconnect_ok (g : SysOf s ts L) (ht : t ∈ ts) {A B : List Nat} {x : Nat} (e : L t = A ++ x :: B) :
    ∃ s', disconnect s t (lst t A) = .ok s' ∧ Same s s' ∧ SysOf s' ts (upd L t (A ++ B)) ∧ s'.h.nx (lst t A) = hd E B := by
  have c := g.line t ht; rw [e] at c
  obtain ⟨h', e1, c1, z1, o1, f1⟩ := unlinkAfter_ok c
  have hc : clearLink h' x = h' := by
    have : upd h'.nx x 0 = h'.nx := by funext y; by_cases hy : y = x <;> simp [upd, hy, z1]
    simp [clearLink, this]
  refine ⟨{ s with h := h', sz := upd s.sz t (s.sz t - 1) }, ?_, ⟨rfl, rfl, o1.lim⟩, ?_, f1⟩
  · have hx : x ≠ E := Line.neE c (by simp)
    have hnx : s.h.nx (lst t A) = x := c.nx_lst
    simp only [disconnect, next_ok c.mid.1, hnx, bind, Except.bind, hx, ne_eq, not_false_eq_true, if_true, e1, hc]
  refine g.one ht (N := []) c1 (o1.mono ?_) ?_ ?_ ?_ ?_ ?_
  · intro x hx; rw [e]; simpa using hx
  · simp
  · intro x hx; rw [e]; simp only [List.mem_cons, List.mem_append, List.not_mem_nil] at hx ⊢; tauto
  · intro y hy hy'
    have : y = x := by rw [e] at hy; simp only [List.mem_cons, List.mem_append, List.not_mem_nil] at hy hy'; tauto
    subst this; exact z1
  · have := g.size t ht; rw [e] at this; simp at this; simp [this]
  · intro v hv; exact upd_other _ _ hv

theorem disconnect_end (g : SysOf s ts L) (ht : t ∈ ts) : disconnect s t (lst t (L t)) = .ok s := by
  have c : Line s.h t E (L t ++ []) := by simpa using g.line t ht
  have hnx := c.nx_lst
  simp only [disconnect, next_ok c.mid.1, hnx, bind, Except.bind, hd_nil, ne_eq, not_true, if_false]

theorem empty_ok (g : SysOf s ts L) (ht : t ∈ ts) : empty s t = decide (L t = []) := by
  simp only [empty, g.size t ht]
  cases L t <;> simp
theorem isTrivial_ok (g : SysOf s ts L) (ht : t ∈ ts) : isTrivial s t = decide ((L t).length ≤ 1) := by
  simp only [isTrivial, g.size t ht]

/-- Node `n` is in some list. -/
def InSome (ts : List Nat) (L : Nat → List Nat) (n : Nat) : Prop := ∃ t ∈ ts, n ∈ L t
instance (ts : List Nat) (L : Nat → List Nat) (n : Nat) : Decidable (InSome ts L n) := inferInstanceAs (Decidable (∃ t ∈ ts, n ∈ L t))

/-- A node of the user. -/
def Node (lim : Nat) (ts : List Nat) (n : Nat) : Prop := 0 < n ∧ n ≤ lim ∧ n ∉ ts ∧ n ≠ E

theorem linked_dec (g : SysOf s ts L) {n : Nat} (hn : Node s.h.lim ts n) : (isLinked s.h n = true ∧ InSome ts L n) ∨ (isLinked s.h n = false ∧ ¬ InSome ts L n ∧ Free s.h ts L n) := by
  by_cases h : InSome ts L n
  · obtain ⟨t, ht, hm⟩ := h
    exact Or.inl ⟨isLinked_mem g ht hm, t, ht, hm⟩
  · have hf : Free s.h ts L n := ⟨⟨hn.1, hn.2.1⟩, hn.2.2.2, fun t ht z => by
      rcases List.mem_cons.1 z with z | z
      · exact hn.2.2.1 (z ▸ ht)
      · exact h ⟨t, ht, z⟩⟩
    exact Or.inr ⟨isLinked_free g hf, h, hf⟩

/-- Adding the nodes `ns` one by one at position `i` of list `t`, up to the first that already is in a list. -/
def addAll (ts : List Nat) (t : Nat) : (Nat → List Nat) → Nat → List Nat → (Nat → List Nat) × Out
  | L, _, [] => (L, .ok)
  | L, i, n :: ns => if InSome ts L n then (L, .err .linked) else addAll ts t (upd L t ((L t).take i ++ n :: (L t).drop i)) (i + 1) ns

theorem insertRange_ok (ht : t ∈ ts) : ∀ (ns : List Nat) {s : St} {L : Nat → List Nat} {A B : List Nat}, SysOf s ts L → L t = A ++ B → (∀ n ∈ ns, Node s.h.lim ts n) →
    ∃ s', insertRange s t (lst t A) ns = .ok (s', (addAll ts t L A.length ns).2) ∧ Same s s' ∧ SysOf s' ts (addAll ts t L A.length ns).1
  | [], s, L, A, B, g, e, _ => ⟨s, rfl, Same.refl s, g⟩
  | n :: ns, s, L, A, B, g, e, hf => by
    rcases linked_dec g (hf n (by simp)) with ⟨h1, h2⟩ | ⟨h1, h2, h3⟩
    · refine ⟨s, ?_, Same.refl s, ?_⟩
      · simp [insertRange, h1, addAll, h2]
      · simp only [addAll, h2, if_true]; exact g
    · obtain ⟨s1, e1, sm1, g1, f1⟩ := insertLink_ok g ht e h3
      obtain ⟨s2, e2, sm2, g2⟩ := insertRange_ok ht ns (A := A ++ [n]) (B := B) g1 (by simp) (fun m hm => by
        have := hf m (by simp [hm]); unfold Node at this ⊢; rw [sm1.2.2]; exact this)
      have hA : upd L t (A ++ n :: B) = upd L t ((L t).take A.length ++ n :: (L t).drop A.length) := by rw [e]; simp
      have hl : (A ++ [n]).length = A.length + 1 := by simp
      rw [lst_concat, hl] at e2
      rw [hl] at g2
      have c1 := g1.line t ht
      have hv : s1.h.valid (lst t A) := by
        rw [upd_same] at c1; exact c1.mid.1
      refine ⟨s2, ?_, sm1.trans sm2, ?_⟩
      · simp only [insertRange, h1, Bool.false_eq_true, if_false, e1, next_ok hv, f1, bind, Except.bind, addAll, h2, ← hA]; exact e2
      · simp only [addAll, h2, if_false, ← hA]; exact g2

theorem assignLoop_ok (ht : t ∈ ts) : ∀ (ns : List Nat) {s : St} {L : Nat → List Nat}, SysOf s ts L → (∀ n ∈ ns, Node s.h.lim ts n) →
    ∃ s', assignLoop s t (lst t (L t)) ns = .ok (s', (addAll ts t L (L t).length ns).2) ∧ Same s s' ∧ SysOf s' ts (addAll ts t L (L t).length ns).1
  | [], s, L, g, _ => ⟨s, rfl, Same.refl s, g⟩
  | n :: ns, s, L, g, hf => by
    rcases linked_dec g (hf n (by simp)) with ⟨h1, h2⟩ | ⟨h1, h2, h3⟩
    · refine ⟨s, ?_, Same.refl s, ?_⟩
      · simp [assignLoop, h1, addAll, h2]
      · simp only [addAll, h2, if_true]; exact g
    · obtain ⟨s1, e1, sm1, g1, f1⟩ := insertLink_ok (A := L t) (B := []) g ht (by simp) h3
      obtain ⟨s2, e2, sm2, g2⟩ := assignLoop_ok ht ns g1 (fun m hm => by
        have := hf m (by simp [hm]); unfold Node at this ⊢; rw [sm1.2.2]; exact this)
      have hA : upd L t (L t ++ [n]) = upd L t ((L t).take (L t).length ++ n :: (L t).drop (L t).length) := by simp
      have hl : (L t ++ [n]).length = (L t).length + 1 := by simp
      rw [upd_same, lst_concat, hl] at e2
      rw [upd_same, hl] at g2
      refine ⟨s2, ?_, sm1.trans sm2, ?_⟩
      · simp only [assignLoop, h1, Bool.false_eq_true, if_false, e1, bind, Except.bind, addAll, h2, ← hA]; exact e2
      · simp only [addAll, h2, if_false, ← hA]; exact g2

/-- `initialise` makes an empty list. -/
theorem init_line (hv : h.valid u) (hu : u ≠ E) : Line (h.linked u E) u E [] :=
  ⟨⟨rfl, by simp [Seg]⟩, by simp, by intro x hx; have : x = u := by simpa using hx
                                     subst this; exact hv, by simpa using Ne.symm hu⟩

theorem Sys.tne (g : Sys h sz ts L) (ht : t ∈ ts) : t ≠ E := by rintro rfl; exact (g.line E ht).ne (by simp)

theorem clear_ok (g : SysOf s ts L) (ht : t ∈ ts) : ∃ s', clear s t = .ok s' ∧ Same s s' ∧ SysOf s' ts (upd L t []) := by
  have c := g.line t ht
  have hlen := Line.len c
  obtain ⟨h1, e1, o1, z1⟩ := clearLoop_ok (s.h.lim + 1) c.first (List.nodup_cons.1 c.nd).2 (fun x => c.ne (by simp [x])) (fun x hx => c.ok x (by simp [hx])) (by omega)
  have hv1 : h1.valid t := o1.valid.2 c.tv
  refine ⟨{ s with h := h1.linked t E, sz := upd s.sz t 0 }, ?_, ⟨rfl, rfl, o1.lim⟩, ?_⟩
  · simp only [clear, next_ok c.tv, bind, Except.bind, e1, initialise, join_ok hv1]
  · refine g.one ht (N := []) (init_line hv1 (g.tne ht)) ((o1.mono (by simp; tauto)).trans (Only.link (by simp))) (by simp) (by simp) ?_ (by simp) (fun v hv => upd_other _ _ hv)
    intro x hx _
    have hx' : x ∈ L t := by simpa using hx
    have hne := Line.neT c hx'
    simp only [linked_nx, upd_other _ _ hne]; exact z1 x hx'

theorem assign_ok (g : SysOf s ts L) (ht : t ∈ ts) {ns : List Nat} (hf : ∀ n ∈ ns, Node s.h.lim ts n) :
    ∃ s', assign s t ns = .ok (s', (addAll ts t (upd L t []) 0 ns).2) ∧ Same s s' ∧ SysOf s' ts (addAll ts t (upd L t []) 0 ns).1 := by
  obtain ⟨s1, e1, sm1, g1⟩ := clear_ok g ht
  obtain ⟨s2, e2, sm2, g2⟩ := assignLoop_ok ht ns g1 (fun m hm => by
        have := hf m hm; unfold Node at this ⊢; rw [sm1.2.2]; exact this)
  rw [upd_same] at e2 g2
  exact ⟨s2, by simp only [assign, e1, bind, Except.bind]; exact e2, sm1.trans sm2, g2⟩

theorem small {L : Nat → List Nat} {f : List Nat → List Nat} (h0 : f [] = []) (h1 : ∀ a, f [a] = [a]) (hl : (L t).length ≤ 1) : upd L t (f (L t)) = L := by
  refine upd_self ?_
  rcases hx : L t with _ | ⟨a, _ | ⟨b, l⟩⟩
  · exact h0.symm
  · exact (h1 a).symm
  · rw [hx] at hl; simp at hl

theorem reverse_ok (g : SysOf s ts L) (ht : t ∈ ts) : ∃ s', reverse s t = .ok s' ∧ Same s s' ∧ SysOf s' ts (upd L t (L t).reverse) := by
  have c := g.line t ht
  simp only [reverse, isTrivial_ok g ht, bind, Except.bind]
  by_cases hl : (L t).length ≤ 1
  · refine ⟨s, by simp [hl], Same.refl s, ?_⟩
    rw [small (f := List.reverse) rfl (fun _ => rfl) hl]; exact g
  · have hlen := Line.len c
    have nd := List.nodup_cons.1 c.nd
    obtain ⟨h1, p, e1, e2, e3, e4⟩ := revLoop_ok (e := E) (s.h.lim + 1) (prev := E) (z := E) (r := []) c.first rfl (by simpa using nd.2) (fun x => c.ne (by simp [x])) (fun x hx => c.ok x (by simp [hx])) (by omega)
    have hv : h1.valid t := by have := c.tv; unfold FLinks.valid at this ⊢; rw [e2]; exact this
    have o1 : Only s.h h1 (L t) := ⟨e2, e4⟩
    have hp : (t :: (L t).reverse).Perm (t :: L t) := List.Perm.cons t (List.reverse_perm _)
    have c1 : Line (h1.linked t p) t E (L t).reverse := by
      refine ⟨⟨rfl, ?_⟩, hp.nodup_iff.2 c.nd, fun x hx => ?_, fun x => c.ne (hp.mem_iff.1 x)⟩
      · simp only [linked_nx, upd_same]
        rw [List.append_nil] at e3
        exact e3.upd (by simpa using nd.1)
      · exact o1.valid.2 (c.ok x (hp.mem_iff.1 hx))
    refine ⟨{ s with h := h1.linked t p }, by simp [hl, next_ok c.tv, e1, join_ok hv], ⟨rfl, rfl, e2⟩, ?_⟩
    refine g.one ht (N := []) c1 ((o1.mono (by simp; tauto)).trans (Only.link (by simp))) (by simp) (by simp) ?_ (by simpa using g.size t ht) (fun v hv => rfl)
    intro x hx hy; exfalso; apply hy; simpa using hx

theorem sort_ok {lt : Nat → Nat → Bool} (ho : StrictWeak lt) (g : SysOf s ts L) (ht : t ∈ ts) :
    ∃ s', sort s t lt = .ok s' ∧ Same s s' ∧ SysOf s' ts (upd L t (isort lt (L t))) := by
  have c := g.line t ht
  simp only [sort, isTrivial_ok g ht, bind, Except.bind]
  by_cases hl : (L t).length ≤ 1
  · refine ⟨s, by simp [hl], Same.refl s, ?_⟩
    rw [small (f := isort lt) rfl (fun _ => rfl) hl]; exact g
  · have hlen := Line.len c
    obtain ⟨h1, l1, e1, hlim, c1, st, fr⟩ := sortLinks_ok (cmp := cmpNodes lt t) ho c (by rintro h0; simp [h0] at hl) (fun x hx y hy => by
      simp [cmpNodes, Line.neT c hx, Line.neT c hy, Line.neE c hx, Line.neE c hy]) (by omega)
    have o1 : Only s.h h1 (t :: L t) := ⟨hlim, fr⟩
    rw [st.eq_isort ho] at c1
    refine ⟨{ s with h := h1 }, by simp [hl, e1], ⟨rfl, rfl, hlim⟩, ?_⟩
    have pm := isort_perm lt (L t)
    refine g.one ht (N := []) c1 (o1.mono (by simp)) (by simp) (fun x hx => by simpa using pm.mem_iff.1 hx) ?_ (by show s.sz t = _; rw [pm.length_eq]; exact g.size t ht) (fun v hv => rfl)
    intro x hx hy; exfalso; apply hy; exact pm.mem_iff.2 (by simpa using hx)

theorem eraseAfter_ok (g : SysOf s ts L) (ht : t ∈ ts) {A B : List Nat} {x : Nat} (e : L t = A ++ x :: B) :
    ∃ s', eraseAfter s t (lst t A) = .ok (s', hd E B) ∧ Same s s' ∧ SysOf s' ts (upd L t (A ++ B)) := by
  have c := g.line t ht; rw [e] at c
  obtain ⟨s', e1, sm, g', f⟩ := disconnect_ok g ht e
  have h1 : lst t A ≠ E := fun z => c.ne (by rw [← z]; exact lst_sub t A _ (by intro x hx; simp only [List.mem_cons, List.mem_append] at hx ⊢; tauto))
  have h2 : x ≠ E := Line.neE c (by simp)
  have h3 : s.h.nx (lst t A) = x := c.nx_lst
  refine ⟨s', ?_, sm, g'⟩
  unfold eraseAfter
  rw [if_pos h1]
  simp only [next_ok c.mid.1, h3, bind, Except.bind]
  rw [if_pos h2]
  simp only [next_ok (c.ok x (by simp)), Line.nx_mem c, e1]

theorem eraseAfter_end (g : SysOf s ts L) (ht : t ∈ ts) : eraseAfter s t (lst t (L t)) = .ok (s, E) ∧ eraseAfter s t E = .ok (s, E) := by
  have c : Line s.h t E (L t ++ []) := by simpa using g.line t ht
  have h1 : lst t (L t) ≠ E := fun z => (g.line t ht).ne (by rw [← z]; exact lst_mem t _)
  have hnx := c.nx_lst
  constructor
  · unfold eraseAfter
    rw [if_pos h1]
    simp only [next_ok c.mid.1, hnx, bind, Except.bind, hd_nil, ne_eq, not_true, if_false]
  · simp [eraseAfter]

theorem distance_ok {h : FLinks} {last : Nat} : ∀ (k : Nat) {M : List Nat} {p : Nat}, Seg h.nx p M last → last ∉ M → (∀ x ∈ M, h.valid x) → M.length < k → distance h p last k = .ok M.length
  | 0, _, _, _, _, _, hk => by omega
  | k + 1, [], p, hs, _, _, _ => by rw [distance, if_pos (show p = last from hs)]; rfl
  | k + 1, x :: M, p, hs, hl, hv, hk => by
    obtain ⟨rfl, hs⟩ := hs
    rw [distance, if_neg (fun y => hl (by simp [y])), next_ok (hv p (by simp))]
    simp only [bind, Except.bind, distance_ok k hs (fun y => hl (by simp [y])) (fun y hy => hv y (by simp [hy])) (by simpa using hk), List.length_cons]

/-- From the last of `A` through `M` to the first of `B`. -/
theorem Line.between {h : FLinks} {t e : Nat} {A M B : List Nat} (c : Line h t e (A ++ M ++ B)) :
    Seg h.nx (h.nx (lst t A)) M (hd e B) ∧ hd e B ∉ lst t A :: M ∧ M.Nodup ∧ (∀ x ∈ M, h.valid x) ∧ lst t A ∉ M ∧ h.valid (lst t A) ∧ (∀ x ∈ M, x ∉ t :: (A ++ B)) := by
  have cA : Line h t e (A ++ (M ++ B)) := by rw [← List.append_assoc]; exact c
  have hs := cA.mid.2.2
  rw [seg_append] at hs
  obtain ⟨q, h1, h2⟩ := hs
  have hp : (t :: (A ++ M ++ B)).Perm (M ++ t :: (A ++ B)) := by
    rw [show t :: (A ++ M ++ B) = (t :: A) ++ M ++ B by simp, show M ++ t :: (A ++ B) = M ++ (t :: A) ++ B by simp]
    exact List.Perm.append_right B List.perm_append_comm
  have nd := List.nodup_append.1 (hp.nodup_iff.1 c.nd)
  have hM : ∀ x ∈ M, x ∉ t :: (A ++ B) := fun x hx hy => nd.2.2 x hx x hy rfl
  have hlm : lst t A ∈ t :: A := lst_mem t A
  have hlm2 : lst t A ∈ t :: (A ++ B) := by simp only [List.mem_cons, List.mem_append] at hlm ⊢; tauto
  rw [h2.hd] at h1
  refine ⟨h1, ?_, nd.1, fun x hx => c.ok x (by simp [hx]), fun z => hM _ z hlm2, cA.mid.1, hM⟩
  cases B with
  | nil =>
    intro z; apply c.ne
    simp only [hd_nil, List.mem_cons, List.mem_append] at z hlm ⊢
    rcases z with z | z
    · rw [z]; tauto
    · tauto
  | cons b B =>
    intro z
    simp only [hd_cons] at z
    rcases List.mem_cons.1 z with z | z
    · have h3 : (t :: A ++ b :: B).Nodup := nd.2.1
      exact (List.nodup_append.1 h3).2.2 b (z ▸ hlm) b (by simp) rfl
    · exact hM b z (by simp)

theorem eraseRange_ok (g : SysOf s ts L) (ht : t ∈ ts) {A M B : List Nat} (e : L t = A ++ M ++ B) :
    ∃ s', eraseRange s t (lst t A) (hd E B) = .ok (s', .at (hd E B)) ∧ Same s s' ∧ SysOf s' ts (upd L t (A ++ B)) := by
  have c := g.line t ht; rw [e] at c
  have hlen := Line.len c
  have hlenM : M.length + 1 < s.h.lim + 1 := by simp at hlen; omega
  obtain ⟨b1, b2, b3, b4, b5, b6, b7⟩ := Line.between c
  have hlm : lst t A ∈ t :: A := lst_mem t A
  have h1 : lst t A ≠ E := fun z => c.ne (by rw [← z]; exact lst_sub t A _ (by intro x hx; simp only [List.mem_cons, List.mem_append] at hx ⊢; tauto))
  have h2 : lst t A ≠ hd E B := fun z => b2 (by simp [z])
  have hd' := distance_ok (s.h.lim + 1) (M := lst t A :: M) (p := lst t A) ⟨rfl, b1⟩ b2 (fun x hx => by
    rcases List.mem_cons.1 hx with rfl | hx
    · exact b6
    · exact b4 x hx) (by simpa using hlenM)
  obtain ⟨h3, e3, o3, z3⟩ := clearLoop_ok (s.h.lim + 1) (h := s.h.linked (lst t A) (hd E B)) (b1.upd b5) b3 (fun z => b2 (by simp [z])) b4 (by omega)
  have hret : (if s.h.nx (lst t A) = E then E else hd E B) = hd E B := by
    split_ifs with hx
    · rw [b1.hd] at hx
      cases M with
      | nil => simpa using hx.symm
      | cons m M => exact absurd hx (Line.neE c (by simp))
    · rfl
  refine ⟨{ s with h := h3, sz := upd s.sz t (s.sz t - M.length) }, ?_, ⟨rfl, rfl, o3.lim⟩, ?_⟩
  · unfold eraseRange
    rw [if_pos ⟨h1, h2⟩]
    simp only [hd', next_ok b6, join_ok b6, e3, bind, Except.bind, hret, List.length_cons, Nat.add_sub_cancel]
  · have o : Only s.h h3 (t :: (L t ++ [])) := by
      refine Only.trans (b := s.h.linked (lst t A) (hd E B)) (Only.link ?_) (o3.mono ?_)
      · rw [e]; simp only [List.mem_cons, List.mem_append] at hlm ⊢; tauto
      · intro x hx; rw [e]; simp [hx]
    refine g.one ht (N := []) (c.cut' o3.lim (fun x hx hxl => ?_) ?_) o (by simp) ?_ ?_ ?_ (fun v hv => upd_other _ _ hv)
    · rw [o3.out x (fun z => b7 x z hx), linked_nx, upd_other _ _ hxl]
    · rw [o3.out _ b5, linked_nx, upd_same]
    · rw [e]; intro x hx; simp only [List.mem_append] at hx ⊢; tauto
    · rw [e]; intro x hx hy
      exact z3 x (by simp only [List.mem_append, List.not_mem_nil] at hx hy; tauto)
    · have := g.size t ht; rw [e] at this; simp at this; simp [this]; omega

theorem inList_ok {h : FLinks} {t e n : Nat} (he : h.valid e) (he0 : h.nx e = 0) (hne : n ≠ e) : ∀ (k : Nat) {A B : List Nat}, Line h t e (A ++ B) → B.length + 1 < k → n ∉ A →
    inList h n (hd e B) (lst t A) k = .ok (if n ∈ B then lst t (A ++ B.takeWhile (· ≠ n)) else 0)
  | 0, _, _, _, hk, _ => by omega
  | 1, _, _, _, hk, _ => by omega
  | k + 2, A, [], c, _, _ => by
    rw [hd_nil, inList, if_pos (valid_ne he), if_neg hne, next_ok he]
    simp only [he0, bind, Except.bind, inList]; simp
  | k + 2, A, b :: B, c, hk, hA => by
    have hbv := c.ok b (by simp)
    rw [hd_cons, inList, if_pos (valid_ne hbv)]
    by_cases hn : n = b
    · subst hn; simp
    · have := inList_ok he he0 hne (k + 1) (A := A ++ [b]) (B := B) (by simpa using c) (by simp at hk; omega) (by simp [hA, hn])
      rw [lst_concat] at this
      rw [if_neg hn]
      simp only [next_ok hbv, Line.nx_mem c, this, bind, Except.bind]
      simp [hn, Ne.symm hn]

theorem removeLoop_ok {f : Nat → Bool} (ht : t ∈ ts) : ∀ (k : Nat) {s : St} {L : Nat → List Nat} {A B : List Nat}, SysOf s ts L → L t = A ++ B → B.length < k →
    ∃ s', removeLoop f t s (hd E B) (lst t A) k = .ok s' ∧ Same s s' ∧ SysOf s' ts (upd L t (A ++ B.filter (fun x => !f x)))
  | 0, _, _, _, _, _, _, hk => by omega
  | k + 1, s, L, A, [], g, e, hk => by
    refine ⟨s, by simp [removeLoop], Same.refl s, ?_⟩
    rw [List.filter_nil, upd_self e]; exact g
  | k + 1, s, L, A, b :: B, g, e, hk => by
    have c := g.line t ht; rw [e] at c
    have hb : b ≠ E := Line.neE c (by simp)
    have hbt : b ≠ t := Line.neT c (by simp)
    have hnx := Line.nx_mem c
    have hnl : s.h.nx (lst t A) = b := c.nx_lst
    have hbv := c.ok b (by simp)
    cases hfb : f b with
    | true =>
      obtain ⟨s1, e1, sm1, g1⟩ := eraseAfter_ok g ht e
      obtain ⟨s2, e2, sm2, g2⟩ := removeLoop_ok (f := f) ht k (A := A) (B := B) g1 (by simp) (by simp at hk; omega)
      refine ⟨s2, ?_, sm1.trans sm2, ?_⟩
      · rw [hd_cons, removeLoop, if_pos hb]
        simp only [user, hbt, hb, or_false, if_false, hfb, if_true, e1, bind, Except.bind]; exact e2
      · rw [upd_upd] at g2; rw [List.filter_cons_of_neg (by simp [hfb])]; exact g2
    | false =>
      obtain ⟨s2, e2, sm2, g2⟩ := removeLoop_ok (f := f) ht k (A := A ++ [b]) (B := B) g (by simpa using e) (by simp at hk; omega)
      rw [lst_concat] at e2
      refine ⟨s2, ?_, sm2, ?_⟩
      · rw [hd_cons, removeLoop, if_pos hb]
        simp only [user, hbt, hb, or_false, if_false, hfb, Bool.false_eq_true, next_ok hbv, hnx, next_ok c.mid.1, hnl, bind, Except.bind]; exact e2
      · rw [List.filter_cons_of_pos (by simp [hfb])]; simpa using g2

theorem removePtrLoop_ok {n : Nat} (ht : t ∈ ts) : ∀ (k : Nat) {s : St} {L : Nat → List Nat} {A B : List Nat}, SysOf s ts L → L t = A ++ B → B.length < k →
    ∃ s', removePtrLoop n t s (hd E B) (lst t A) k = .ok s' ∧ Same s s' ∧ SysOf s' ts (upd L t (A ++ B.erase n))
  | 0, _, _, _, _, _, _, hk => by omega
  | k + 1, s, L, A, [], g, e, hk => by
    refine ⟨s, by simp [removePtrLoop], Same.refl s, ?_⟩
    rw [List.erase_nil, upd_self e]; exact g
  | k + 1, s, L, A, b :: B, g, e, hk => by
    have c := g.line t ht; rw [e] at c
    have hb : b ≠ E := Line.neE c (by simp)
    have hnx := Line.nx_mem c
    have hnl : s.h.nx (lst t A) = b := c.nx_lst
    have hbv := c.ok b (by simp)
    by_cases hbn : b = n
    · obtain ⟨s1, e1, sm1, g1⟩ := eraseAfter_ok g ht e
      refine ⟨s1, ?_, sm1, ?_⟩
      · rw [hd_cons, removePtrLoop, if_pos hb, if_pos hbn]
        simp only [e1, bind, Except.bind]
      · subst hbn; rw [List.erase_cons_head]; exact g1
    · obtain ⟨s2, e2, sm2, g2⟩ := removePtrLoop_ok (n := n) ht k (A := A ++ [b]) (B := B) g (by simpa using e) (by simp at hk; omega)
      rw [lst_concat] at e2
      refine ⟨s2, ?_, sm2, ?_⟩
      · rw [hd_cons, removePtrLoop, if_pos hb, if_neg hbn]
        simp only [next_ok hbv, hnx, next_ok c.mid.1, hnl, bind, Except.bind]; exact e2
      · rw [List.erase_cons_tail (by simpa using hbn)]; simpa using g2

/-- Of each run of elements equal to its first one, only the first stays. -/
def uniq (eq : Nat → Nat → Bool) (p : Nat) : List Nat → List Nat
  | [] => [p]
  | b :: l => if eq b p then uniq eq p l else p :: uniq eq b l

theorem uniqueLoop_ok {eq : Nat → Nat → Bool} (ht : t ∈ ts) : ∀ (k : Nat) {s : St} {L : Nat → List Nat} {A B : List Nat} {p : Nat}, SysOf s ts L → L t = A ++ p :: B → B.length < k →
    ∃ s', uniqueLoop eq t s p (hd E B) k = .ok s' ∧ Same s s' ∧ SysOf s' ts (upd L t (A ++ uniq eq p B))
  | 0, _, _, _, _, _, _, _, hk => by omega
  | k + 1, s, L, A, [], p, g, e, hk => by
    refine ⟨s, by simp [uniqueLoop], Same.refl s, ?_⟩
    rw [uniq, upd_self e]; exact g
  | k + 1, s, L, A, b :: B, p, g, e, hk => by
    have e' : L t = (A ++ [p]) ++ b :: B := by simpa using e
    have c := g.line t ht; rw [e'] at c
    have hb : b ≠ E := Line.neE c (by simp)
    have hp : p ≠ t := Line.neT c (by simp)
    have hp2 : p ≠ E := Line.neE c (by simp)
    have hnx := Line.nx_mem c
    have hbv := c.ok b (by simp)
    cases hfb : eq b p with
    | true =>
      obtain ⟨s1, e1, sm1, g1, f1⟩ := disconnect_ok g ht e'
      rw [lst_concat] at e1 f1
      have hpv : s1.h.valid p := by have := c.ok p (by simp); unfold FLinks.valid at this ⊢; rw [sm1.2.2]; exact this
      obtain ⟨s2, e2, sm2, g2⟩ := uniqueLoop_ok (eq := eq) ht k (A := A) (B := B) (p := p) g1 (by simp) (by simp at hk; omega)
      refine ⟨s2, ?_, sm1.trans sm2, ?_⟩
      · rw [hd_cons, uniqueLoop, if_pos hb]
        simp only [user, hp, hp2, or_false, if_false, hfb, if_true, e1, next_ok hpv, f1, bind, Except.bind]; exact e2
      · rw [upd_upd] at g2; rw [uniq, if_pos hfb]; exact g2
    | false =>
      obtain ⟨s2, e2, sm2, g2⟩ := uniqueLoop_ok (eq := eq) ht k (A := A ++ [p]) (B := B) (p := b) g e' (by simp at hk; omega)
      refine ⟨s2, ?_, sm2, ?_⟩
      · rw [hd_cons, uniqueLoop, if_pos hb]
        simp only [user, hp, hp2, or_false, if_false, hfb, Bool.false_eq_true, next_ok hbv, hnx, bind, Except.bind]; exact e2
      · rw [uniq, if_neg (by simp [hfb])]; simpa using g2

end Etl.IFList
