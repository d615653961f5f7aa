import Verif.IntrusiveList.Lemmas

/-!
# Effect of the intrusive list operations on a system of lists
-/
namespace Etl.IList
open Links

/-- A heap in which the lists `ts` hold the node sequences `L`: each list is a circle, lists share no node, nodes in no list are unlinked. -/
structure Sys (h : Links) (sz : Nat → Nat) (ts : List Nat) (L : Nat → List Nat) : Prop where
  circ : ∀ t ∈ ts, Circle h t (L t)
  dis : ∀ t ∈ ts, ∀ u ∈ ts, t ≠ u → ∀ x ∈ t :: L t, x ∉ u :: L u
  free : ∀ x, (∀ t ∈ ts, x ∉ t :: L t) → h.valid x → h.nx x = 0 ∧ h.pv x = 0
  size : ∀ t ∈ ts, sz t = (L t).length

variable {h h' : Links} {sz sz' : Nat → Nat} {ts : List Nat} {L : Nat → List Nat} {t u : Nat}

theorem Sys.one (g : Sys h sz ts L) (ht : t ∈ ts) {l' N : List Nat} (c : Circle h' t l') (o : Only h h' (t :: (L t ++ N)))
    (hN : ∀ n ∈ N, ∀ u ∈ ts, n ∉ u :: L u) (hl : ∀ x ∈ l', x ∈ L t ++ N) (hz : ∀ x ∈ L t ++ N, x ∉ l' → h'.nx x = 0 ∧ h'.pv x = 0)
    (h1 : sz' t = l'.length) (h2 : ∀ v, v ≠ t → sz' v = sz v) : Sys h' sz' ts (upd L t l') := by
  have key : ∀ v ∈ ts, v ≠ t → ∀ x ∈ v :: L v, x ∉ t :: (L t ++ N) := by
    intro v hv hvt x hx hy
    have := g.dis v hv t ht hvt x hx
    simp only [List.mem_cons, List.mem_append] at hy this
    rcases hy with hy | hy | hy
    · exact this (Or.inl hy)
    · exact this (Or.inr hy)
    · exact hN x hy v hv hx
  have sub : ∀ x ∈ t :: l', x ∈ t :: (L t ++ N) := by
    intro x hx
    rcases List.mem_cons.1 hx with hx | hx
    · simp [hx]
    · exact List.mem_cons_of_mem _ (hl x hx)
  refine ⟨fun v hv => ?_, fun v hv w hw hvw x hx => ?_, fun x hx hval => ?_, fun v hv => ?_⟩
  · by_cases e : v = t
    · subst e; rw [upd_same]; exact c
    · rw [upd_other _ _ e]; exact Circle.frame (g.circ v hv) o (key v hv e)
  · by_cases e1 : v = t
    · subst e1
      have e2 : w ≠ v := fun e => hvw e.symm
      rw [upd_same] at hx; rw [upd_other _ _ e2]
      intro hy; exact key w hw e2 x hy (sub x hx)
    · rw [upd_other _ _ e1] at hx
      by_cases e2 : w = t
      · subst e2; rw [upd_same]; intro hy; exact key v hv e1 x hx (sub x hy)
      · rw [upd_other _ _ e2]; exact g.dis v hv w hw hvw x hx
  · have hxt := hx t ht
    rw [upd_same] at hxt
    by_cases hm : x ∈ L t ++ N
    · exact hz x hm (fun z => hxt (List.mem_cons_of_mem _ z))
    · have hx0 : x ∉ t :: (L t ++ N) := by
        intro z; rcases List.mem_cons.1 z with z | z
        · exact hxt (by simp [z])
        · exact hm z
      rw [(o.out x hx0).1, (o.out x hx0).2]
      refine g.free x (fun v hv => ?_) (o.valid.1 hval)
      by_cases e : v = t
      · subst e; intro z; apply hx0; simp only [List.mem_cons, List.mem_append] at z ⊢; tauto
      · have := hx v hv; rw [upd_other _ _ e] at this; exact this
  · by_cases e : v = t
    · subst e; rw [upd_same, h1]
    · rw [upd_other _ _ e, h2 v e]; exact g.size v hv

theorem Sys.two (g : Sys h sz ts L) (ht : t ∈ ts) (hu : u ∈ ts) (htu : t ≠ u) {l' m' : List Nat} (ct : Circle h' t l') (cu : Circle h' u m')
    (p : (l' ++ m').Perm (L t ++ L u)) (o : Only h h' (t :: u :: (L t ++ L u)))
    (h1 : sz' t = l'.length) (h2 : sz' u = m'.length) (h3 : ∀ v, v ≠ t → v ≠ u → sz' v = sz v) : Sys h' sz' ts (upd (upd L t l') u m') := by
  have key : ∀ v ∈ ts, v ≠ t → v ≠ u → ∀ x ∈ v :: L v, x ∉ t :: u :: (L t ++ L u) := by
    intro v hv hvt hvu x hx hy
    have a := g.dis v hv t ht hvt x hx
    have b := g.dis v hv u hu hvu x hx
    simp only [List.mem_cons, List.mem_append] at hy a b
    tauto
  have et : upd (upd L t l') u m' t = l' := by rw [upd_other _ _ htu, upd_same]
  have eu : upd (upd L t l') u m' u = m' := by rw [upd_same]
  have ev : ∀ v, v ≠ t → v ≠ u → upd (upd L t l') u m' v = L v := fun v a b => by rw [upd_other _ _ b, upd_other _ _ a]
  have mt : ∀ x ∈ t :: l', x ∈ t :: u :: (L t ++ L u) := by
    intro x hx
    rcases List.mem_cons.1 hx with hx | hx
    · simp [hx]
    · have := p.mem_iff.1 (List.mem_append_left m' hx); simp only [List.mem_cons]; tauto
  have mu : ∀ x ∈ u :: m', x ∈ t :: u :: (L t ++ L u) := by
    intro x hx
    rcases List.mem_cons.1 hx with hx | hx
    · simp [hx]
    · have := p.mem_iff.1 (List.mem_append_right l' hx); simp only [List.mem_cons]; tauto
  have hnd : (l' ++ m').Nodup := by
    rw [p.nodup_iff]
    refine List.nodup_append.2 ⟨(List.nodup_cons.1 (g.circ t ht).nd).2, (List.nodup_cons.1 (g.circ u hu).nd).2, ?_⟩
    intro a ha b hb e
    subst e
    exact g.dis t ht u hu htu a (by simp [ha]) (by simp [hb])
  have htu' : ∀ x ∈ t :: l', x ∉ u :: m' := by
    intro x hx hy
    have tn : t ∉ L t ++ L u := by
      intro z
      rcases List.mem_append.1 z with z | z
      · exact (List.nodup_cons.1 (g.circ t ht).nd).1 z
      · exact g.dis t ht u hu htu t (by simp) (by simp [z])
    have un : u ∉ L t ++ L u := by
      intro z
      rcases List.mem_append.1 z with z | z
      · exact g.dis u hu t ht (Ne.symm htu) u (by simp) (by simp [z])
      · exact (List.nodup_cons.1 (g.circ u hu).nd).1 z
    rcases List.mem_cons.1 hx with hx | hx <;> rcases List.mem_cons.1 hy with hy | hy
    · exact htu (hx ▸ hy)
    · exact tn (p.mem_iff.1 (List.mem_append_right l' (hx ▸ hy)))
    · exact un (p.mem_iff.1 (List.mem_append_left m' (hy ▸ hx)))
    · exact (List.nodup_append.1 hnd).2.2 x hx x hy rfl
  refine ⟨fun v hv => ?_, fun v hv w hw hvw x hx => ?_, fun x hx hval => ?_, fun v hv => ?_⟩
  · by_cases e : v = t
    · subst e; rw [et]; exact ct
    · by_cases e' : v = u
      · subst e'; rw [eu]; exact cu
      · rw [ev v e e']; exact Circle.frame (g.circ v hv) o (key v hv e e')
  · by_cases v1 : v = t
    · subst v1; rw [et] at hx
      by_cases w1 : w = u
      · subst w1; rw [eu]; exact htu' x hx
      · rw [ev w (Ne.symm hvw) w1]; intro hy; exact key w hw (Ne.symm hvw) w1 x hy (mt x hx)
    · by_cases v2 : v = u
      · subst v2; rw [eu] at hx
        by_cases w1 : w = t
        · subst w1; rw [et]; intro hy; exact htu' x hy hx
        · rw [ev w w1 (Ne.symm hvw)]; intro hy; exact key w hw w1 (Ne.symm hvw) x hy (mu x hx)
      · rw [ev v v1 v2] at hx
        by_cases w1 : w = t
        · subst w1; rw [et]; intro hy; exact key v hv v1 v2 x hx (mt x hy)
        · by_cases w2 : w = u
          · subst w2; rw [eu]; intro hy; exact key v hv v1 v2 x hx (mu x hy)
          · rw [ev w w1 w2]; exact g.dis v hv w hw hvw x hx
  · have a := hx t ht; rw [et] at a
    have b := hx u hu; rw [eu] at b
    have hx0 : x ∉ t :: u :: (L t ++ L u) := by
      intro z
      rcases List.mem_cons.1 z with z | z
      · exact a (by simp [z])
      · rcases List.mem_cons.1 z with z | z
        · exact b (by simp [z])
        · rcases List.mem_append.1 (p.mem_iff.2 z) with z | z
          · exact a (by simp [z])
          · exact b (by simp [z])
    rw [(o.out x hx0).1, (o.out x hx0).2]
    refine g.free x (fun v hv => ?_) (o.valid.1 hval)
    by_cases e : v = t
    · subst e; intro z; apply hx0; simp only [List.mem_cons, List.mem_append] at z ⊢; tauto
    · by_cases e' : v = u
      · subst e'; intro z; apply hx0; simp only [List.mem_cons, List.mem_append] at z ⊢; tauto
      · have := hx v hv; rw [ev v e e'] at this; exact this
  · by_cases e : v = t
    · subst e; rw [et, h1]
    · by_cases e' : v = u
      · subst e'; rw [eu, h2]
      · rw [ev v e e', h3 v e e']; exact g.size v hv

/-- Same options. -/
def Same (s s' : St) : Prop := s'.check = s.check ∧ s'.dbg = s.dbg ∧ s'.h.lim = s.h.lim
theorem Same.refl (s : St) : Same s s := ⟨rfl, rfl, rfl⟩
theorem Same.trans {a b c : St} (h1 : Same a b) (h2 : Same b c) : Same a c := ⟨h2.1.trans h1.1, h2.2.1.trans h1.2.1, h2.2.2.trans h1.2.2⟩

abbrev SysOf (s : St) (ts : List Nat) (L : Nat → List Nat) : Prop := Sys s.h s.sz ts L

/-- Free: in no list, and a real node. -/
def Free (h : Links) (ts : List Nat) (L : Nat → List Nat) (n : Nat) : Prop := h.valid n ∧ ∀ t ∈ ts, n ∉ t :: L t

variable {s : St}

theorem isLinked_mem (g : SysOf s ts L) (ht : t ∈ ts) {n : Nat} (hn : n ∈ L t) : isLinked s.h n = true := by
  obtain ⟨A, B, e⟩ := List.append_of_mem hn
  have c := g.circ t ht; rw [e] at c
  have h1 := Circle.nx_mid c
  simp [isLinked]; right; rw [h1]; exact valid_ne (Circle.valid_at (A := A ++ [n]) (B := B) (by simpa using c))

theorem isLinked_free (g : SysOf s ts L) {n : Nat} (hn : Free s.h ts L n) : isLinked s.h n = false := by
  have := g.free n hn.2 hn.1
  simp [isLinked, this.1, this.2]

theorem insertLink_ok (g : SysOf s ts L) (ht : t ∈ ts) {A B : List Nat} (e : L t = A ++ B) {n : Nat} (hn : Free s.h ts L n) :
    ∃ s', insertLink s t ((t :: A).getLast (by simp)) n = .ok s' ∧ Same s s' ∧ SysOf s' ts (upd L t (A ++ n :: B)) ∧ Only s.h s'.h (t :: (A ++ n :: B)) := by
  have c := g.circ t ht; rw [e] at c
  have hnt := hn.2 t ht; rw [e] at hnt
  obtain ⟨h', e1, c1, o1⟩ := linkSplice_ok c hnt hn.1
  refine ⟨{ s with h := h', sz := upd s.sz t (s.sz t + 1) }, by simp [insertLink, e1, bind, Except.bind], ⟨rfl, rfl, o1.lim⟩, ?_, o1⟩
  refine g.one ht (N := [n]) c1 (o1.mono ?_) ?_ ?_ ?_ ?_ ?_
  · intro x hx; rw [e]; simp only [List.mem_cons, List.mem_append, List.not_mem_nil] at hx ⊢; tauto
  · intro m hm v hv; have : m = n := by simpa using hm
    subst this; exact hn.2 v hv
  · intro x hx; rw [e]; simp only [List.mem_cons, List.mem_append, List.not_mem_nil] at hx ⊢; tauto
  · intro x hx hy; exfalso; apply hy; rw [e] at hx; simp only [List.mem_cons, List.mem_append, List.not_mem_nil] at hx ⊢; tauto
  · have := g.size t ht; rw [e] at this; simp at this; simp [this]; omega
  · intro v hv; exact upd_other _ _ hv

theorem disconnect_ok (g : SysOf s ts L) (ht : t ∈ ts) {A B : List Nat} {x : Nat} (e : L t = A ++ x :: B) :
    ∃ s', disconnect s t x = .ok s' ∧ Same s s' ∧ SysOf s' ts (upd L t (A ++ B)) ∧ Only s.h s'.h (t :: (A ++ x :: B)) := by
  have c := g.circ t ht; rw [e] at c
  obtain ⟨h', e1, c1, z1, z2, o1⟩ := unlink_ok c
  refine ⟨{ s with h := h', sz := upd s.sz t (s.sz t - 1) }, by simp [disconnect, e1, bind, Except.bind], ⟨rfl, rfl, o1.lim⟩, ?_, o1⟩
  refine g.one ht (N := []) c1 (o1.mono ?_) ?_ ?_ ?_ ?_ ?_
  · intro x hx; rw [e]; simpa using hx
  · simp
  · intro x hx; rw [e]; simp only [List.mem_cons, List.mem_append, List.not_mem_nil] at hx ⊢; tauto
  · intro y hy hy'
    have : y = x := by rw [e] at hy; simp only [List.mem_cons, List.mem_append, List.not_mem_nil] at hy hy'; tauto
    subst this; exact ⟨z1, z2⟩
  · have := g.size t ht; rw [e] at this; simp at this; simp [this]
  · intro v hv; exact upd_other _ _ hv

theorem empty_ok {l : List Nat} (c : Circle h t l) : empty h t = .ok (decide (l = [])) := by
  simp only [empty, next_ok c.tv, c.first, bind, Except.bind]
  cases l with
  | nil => simp [nodeAt]
  | cons a l => have := Circle.ne c (x := a) (by simp); simp [nodeAt, this]

theorem isTrivial_ok {l : List Nat} (c : Circle h t l) : isTrivial h t = .ok (decide (l.length ≤ 1)) := by
  simp only [isTrivial, next_ok c.tv, c.first, bind, Except.bind]
  rcases l with _ | ⟨a, _ | ⟨b, l⟩⟩
  · simp [nodeAt]
  · have h1 := Circle.nx_mid (A := []) (B := []) (x := a) c
    simp only [nodeAt, List.getElem?_cons_zero, Option.getD_some, next_ok (c.ok a (by simp)), h1]; simp
  · have h1 := Circle.nx_mid (A := []) (B := b :: l) (x := a) c
    have h2 := Circle.ne c (x := a) (by simp)
    have h3 := Circle.ne c (x := b) (by simp)
    simp only [nodeAt, List.getElem?_cons_zero, Option.getD_some, next_ok (c.ok a (by simp)), h1, h2, if_false]; simp [h3]

theorem insertRange_ok (ht : t ∈ ts) : ∀ (ns : List Nat) {s : St} {L : Nat → List Nat} {A B : List Nat}, SysOf s ts L → L t = A ++ B → (∀ n ∈ ns, Free s.h ts L n) → ns.Nodup →
    ∃ s', insertRange s t (nodeAt t B 0) ns = .ok s' ∧ Same s s' ∧ SysOf s' ts (upd L t (A ++ ns ++ B))
  | [], s, L, A, B, g, e, _, _ => by
    refine ⟨s, rfl, Same.refl s, ?_⟩
    have : upd L t (A ++ [] ++ B) = L := by funext v; by_cases hv : v = t <;> simp [upd, hv, e]
    rw [this]; exact g
  | n :: ns, s, L, A, B, g, e, hf, nd => by
    obtain ⟨s1, e1, sm1, g1, _⟩ := insertLink_ok g ht e (hf n (by simp))
    have c := g.circ t ht; rw [e] at c
    obtain ⟨s2, e2, sm2, g2⟩ := insertRange_ok ht ns (A := A ++ [n]) (B := B) g1 (by simp) (fun m hm => by
      refine ⟨?_, fun v hv => ?_⟩
      · have := (hf m (by simp [hm])).1; unfold Links.valid at this ⊢; rw [sm1.2.2]; exact this
      · have h1 := (hf m (by simp [hm])).2 v hv
        by_cases e0 : v = t
        · subst e0; rw [upd_same]
          have : m ≠ n := by rintro rfl; exact (List.nodup_cons.1 nd).1 hm
          rw [e] at h1; simp only [List.mem_cons, List.mem_append] at h1 ⊢; tauto
        · rw [upd_other _ _ e0]; exact h1) (List.nodup_cons.1 nd).2
    refine ⟨s2, ?_, sm1.trans sm2, ?_⟩
    · simp only [insertRange, prev_ok (Circle.valid_at c), Circle.pv_mid c, e1, bind, Except.bind]; exact e2
    · have : upd (upd L t (A ++ n :: B)) t (A ++ [n] ++ ns ++ B) = upd L t (A ++ n :: ns ++ B) := by
        funext v; by_cases hv : v = t <;> simp [upd, hv]
      rw [← this]; exact g2

theorem assignLoop_ok (ht : t ∈ ts) : ∀ (ns : List Nat) {s : St} {L : Nat → List Nat} {A : List Nat}, SysOf s ts L → L t = A → (∀ n ∈ ns, Free s.h ts L n) → ns.Nodup →
    ∃ s', assignLoop s t ((t :: A).getLast (by simp)) ns = .ok s' ∧ Same s s' ∧ SysOf s' ts (upd L t (A ++ ns))
  | [], s, L, A, g, e, _, _ => by
    refine ⟨s, rfl, Same.refl s, ?_⟩
    have : upd L t (A ++ []) = L := by funext v; by_cases hv : v = t <;> simp [upd, hv, e]
    rw [this]; exact g
  | n :: ns, s, L, A, g, e, hf, nd => by
    obtain ⟨s1, e1, sm1, g1, _⟩ := insertLink_ok (A := A) (B := []) g ht (by simpa using e) (hf n (by simp))
    obtain ⟨s2, e2, sm2, g2⟩ := assignLoop_ok ht ns (A := A ++ [n]) g1 (by simp) (fun m hm => by
      refine ⟨?_, fun v hv => ?_⟩
      · have := (hf m (by simp [hm])).1; unfold Links.valid at this ⊢; rw [sm1.2.2]; exact this
      · have h1 := (hf m (by simp [hm])).2 v hv
        by_cases e0 : v = t
        · subst e0; rw [upd_same]
          have : m ≠ n := by rintro rfl; exact (List.nodup_cons.1 nd).1 hm
          rw [e] at h1; simp only [List.mem_cons, List.mem_append, List.not_mem_nil] at h1 ⊢; tauto
        · rw [upd_other _ _ e0]; exact h1) (List.nodup_cons.1 nd).2
    refine ⟨s2, ?_, sm1.trans sm2, ?_⟩
    · simp only [assignLoop, e1, bind, Except.bind]
      have : (t :: (A ++ [n])).getLast (by simp) = n := getLast_cons_concat t A n (by simp)
      rw [this] at e2; exact e2
    · have : upd (upd L t (A ++ [n])) t (A ++ [n] ++ ns) = upd L t (A ++ n :: ns) := by
        funext v; by_cases hv : v = t <;> simp [upd, hv]
      rw [← this]; exact g2

/-- `initialise` makes an empty list. -/
theorem init_circle (hv : h.valid u) : Circle (h.joined u u) u [] :=
  ⟨⟨by simp [joined], by simp [joined], trivial⟩, by simp, by intro x hx; have : x = u := by simpa using hx
                                                              subst this; exact hv⟩

theorem assign_ok (g : SysOf s ts L) (ht : t ∈ ts) (e : L t = []) {ns : List Nat} (hf : ∀ n ∈ ns, Free s.h ts L n) (nd : ns.Nodup) :
    ∃ s', assign s t ns = .ok s' ∧ Same s s' ∧ SysOf s' ts (upd L t ns) := by
  have c := g.circ t ht
  have c1 := init_circle c.tv
  have g1 : Sys (s.h.joined t t) (upd s.sz t 0) ts (upd L t []) := by
    refine g.one ht (N := []) c1 (Only.join (by simp) (by simp)) (by simp) (by simp) ?_ (by simp) (fun v hv => upd_other _ _ hv)
    rw [e]; simp
  have eL : upd L t [] = L := by funext v; by_cases hv : v = t <;> simp [upd, hv, e]
  rw [eL] at g1
  obtain ⟨s2, e2, sm2, g2⟩ := assignLoop_ok ht ns (s := { s with h := s.h.joined t t, sz := upd s.sz t 0 }) (A := []) g1 e (fun n hn => hf n hn) nd
  refine ⟨s2, ?_, sm2, by simpa using g2⟩
  simp only [assign, initialise, join_ok c.tv c.tv, bind, Except.bind]
  simpa using e2

theorem clear_ok (g : SysOf s ts L) (ht : t ∈ ts) : ∃ s', clear s t = .ok (s', .ok) ∧ Same s s' ∧ SysOf s' ts (upd L t []) := by
  have c := g.circ t ht
  have hf : Fw s.h (L t ++ [t]) := (Ch.fw c.ch).tail
  have nd : (L t ++ [t]).Nodup := by
    have := List.nodup_cons.1 c.nd
    exact List.nodup_append.2 ⟨this.2, by simp, by intro a ha b hb e; simp at hb; subst hb; subst e; exact this.1 ha⟩
  have hlen := Circle.len c
  obtain ⟨h1, e1, o1, z1⟩ := clearLoop_ok (s.h.lim + 1) hf nd (fun x hx => c.ok x (by simp [hx])) (by omega)
  have hv1 : h1.valid t := o1.valid.2 c.tv
  refine ⟨{ s with h := h1.joined t t, sz := upd s.sz t 0 }, ?_, ⟨rfl, rfl, o1.lim⟩, ?_⟩
  · simp only [clear, next_ok c.tv, c.first, bind, Except.bind, e1, initialise, join_ok hv1 hv1]
  · refine g.one ht (N := []) (init_circle hv1) ((o1.mono (by simp; tauto)).trans (Only.join (by simp) (by simp))) (by simp) (by simp) ?_ (by simp) (fun v hv => upd_other _ _ hv)
    intro x hx _
    have hx' : x ∈ L t := by simpa using hx
    have hne := Circle.ne c hx'
    simp only [joined, upd_other _ _ hne]; exact z1 x hx'

theorem reverse_ok (g : SysOf s ts L) (ht : t ∈ ts) : ∃ s', reverse s t = .ok (s', .ok) ∧ Same s s' ∧ SysOf s' ts (upd L t (L t).reverse) := by
  have c := g.circ t ht
  simp only [reverse, isTrivial_ok c, bind, Except.bind]
  by_cases hl : (L t).length ≤ 1
  · refine ⟨s, by simp [hl], Same.refl s, ?_⟩
    have : upd L t (L t).reverse = L := by
      funext v; by_cases hv : v = t
      · subst hv; rw [upd_same]
        rcases hx : L v with _ | ⟨a, _ | ⟨b, l⟩⟩
        · rfl
        · rfl
        · rw [hx] at hl; simp at hl
      · rw [upd_other _ _ hv]
    rw [this]; exact g
  · have hf : Fw s.h (L t ++ [t]) := (Ch.fw c.ch).tail
    have nd : (L t ++ [t]).Nodup := by
      have := List.nodup_cons.1 c.nd
      exact List.nodup_append.2 ⟨this.2, by simp, by intro a ha b hb e; simp at hb; subst hb; subst e; exact this.1 ha⟩
    have hlen := Circle.len c
    obtain ⟨h1, e1, z1, o1⟩ := reverseLoop_ok (s.h.lim + 1) hf nd (fun x hx => c.ok x (by simp at hx ⊢; tauto)) (by omega)
    have c1 := c.reversed o1.lim (fun x hx => z1 x (by simp at hx ⊢; tauto))
    refine ⟨{ s with h := h1 }, by simp [hl, next_ok c.tv, c.first, e1], ⟨rfl, rfl, o1.lim⟩, ?_⟩
    refine g.one ht (N := []) c1 (o1.mono (by simp; tauto)) (by simp) (by simp) ?_ (by simpa using g.size t ht) (fun v hv => rfl)
    intro x hx hy; exfalso; apply hy; simpa using hx

theorem sort_ok {lt : Nat → Nat → Bool} (ho : StrictWeak lt) (g : SysOf s ts L) (ht : t ∈ ts) :
    ∃ s', sort s t lt = .ok (s', .ok) ∧ Same s s' ∧ SysOf s' ts (upd L t (isort lt (L t))) := by
  have c := g.circ t ht
  simp only [sort, isTrivial_ok c, bind, Except.bind]
  by_cases hl : (L t).length ≤ 1
  · refine ⟨s, by simp [hl], Same.refl s, ?_⟩
    have : upd L t (isort lt (L t)) = L := by
      funext v; by_cases hv : v = t
      · subst hv; rw [upd_same]
        rcases hx : L v with _ | ⟨a, _ | ⟨b, l⟩⟩
        · rfl
        · rfl
        · rw [hx] at hl; simp at hl
      · rw [upd_other _ _ hv]
    rw [this]; exact g
  · have hlen := Circle.len c
    obtain ⟨h1, l1, e1, hlim, c1, st, fr⟩ := sortLinks_ok (cmp := cmpNodes lt t) ho c (by rintro h0; simp [h0] at hl) (fun x hx y hy => by
      have a := Circle.ne c hx; have b := Circle.ne c hy
      simp [cmpNodes, a, b]) (by omega)
    have hp := st.perm
    have o1 : Only s.h h1 (t :: L t) := ⟨hlim, fr⟩
    rw [st.eq_isort ho] at c1
    refine ⟨{ s with h := h1 }, by simp [hl, e1], ⟨rfl, rfl, hlim⟩, ?_⟩
    have pm := isort_perm lt (L t)
    refine g.one ht (N := []) c1 (o1.mono (by simp)) (by simp) (fun x hx => by simpa using pm.mem_iff.1 hx) ?_ (by show s.sz t = _; rw [pm.length_eq]; exact g.size t ht) (fun v hv => rfl)
    intro x hx hy; exfalso; apply hy; exact pm.mem_iff.2 (by simpa using hx)

theorem eraseRange_ok (g : SysOf s ts L) (ht : t ∈ ts) {A M B : List Nat} (e : L t = A ++ M ++ B) :
    ∃ s', eraseRange s t (nodeAt t (M ++ B) 0) (nodeAt t B 0) = .ok (s', .at (nodeAt t B 0)) ∧ Same s s' ∧ SysOf s' ts (upd L t (A ++ B)) := by
  have c := g.circ t ht; rw [e] at c
  have hlen := Circle.len c
  have hlenM : M.length < s.h.lim + 1 := by simp at hlen; omega
  have hd := distance_ok (s.h.lim + 1) c hlenM
  have c' : Circle s.h t (A ++ (M ++ B)) := by simpa using c
  obtain ⟨v1, v2, c1⟩ := c.cut
  rw [at_head] at v2 c1
  have hpm := last_mem t A
  have hqm := at_mem t B
  have hnd := c.nd
  have tM : t ∉ M := fun z => (List.nodup_cons.1 hnd).1 (by simp [z])
  have ndl := (List.nodup_cons.1 hnd).2
  have MA : ∀ x ∈ M, x ∉ A := fun x hx hy => (List.nodup_append.1 (List.nodup_append.1 ndl).1).2.2 x hy x hx rfl
  have MB : ∀ x ∈ M, x ∉ B := fun x hx hy => (List.nodup_append.1 ndl).2.2 x (by simp [hx]) x hy rfl
  have MtA : ∀ x ∈ M, x ∉ t :: A := fun x hx hy => by
    rcases List.mem_cons.1 hy with hy | hy
    · exact tM (hy ▸ hx)
    · exact MA x hx hy
  have MtB : ∀ x ∈ M, x ∉ t :: B := fun x hx hy => by
    rcases List.mem_cons.1 hy with hy | hy
    · exact tM (hy ▸ hx)
    · exact MB x hx hy
  have hf0 : Fw s.h (M ++ [nodeAt t B 0]) := by
    have h1 := (Ch.fw c'.ch)
    have h2 : t :: (A ++ (M ++ B)) ++ [t] = (t :: A) ++ (M ++ (B ++ [t])) := by simp
    rw [h2] at h1
    have h3 := h1.right
    cases B with
    | nil => simpa [nodeAt] using h3
    | cons b B =>
      have h4 : M ++ (b :: B ++ [t]) = (M ++ [b]) ++ (B ++ [t]) := by simp
      rw [h4] at h3; simpa [nodeAt] using h3.left
  have ndM : (M ++ [nodeAt t B 0]).Nodup :=
    List.nodup_append.2 ⟨(List.nodup_append.1 (List.nodup_append.1 ndl).1).2.1, by simp, by
      intro a ha b hb e'; simp at hb; subst hb; subst e'; exact MtB _ ha hqm⟩
  have hf : Fw (s.h.joined ((t :: A).getLast (by simp)) (nodeAt t B 0)) (M ++ [nodeAt t B 0]) := by
    refine hf0.join_frame ?_
    rw [List.dropLast_concat]; intro z; exact MtA _ z hpm
  obtain ⟨h1, e1, o1, z1⟩ := clearLoop_ok (s.h.lim + 1) hf ndM (fun x hx => c.ok x (by simp [hx])) hlenM
  have hstart : nodeAt (nodeAt t B 0) M 0 = nodeAt t (M ++ B) 0 := by cases M <;> simp [nodeAt]
  rw [hstart] at e1
  refine ⟨{ s with h := h1, sz := upd s.sz t (s.sz t - M.length) }, ?_, ⟨rfl, rfl, o1.lim⟩, ?_⟩
  · simp only [eraseRange, hd, prev_ok (Circle.valid_at c'), Circle.pv_mid c', join_ok v1 v2, e1, bind, Except.bind]
  · refine g.one ht (N := []) (Circle.frame c1 o1 (fun x hx hy => ?_)) (Only.trans (b := s.h.joined ((t :: A).getLast (by simp)) (nodeAt t B 0)) (Only.join ?_ ?_) (o1.mono ?_)) (by simp) ?_ ?_ ?_ (fun v hv => upd_other _ _ hv)
    · rcases List.mem_cons.1 hx with hx | hx
      · exact tM (hx ▸ hy)
      · rcases List.mem_append.1 hx with hx | hx
        · exact MA x hy hx
        · exact MB x hy hx
    · rw [e]; exact last_sub t A _ (by intro x hx; simp at hx ⊢; tauto)
    · rw [e]; simp only [List.mem_cons, List.mem_append] at hqm ⊢; tauto
    · rw [e]; intro x hx; simp [hx]
    · rw [e]; intro x hx; simp only [List.mem_append] at hx ⊢; tauto
    · rw [e]; intro x hx hy
      exact z1 x (by simp only [List.mem_append, List.not_mem_nil] at hx hy; tauto)
    · have := g.size t ht; rw [e] at this; simp at this; simp [this]; omega

theorem removeLoop_ok {f : Nat → Bool} (ht : t ∈ ts) : ∀ (k : Nat) {s : St} {L : Nat → List Nat} {A B : List Nat}, SysOf s ts L → L t = A ++ B → B.length < k →
    ∃ s', removeLoop f t s (nodeAt t B 0) k = .ok s' ∧ Same s s' ∧ SysOf s' ts (upd L t (A ++ B.filter (fun x => !f x)))
  | 0, _, _, _, _, _, _, hk => by omega
  | k + 1, s, L, A, [], g, e, hk => by
    refine ⟨s, by simp [removeLoop, nodeAt], Same.refl s, ?_⟩
    have : upd L t (A ++ List.filter (fun x => !f x) []) = L := by funext v; by_cases hv : v = t <;> simp [upd, hv, e]
    rw [this]; exact g
  | k + 1, s, L, A, b :: B, g, e, hk => by
    have c := g.circ t ht; rw [e] at c
    have hb : b ≠ t := Circle.ne c (by simp)
    have hnx := Circle.nx_mid c
    have hbv := c.ok b (by simp)
    cases hfb : f b with
    | true =>
      obtain ⟨s1, e1, sm1, g1, _⟩ := disconnect_ok g ht e
      obtain ⟨s2, e2, sm2, g2⟩ := removeLoop_ok ht k (A := A) (B := B) g1 (by simp) (by simp at hk; omega)
      refine ⟨s2, ?_, sm1.trans sm2, ?_⟩
      · show removeLoop f t s b (k + 1) = _
        unfold removeLoop
        rw [if_pos hb]
        simp only [user, if_neg hb, hfb, if_true, erase, next_ok hbv, hnx, e1, bind, Except.bind]; exact e2
      · have : upd (upd L t (A ++ B)) t (A ++ B.filter (fun x => !f x)) = upd L t (A ++ (b :: B).filter (fun x => !f x)) := by
          funext v; by_cases hv : v = t <;> simp [upd, hv, hfb]
        rw [← this]; exact g2
    | false =>
      obtain ⟨s2, e2, sm2, g2⟩ := removeLoop_ok (f := f) ht k (A := A ++ [b]) (B := B) g (by simpa using e) (by simp at hk; omega)
      refine ⟨s2, ?_, sm2, ?_⟩
      · show removeLoop f t s b (k + 1) = _
        unfold removeLoop
        rw [if_pos hb]
        simp only [user, if_neg hb, hfb, Bool.false_eq_true, if_false, next_ok hbv, hnx, bind, Except.bind]; exact e2
      · have : A ++ [b] ++ B.filter (fun x => !f x) = A ++ (b :: B).filter (fun x => !f x) := by simp [hfb]
        rw [← this]; exact g2

/-- Of each run of elements equal to its first one, only the first stays. -/
def uniq (eq : Nat → Nat → Bool) (p : Nat) : List Nat → List Nat
  | [] => [p]
  | b :: l => if eq p b then uniq eq p l else p :: uniq eq b l

theorem uniqueLoop_ok {eq : Nat → Nat → Bool} (ht : t ∈ ts) : ∀ (k : Nat) {s : St} {L : Nat → List Nat} {A B : List Nat} {p : Nat}, SysOf s ts L → L t = A ++ p :: B → B.length < k →
    ∃ s', uniqueLoop eq t s p (nodeAt t B 0) k = .ok s' ∧ Same s s' ∧ SysOf s' ts (upd L t (A ++ uniq eq p B))
  | 0, _, _, _, _, _, _, _, hk => by omega
  | k + 1, s, L, A, [], p, g, e, hk => by
    refine ⟨s, by simp [uniqueLoop, nodeAt], Same.refl s, ?_⟩
    have : upd L t (A ++ uniq eq p []) = L := by funext v; by_cases hv : v = t <;> simp [upd, hv, e, uniq]
    rw [this]; exact g
  | k + 1, s, L, A, b :: B, p, g, e, hk => by
    have e' : L t = (A ++ [p]) ++ b :: B := by simpa using e
    have c := g.circ t ht; rw [e'] at c
    have hb : b ≠ t := Circle.ne c (by simp)
    have hp : p ≠ t := Circle.ne c (by simp)
    have hnx := Circle.nx_mid c
    have hbv := c.ok b (by simp)
    cases hfb : eq p b with
    | true =>
      obtain ⟨s1, e1, sm1, g1, _⟩ := disconnect_ok g ht e'
      obtain ⟨s2, e2, sm2, g2⟩ := uniqueLoop_ok ht k (A := A) (B := B) (p := p) g1 (by simp) (by simp at hk; omega)
      refine ⟨s2, ?_, sm1.trans sm2, ?_⟩
      · show uniqueLoop eq t s p b (k + 1) = _
        unfold uniqueLoop
        rw [if_pos hb]
        simp only [user, if_neg hp, hfb, if_true, erase, next_ok hbv, hnx, e1, bind, Except.bind]; exact e2
      · have : upd (upd L t (A ++ [p] ++ B)) t (A ++ uniq eq p B) = upd L t (A ++ uniq eq p (b :: B)) := by
          funext v; by_cases hv : v = t <;> simp [upd, hv, hfb, uniq]
        rw [← this]; exact g2
    | false =>
      obtain ⟨s2, e2, sm2, g2⟩ := uniqueLoop_ok (eq := eq) ht k (A := A ++ [p]) (B := B) (p := b) g e' (by simp at hk; omega)
      refine ⟨s2, ?_, sm2, ?_⟩
      · show uniqueLoop eq t s p b (k + 1) = _
        unfold uniqueLoop
        rw [if_pos hb]
        simp only [user, if_neg hp, hfb, Bool.false_eq_true, if_false, next_ok hbv, hnx, bind, Except.bind]; exact e2
      · have : A ++ [p] ++ uniq eq b B = A ++ uniq eq p (b :: B) := by simp [hfb, uniq]
        rw [← this]; exact g2

end Etl.IList
