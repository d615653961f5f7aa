import Verif.Fsm.Props
import Mathlib.Tactic.SplitIfs

/-!
# C32: the hierarchical state machine
-/
namespace Etl.Fsm

variable {σ : Type}

/-! ## Specification: the tree of states -/

/-- The state and its ancestors, innermost first. -/
inductive IsPath (c : Chart σ) : Option Nat → List Nat → Prop
  | nil : IsPath c none []
  | cons {x l} : IsPath c (c.parent x) l → IsPath c (some x) (x :: l)

/-- The default children below a state, outermost first, and the last of them (or the state itself). -/
inductive Defaults (c : Chart σ) : Nat → List Nat → Nat → Prop
  | stop {x} : c.dflt x = none → Defaults c x [] x
  | more {x d l z} : c.dflt x = some d → Defaults c d l z → Defaults c x (d :: l) z

/-- A tree as `add_child_state` builds it: parents have no cycles (paths are bounded), the default child of a state is one of its children, a state with children has one. -/
structure Tree (c : Chart σ) (n : Nat) : Prop where
  path : ∀ x, ∃ l, IsPath c (some x) l ∧ l.length ≤ n
  dfltChild : ∀ x d, c.dflt x = some d → c.parent d = some x
  hasDflt : ∀ x p, c.parent x = some p → c.dflt p ≠ none

/-- How the states on a path answer an event: the innermost with a handler that does not pass it on; at the top `on_event_unknown`. -/
inductive HAnswers (c : Chart σ) (m : Nat) : List Nat → σ → Nat → σ → List Ev → Prop
  | handled {x l u r u'} : c.handler x m u = some (r, u') → r ≠ Pass_To_Parent → HAnswers c m (x :: l) u r u' [.event x m]
  | up {x y l u r u' e} : c.handler x m u = none → HAnswers c m (y :: l) u r u' e → HAnswers c m (x :: y :: l) u r u' e
  | passUp {x y l u u1 r u' e} : c.handler x m u = some (Pass_To_Parent, u1) → HAnswers c m (y :: l) u1 r u' e → HAnswers c m (x :: y :: l) u r u' (.event x m :: e)
  | top {x u} : c.handler x m u = none → HAnswers c m [x] u (c.unknown x m u).1 (c.unknown x m u).2 [.unknown x m]
  | passTop {x u u1} : c.handler x m u = some (Pass_To_Parent, u1) → HAnswers c m [x] u (c.unknown x m u1).1 (c.unknown x m u1).2 [.event x m, .unknown x m]

/-- The exits and entries of a change from a state with path `P` to one with path `Q`: the states of `P` that are not in `Q` are left, innermost first, then those of `Q` that are
not in `P` are entered, outermost first; then the default children `D`. -/
def changeLog (P Q D : List Nat) : List Ev :=
  (P.filter (fun s => decide (s ∉ Q))).map .exit ++ ((Q.filter (fun s => decide (s ∉ P))).reverse.map .enter ++ D.map .enter)

/-- What receiving an event does in state `x` (path `P`): the calls made and the new state. -/
inductive HReceives (c : Chart σ) (x m : Nat) (P : List Nat) (u : σ) : Nat → List Ev → Prop
  | none {u' l} : HAnswers c m P u No_State_Change u' l → HReceives c x m P u x l
  | bad {r u' l} : HAnswers c m P u r u' l → r ≠ No_State_Change → ¬ r < c.num → HReceives c x m P u x (l ++ [.fail])
  | same {r u' l} : HAnswers c m P u r u' l → r ≠ No_State_Change → r < c.num → r = x → HReceives c x m P u x l
  | change {r u' l Q D z} : HAnswers c m P u r u' l → r ≠ No_State_Change → r < c.num → r ∉ P → IsPath c (some r) Q → Defaults c r D z →
      HReceives c x m P u z (l ++ changeLog P Q D)
  /-- to an ancestor: it is entered again although it was not left (see the finding below) -/
  | ancestor {r u' l Q D z} : HAnswers c m P u r u' l → r ≠ No_State_Change → r < c.num → r ≠ x → r ∈ P → IsPath c (some r) Q → Defaults c r D z →
      HReceives c x m P u z (l ++ (P.filter (fun s => decide (s ∉ Q))).map .exit ++ ([.enter r] ++ D.map .enter))

/-- The effect of a call on the user's data. -/
def applyEv (c : Chart σ) (u : σ) : Ev → σ
  | .event x m => match c.handler x m u with | some (_, u') => u' | none => u
  | .unknown x m => (c.unknown x m u).2
  | .enter x => (c.enter x u).2
  | .exit x => c.exit x u
  | .fail => u

/-! ## Paths -/

theorem path_unique {c : Chart σ} {o : Option Nat} {l l' : List Nat} (h : IsPath c o l) (h' : IsPath c o l') : l = l' := by
  induction h generalizing l' with
  | nil => cases h'; rfl
  | cons _ ih => cases h' with | cons h' => rw [ih h']

theorem path_head {c : Chart σ} {o : Option Nat} {l : List Nat} (h : IsPath c o l) : l.head? = o := by cases h <;> rfl

theorem path_mem {c : Chart σ} {o : Option Nat} {l : List Nat} (h : IsPath c o l) {y : Nat} (hy : y ∈ l) : ∃ pre l', l = pre ++ l' ∧ IsPath c (some y) l' := by
  induction h with
  | nil => simp at hy
  | @cons x l hp ih =>
    rcases List.mem_cons.1 hy with rfl | hy
    · exact ⟨[], _, rfl, .cons hp⟩
    · obtain ⟨pre, l', e, h'⟩ := ih hy
      exact ⟨x :: pre, l', by rw [e]; rfl, h'⟩

/-- a state on a path has a path no longer -/
theorem path_mem_le {c : Chart σ} {o : Option Nat} {l l' : List Nat} (h : IsPath c o l) {y : Nat} (hy : y ∈ l) (h' : IsPath c (some y) l') : l'.length ≤ l.length := by
  obtain ⟨pre, l2, e, h2⟩ := path_mem h hy
  rw [path_unique h' h2, e]; simp

/-- the part of a path from some point on -/
theorem path_suffix {c : Chart σ} : ∀ {A C : List Nat} {o : Option Nat}, IsPath c o (A ++ C) → IsPath c C.head? C
  | [], C, o, h => by rw [List.nil_append] at h; rw [path_head h]; exact h
  | a :: A, C, o, h => by cases h with | cons h => exact path_suffix h

/-- states before a point of a path are not after it -/
theorem path_prefix_gt {c : Chart σ} : ∀ {A C : List Nat} {o : Option Nat}, IsPath c o (A ++ C) → ∀ a ∈ A, ∀ l, IsPath c (some a) l → C.length < l.length
  | [], C, o, _, a, ha, _, _ => by simp at ha
  | x :: A, C, o, h, a, ha, l, hl => by
    have hx : IsPath c (some x) ((x :: A) ++ C) := by cases h with | cons h => exact .cons h
    rcases List.mem_cons.1 ha with rfl | ha
    · rw [path_unique hl hx]; simp; omega
    · cases h with | cons h => exact path_prefix_gt h a ha l hl

theorem path_prefix_not_mem {c : Chart σ} {A C : List Nat} {o : Option Nat} (h : IsPath c o (A ++ C)) {a : Nat} (ha : a ∈ A) : a ∉ C := by
  intro hc
  obtain ⟨pre, l', e, h'⟩ := path_mem (path_suffix h) hc
  have := path_prefix_gt h a ha l' h'
  rw [e] at this; simp at this; omega

/-! ## common_ancestor -/

theorem depth_path {c : Chart σ} {o : Option Nat} {l : List Nat} (h : IsPath c o l) : ∀ fuel, l.length ≤ fuel → depth c fuel o = .ok l.length := by
  induction h with
  | nil => intro fuel _; cases fuel <;> rfl
  | @cons x l hp ih =>
    intro fuel hf
    obtain ⟨fuel, rfl⟩ : ∃ f, fuel = f + 1 := ⟨fuel - 1, by simp at hf; omega⟩
    simp [depth, ih fuel (by simpa using hf), bind, Except.bind]

theorem adjust_path {c : Chart σ} {pre : List Nat} : ∀ {l : List Nat} {o : Option Nat}, IsPath c o (pre ++ l) → adjust c pre.length o = .ok l.head? := by
  induction pre with
  | nil => intro l o h; rw [List.nil_append] at h; simp [adjust, path_head h]
  | cons a pre ih =>
    intro l o h
    cases h with
    | cons h => simp only [List.length_cons, adjust]; exact ih h

theorem climb_path {c : Chart σ} : ∀ (l1 l2 : List Nat) (o1 o2 : Option Nat) (fuel : Nat), IsPath c o1 l1 → IsPath c o2 l2 → l1.length = l2.length → l1.length ≤ fuel →
    ∃ A B C, l1 = A ++ C ∧ l2 = B ++ C ∧ climb c fuel o1 o2 = .ok C.head? ∧ (∀ a ∈ A, a ∉ l2) ∧ (∀ b ∈ B, b ∉ l1) := by
  intro l1
  induction l1 with
  | nil =>
    intro l2 o1 o2 fuel h1 h2 hl _
    have : l2 = [] := List.length_eq_zero_iff.1 hl.symm
    subst this
    cases h1; cases h2
    exact ⟨[], [], [], rfl, rfl, by cases fuel <;> simp [climb], by simp, by simp⟩
  | cons x l1 ih =>
    intro l2 o1 o2 fuel h1 h2 hl hf
    cases l2 with
    | nil => simp at hl
    | cons y l2 =>
      obtain ⟨fuel, rfl⟩ : ∃ f, fuel = f + 1 := ⟨fuel - 1, by simp at hf; omega⟩
      have hx : o1 = some x := (path_head h1).symm
      have hy : o2 = some y := (path_head h2).symm
      subst hx; subst hy
      by_cases hxy : x = y
      · subst hxy
        have e := path_unique h1 h2
        exact ⟨[], [], x :: l1, rfl, by rw [← e]; rfl, by simp [climb], by simp, by simp⟩
      · have hp1 : IsPath c (c.parent x) l1 := by cases h1 with | cons h => exact h
        have hp2 : IsPath c (c.parent y) l2 := by cases h2 with | cons h => exact h
        have hl' : l1.length = l2.length := by simpa using hl
        obtain ⟨A, B, C, e1, e2, e3, hA, hB⟩ := ih l2 _ _ fuel hp1 hp2 hl' (by simpa using hf)
        have hx2 : x ∉ l2 := fun h => by have := path_mem_le hp2 h h1; simp at this; omega
        have hy1 : y ∉ l1 := fun h => by have := path_mem_le hp1 h h2; simp at this; omega
        refine ⟨x :: A, y :: B, C, by rw [e1]; rfl, by rw [e2]; rfl, by simp [climb, hxy, e3], ?_, ?_⟩
        · intro a ha
          rcases List.mem_cons.1 ha with rfl | ha
          · simp [hxy, hx2]
          · have : a ∈ l1 := by rw [e1]; simp [ha]
            have hay : a ≠ y := by rintro rfl; exact hy1 this
            simp [hay, hA a ha]
        · intro b hb
          rcases List.mem_cons.1 hb with rfl | hb
          · simp [Ne.symm hxy, hy1]
          · have : b ∈ l2 := by rw [e2]; simp [hb]
            have hbx : b ≠ x := by rintro rfl; exact hx2 this
            simp [hbx, hB b hb]

/-- `common_ancestor` gives the innermost state the two paths share. -/
theorem commonAncestor_path {c : Chart σ} {x y : Nat} {P Q : List Nat} {fuel : Nat} (hP : IsPath c (some x) P) (hQ : IsPath c (some y) Q) (h1 : P.length ≤ fuel) (h2 : Q.length ≤ fuel) :
    ∃ A B C, P = A ++ C ∧ Q = B ++ C ∧ commonAncestor c fuel x y = .ok C.head? ∧ (∀ a ∈ A, a ∉ Q) ∧ (∀ b ∈ B, b ∉ P) := by
  simp only [commonAncestor, depth_path hP fuel h1, depth_path hQ fuel h2, bind, Except.bind]
  by_cases hd : P.length > Q.length
  · rw [if_pos hd]
    obtain ⟨pre, P', e, hl⟩ : ∃ pre P', P = pre ++ P' ∧ pre.length = P.length - Q.length := ⟨P.take (P.length - Q.length), P.drop (P.length - Q.length), by simp, by simp⟩
    subst e
    have hs := path_suffix hP
    have hlen : P'.length = Q.length := by simp only [List.length_append] at hl hd; omega
    rw [← hl, adjust_path hP]
    obtain ⟨A, B, C, e1, e2, e3, hA, hB⟩ := climb_path P' Q _ _ fuel hs hQ hlen (by omega)
    have hpre : ∀ a ∈ pre, a ∉ Q := fun a ha hq => by
      obtain ⟨p2, l', e', h'⟩ := path_mem hQ hq
      have := path_prefix_gt hP a ha l' h'
      rw [hlen, e'] at this; simp at this; omega
    refine ⟨pre ++ A, B, C, by rw [e1]; simp, e2, e3, ?_, ?_⟩
    · intro a ha
      rcases List.mem_append.1 ha with ha | ha
      · exact hpre a ha
      · exact hA a ha
    · intro b hb hm
      rcases List.mem_append.1 hm with hm | hm
      · exact hpre b hm (by rw [e2]; simp [hb])
      · exact hB b hb hm
  · rw [if_neg hd]
    obtain ⟨pre, Q', e, hl⟩ : ∃ pre Q', Q = pre ++ Q' ∧ pre.length = Q.length - P.length := ⟨Q.take (Q.length - P.length), Q.drop (Q.length - P.length), by simp, by simp⟩
    subst e
    have hs := path_suffix hQ
    have hlen : Q'.length = P.length := by simp only [List.length_append] at hl hd; omega
    rw [← hl, adjust_path hQ]
    obtain ⟨A, B, C, e1, e2, e3, hA, hB⟩ := climb_path P Q' _ _ fuel hP hs hlen.symm (by omega)
    have hpre : ∀ a ∈ pre, a ∉ P := fun a ha hq => by
      obtain ⟨p2, l', e', h'⟩ := path_mem hP hq
      have := path_prefix_gt hQ a ha l' h'
      rw [hlen, e'] at this; simp at this; omega
    refine ⟨A, pre ++ B, C, e1, by rw [e2]; simp, e3, ?_, ?_⟩
    · intro a ha hm
      rcases List.mem_append.1 hm with hm | hm
      · exact hpre a hm (by rw [e1]; simp [ha])
      · exact hA a ha hm
    · intro b hb
      rcases List.mem_append.1 hb with hb | hb
      · exact hpre b hb
      · exact hB b hb

/-! ## Calls made -/

/-- states without children have no active child -/
def ActiveOk (c : Chart σ) (s : St σ) : Prop := ∀ y, c.dflt y = none → s.active y = none

/-- `s'` is `s` after the calls `l`. -/
structure Ran (c : Chart σ) (s s' : St σ) (l : List Ev) : Prop where
  log : s'.log = s.log ++ l
  user : s'.user = l.foldl (applyEv c) s.user
  cur : s'.cur = s.cur
  active : ActiveOk c s → ActiveOk c s'

theorem Ran.refl (c : Chart σ) (s : St σ) : Ran c s s [] := ⟨by simp, rfl, rfl, id⟩

theorem Ran.trans {c : Chart σ} {s1 s2 s3 : St σ} {l l' : List Ev} (h : Ran c s1 s2 l) (h' : Ran c s2 s3 l') : Ran c s1 s3 (l ++ l') :=
  ⟨by rw [h'.log, h.log, List.append_assoc], by rw [h'.user, h.user, List.foldl_append], h'.cur.trans h.cur, fun ha => h'.active (h.active ha)⟩

theorem ran_exit (c : Chart σ) (s : St σ) (x : Nat) : Ran c s (callExit c s x) [.exit x] := ⟨rfl, rfl, rfl, id⟩

theorem ran_enter (c : Chart σ) (s : St σ) (x : Nat) : Ran c s (call c s x).2 [.enter x] := ⟨rfl, rfl, rfl, id⟩

theorem ran_enter_active {c : Chart σ} {n : Nat} (ht : Tree c n) (s : St σ) (x p : Nat) (hp : c.parent x = some p) : Ran c s (call c { s with active := upd s.active p (some x) } x).2 [.enter x] := by
  refine ⟨rfl, rfl, rfl, fun ha y hy => ?_⟩
  show upd s.active p (some x) y = none
  have : y ≠ p := by rintro rfl; exact ht.hasDflt x y hp hy
  rw [upd_other _ _ this]; exact ha y hy

theorem exitUp_path {c : Chart σ} : ∀ (A C : List Nat) (o : Option Nat) (fuel : Nat) (s : St σ), IsPath c o (A ++ C) → A.length ≤ fuel →
    ∃ s', exitUp c C.head? fuel o s = .ok s' ∧ Ran c s s' (A.map .exit) := by
  intro A
  induction A with
  | nil =>
    intro C o fuel s h _
    rw [List.nil_append] at h
    have : o = C.head? := (path_head h).symm
    exact ⟨s, by cases fuel <;> simp [exitUp, this], Ran.refl c s⟩
  | cons a A ih =>
    intro C o fuel s h hf
    obtain ⟨fuel, rfl⟩ : ∃ f, fuel = f + 1 := ⟨fuel - 1, by simp at hf; omega⟩
    have hne : a ∉ C := path_prefix_not_mem h (by simp)
    cases h with
    | cons h =>
      obtain ⟨s', e, hr⟩ := ih C _ fuel (callExit c s a) h (by simpa using hf)
      have : some a ≠ C.head? := by
        intro he
        cases C with
        | nil => simp at he
        | cons b C => simp at he; subst he; simp at hne
      exact ⟨s', by rw [exitUp, if_neg this]; exact e, (ran_exit c s a).trans hr⟩

theorem doExits_path {c : Chart σ} {x : Nat} {A C : List Nat} {fuel : Nat} (s : St σ) (h : IsPath c (some x) (A ++ C)) (hleaf : s.active x = none) (hf : A.length ≤ fuel + 1) :
    ∃ s', doExits c C.head? (fuel + 1) x s = .ok s' ∧ Ran c s s' (A.map .exit) := by
  simp only [doExits, lowest, hleaf, bind, Except.bind]
  exact exitUp_path A C _ _ s h hf

theorem enterTo_path {c : Chart σ} {n : Nat} (ht : Tree c n) : ∀ (B C : List Nat) (x : Nat) (fuel : Nat) (s : St σ), IsPath c (some x) (x :: B ++ C) → B.length < fuel →
    ∃ s', enterTo c C.head? fuel x s = .ok s' ∧ Ran c s s' ((x :: B).reverse.map .enter) := by
  intro B
  induction B with
  | nil =>
    intro C x fuel s h hf
    obtain ⟨fuel, rfl⟩ : ∃ f, fuel = f + 1 := ⟨fuel - 1, by simp at hf; omega⟩
    have hp : IsPath c (c.parent x) C := by cases h with | cons h => exact h
    have hx : C.head? ≠ some x := fun e => path_prefix_not_mem (A := [x]) (a := x) h (by simp) (List.mem_of_mem_head? (by rw [e]; rfl))
    rw [enterTo]
    cases hq : c.parent x with
    | none => exact ⟨_, rfl, ran_enter c s x⟩
    | some p =>
      have : C.head? = some p := by rw [path_head hp, hq]
      simp only [this]
      rw [if_pos (by rw [← this]; exact hx)]
      exact ⟨_, by simp [bind, Except.bind], ran_enter_active ht s x p hq⟩
  | cons b B ih =>
    intro C x fuel s h hf
    obtain ⟨fuel, rfl⟩ : ∃ f, fuel = f + 1 := ⟨fuel - 1, by simp at hf; omega⟩
    have hp : IsPath c (c.parent x) (b :: B ++ C) := by cases h with | cons h => exact h
    have hq : c.parent x = some b := (path_head hp).symm
    have hx : C.head? ≠ some x := fun e => path_prefix_not_mem (A := x :: b :: B) (a := x) h (by simp) (List.mem_of_mem_head? (by rw [e]; rfl))
    have hb : C.head? ≠ some b := fun e => path_prefix_not_mem (A := x :: b :: B) (a := b) h (by simp) (List.mem_of_mem_head? (by rw [e]; rfl))
    rw [hq] at hp
    obtain ⟨s1, e1, hr1⟩ := ih C b fuel s hp (by simpa using hf)
    refine ⟨(call c { s1 with active := upd s1.active b (some x) } x).2, by simp only [enterTo, hq, if_pos hx, if_pos hb, e1, bind, Except.bind], ?_⟩
    have := hr1.trans (ran_enter_active ht s1 x b hq)
    simpa using this

theorem enterTo_root {c : Chart σ} (x fuel : Nat) (s : St σ) : ∃ s', enterTo c (some x) (fuel + 1) x s = .ok s' ∧ Ran c s s' [.enter x] := by
  rw [enterTo]
  cases c.parent x with
  | none => exact ⟨_, rfl, ran_enter c s x⟩
  | some p => exact ⟨_, by simp, ran_enter c s x⟩

theorem enterDefaults_path {c : Chart σ} {n : Nat} (ht : Tree c n) : ∀ (k : Nat) (x : Nat) (P : List Nat) (fuel : Nat) (s : St σ), IsPath c (some x) P → n ≤ P.length + k → k < fuel →
    ∃ D z s', Defaults c x D z ∧ enterDefaults c fuel x s = .ok (z, s') ∧ Ran c s s' (D.map .enter) ∧ c.dflt z = none := by
  intro k
  induction k with
  | zero =>
    intro x P fuel s hP hn hf
    obtain ⟨fuel, rfl⟩ : ∃ f, fuel = f + 1 := ⟨fuel - 1, by omega⟩
    have hd : c.dflt x = none := by
      cases hd : c.dflt x with
      | none => rfl
      | some d =>
        have hp := ht.dfltChild x d hd
        have hdp : IsPath c (some d) (d :: P) := .cons (by rw [hp]; exact hP)
        obtain ⟨l, hl, hle⟩ := ht.path d
        rw [path_unique hl hdp] at hle; simp at hle; omega
    exact ⟨[], x, s, .stop hd, by simp [enterDefaults, hd], Ran.refl c s, hd⟩
  | succ k ih =>
    intro x P fuel s hP hn hf
    obtain ⟨fuel, rfl⟩ : ∃ f, fuel = f + 1 := ⟨fuel - 1, by omega⟩
    cases hd : c.dflt x with
    | none => exact ⟨[], x, s, .stop hd, by simp [enterDefaults, hd], Ran.refl c s, hd⟩
    | some d =>
      have hp := ht.dfltChild x d hd
      have hdp : IsPath c (some d) (d :: P) := .cons (by rw [hp]; exact hP)
      obtain ⟨D, z, s', h1, h2, h3, h4⟩ := ih d _ fuel (call c { s with active := upd s.active x (some d) } d).2 hdp (by simp; omega) (by omega)
      exact ⟨d :: D, z, s', .more hd h1, by simp [enterDefaults, hd, hp, h2], (ran_enter_active ht s d x hp).trans h3, h4⟩

theorem defaults_unique {c : Chart σ} {x z z' : Nat} {D D' : List Nat} (h : Defaults c x D z) (h' : Defaults c x D' z') : D = D' ∧ z = z' := by
  induction h generalizing D' z' with
  | stop e => cases h' with
    | stop => exact ⟨rfl, rfl⟩
    | more e' => rw [e] at e'; cases e'
  | more e _ ih => cases h' with
    | stop e' => rw [e] at e'; cases e'
    | more e' h' => rw [e] at e'; cases e'; obtain ⟨rfl, rfl⟩ := ih h'; exact ⟨rfl, rfl⟩

theorem processEvent_path {c : Chart σ} {m : Nat} {P : List Nat} : ∀ {x : Nat} (fuel : Nat) (s : St σ), IsPath c (some x) P → P.length ≤ fuel →
    ∃ r s' l, processEvent c m fuel x s = .ok (r, s') ∧ HAnswers c m P s.user r s'.user l ∧ Ran c s s' l := by
  induction P with
  | nil => intro x fuel s h; cases h
  | cons a P ih =>
    intro x fuel s h hf
    obtain ⟨fuel, rfl⟩ : ∃ f, fuel = f + 1 := ⟨fuel - 1, by simp at hf; omega⟩
    have hxa : x = a := by have := path_head h; simpa using this.symm
    subst hxa
    replace h : IsPath c (c.parent x) P := by cases h with | cons h => exact h
    rw [processEvent]
    cases hh : c.handler x m s.user with
    | none =>
      cases P with
      | nil =>
        have : c.parent x = none := (path_head h).symm
        rw [this]
        exact ⟨_, _, _, rfl, .top hh, ⟨rfl, rfl, rfl, id⟩⟩
      | cons b P =>
        have hq : c.parent x = some b := (path_head h).symm
        rw [hq] at h ⊢
        obtain ⟨r, s', l, e, ha, hr⟩ := ih fuel s h (by simpa using hf)
        exact ⟨r, s', l, e, .up hh ha, hr⟩
    | some p =>
      obtain ⟨r0, u1⟩ := p
      have hr1 : Ran c s { s with user := u1, log := s.log ++ [.event x m] } [.event x m] := ⟨rfl, by simp [applyEv, hh], rfl, id⟩
      simp only
      by_cases h0 : r0 = Pass_To_Parent
      · rw [if_pos h0]
        subst h0
        cases P with
        | nil =>
          have : c.parent x = none := (path_head h).symm
          rw [this]
          refine ⟨_, _, [.event x m, .unknown x m], rfl, .passTop hh, ?_⟩
          exact hr1.trans (s3 := { s with user := (c.unknown x m u1).2, log := s.log ++ [.event x m] ++ [.unknown x m] }) ⟨rfl, rfl, rfl, id⟩
        | cons b P =>
          have hq : c.parent x = some b := (path_head h).symm
          rw [hq] at h ⊢
          obtain ⟨r, s', l, e, ha, hr⟩ := ih fuel { s with user := u1, log := s.log ++ [.event x m] } h (by simpa using hf)
          exact ⟨r, s', .event x m :: l, e, .passUp hh ha, hr1.trans hr⟩
      · rw [if_neg h0]
        exact ⟨r0, _, _, rfl, .handled hh h0, hr1⟩

theorem filter_left {A C Q : List Nat} (hC : ∀ x ∈ C, x ∈ Q) (hA : ∀ a ∈ A, a ∉ Q) : (A ++ C).filter (fun s => decide (s ∉ Q)) = A := by
  rw [List.filter_append, List.filter_eq_self.2 (fun a ha => by simpa using hA a ha), List.filter_eq_nil_iff.2 (fun a ha => by simpa using hC a ha), List.append_nil]

/-- A state the machine can rest in: not started, or in a state without children. -/
def AtRest (c : Chart σ) (s : St σ) : Prop := ActiveOk c s ∧ ∀ x, s.cur = some x → c.dflt x = none

/-! ## C32 -/

/-- **C32.** `receive` does exactly what the specification says: the event is offered to the current state and its ancestors, innermost first; a change leaves exactly the states
from the current one up to, not including, the innermost common ancestor, innermost first, enters those from it down to the target, outermost first, and then the default
children; the current state afterwards is the last one entered. -/
theorem C32_receive {c : Chart σ} {n : Nat} (ht : Tree c n) (s : St σ) (x m : Nat) (P : List Nat) (hrest : AtRest c s) (hx : s.cur = some x) (hP : IsPath c (some x) P) :
    ∃ s' z l, hreceive c (n + 1) s m = .ok s' ∧ HReceives c x m P s.user z l ∧ s'.cur = some z ∧ s'.log = s.log ++ l ∧ s'.user = l.foldl (applyEv c) s.user ∧ AtRest c s' := by
  have hPn : P.length ≤ n := by obtain ⟨l, hl, hle⟩ := ht.path x; rw [path_unique hP hl]; exact hle
  obtain ⟨r, s1, l, e, ha, hr⟩ := processEvent_path (m := m) (n + 1) s hP (by omega)
  have hx1 : s1.cur = some x := hr.cur.trans hx
  have hrest1 : AtRest c s1 := ⟨hr.active hrest.1, fun y hy => hrest.2 y (by rw [← hr.cur]; exact hy)⟩
  simp only [hreceive, hx, e, bind, Except.bind]
  by_cases h1 : r = No_State_Change
  · subst h1; rw [if_pos rfl]
    exact ⟨s1, x, l, rfl, .none ha, hx1, hr.log, hr.user, hrest1⟩
  · rw [if_neg h1]
    by_cases h2 : r < c.num
    · rw [if_neg (fun h => h h2)]
      by_cases h3 : r = x
      · rw [if_pos h3]
        exact ⟨s1, x, l, rfl, .same ha h1 h2 h3, hx1, hr.log, hr.user, hrest1⟩
      · rw [if_neg h3]
        obtain ⟨Q, hQ, hQn⟩ := ht.path r
        obtain ⟨A, B, C, e1, e2, e3, hA, hB⟩ := commonAncestor_path (fuel := n + 1) hP hQ (by omega) (by omega)
        rw [e3]
        have hlx := hrest1.2 x hx1
        rw [e1] at hP
        obtain ⟨s2, x2, hr2⟩ := doExits_path (fuel := n) s1 hP (hrest1.1 x hlx) (by rw [e1] at hPn; simp at hPn; omega)
        simp only [x2]
        have hexit : P.filter (fun s => decide (s ∉ Q)) = A := by rw [e1]; exact filter_left (fun y hy => by rw [e2]; simp [hy]) hA
        have henter : Q.filter (fun s => decide (s ∉ P)) = B := by rw [e2]; exact filter_left (fun y hy => by rw [e1]; simp [hy]) hB
        obtain ⟨s3, x3, hr3⟩ : ∃ s3, enterTo c C.head? (n + 1) r { s2 with cur := some r } = .ok s3 ∧
            Ran c { s2 with cur := some r } s3 ((if B = [] then [r] else B.reverse).map .enter) := by
          cases B with
          | nil =>
            have : C.head? = some r := by rw [List.nil_append] at e2; rw [← e2]; exact path_head hQ
            rw [this, if_pos rfl]
            exact enterTo_root r n _
          | cons b B =>
            have hb : b = r := by have := path_head hQ; rw [e2] at this; simpa using this
            subst hb
            rw [if_neg (by simp)]
            exact enterTo_path ht B C b (n + 1) _ (by rw [← e2]; exact hQ) (by rw [e2] at hQn; simp at hQn; omega)
        obtain ⟨D, z, s4, hD, x4, hr4, hleaf⟩ := enterDefaults_path ht n r Q (n + 1) s3 hQ (by omega) (by omega)
        refine ⟨{ s4 with cur := some z }, z, l ++ (A.map .exit ++ ((if B = [] then [r] else B.reverse).map .enter ++ D.map .enter)), ?_, ?_, rfl, ?_, ?_, ?_, ?_⟩
        · simp only [doEnters, x3, x4, bind, Except.bind]
        · cases hBe : B with
          | nil =>
            have hrP : r ∈ P := by
              have : r ∈ Q := by have := path_head hQ; cases hQ; simp
              rw [e2, hBe] at this; rw [e1]; simp at this ⊢; exact .inr this
            have := HReceives.ancestor (x := x) ha h1 h2 h3 hrP hQ hD
            rw [hexit] at this
            simpa using this
          | cons b B' =>
            have hrP : r ∉ P := by
              have hb : b = r := by have := path_head hQ; rw [e2, hBe] at this; simpa using this
              rw [← hb]; exact hB b (by rw [hBe]; simp)
            have := HReceives.change (x := x) ha h1 h2 hrP hQ hD
            rw [changeLog, hexit, henter, hBe] at this
            simpa using this
        · show s4.log = _
          rw [hr4.log, hr3.log]
          show s2.log ++ _ ++ _ = _
          rw [hr2.log, hr.log]; simp
        · show s4.user = _
          rw [hr4.user, hr3.user]
          show List.foldl _ (List.foldl _ s2.user _) _ = _
          rw [hr2.user, hr.user]; simp [List.foldl_append]
        · exact hr4.active (hr3.active (hr2.active hrest1.1))
        · intro y hy; simp at hy; rw [← hy]; exact hleaf
    · rw [if_pos h2]
      refine ⟨fail s1, x, l ++ [.fail], rfl, .bad ha h1 h2, hx1, by simp [fail, hr.log], ?_, hrest1.1, hrest1.2⟩
      simp [fail, hr.user, List.foldl_append, applyEv]

/-- **C32**: `start` enters the first state's ancestors, itself and its default children, outermost first. -/
theorem C32_start {c : Chart σ} {n : Nat} (ht : Tree c n) (s : St σ) (hrest : AtRest c s) (hx : s.cur = none) (P : List Nat) (hP : IsPath c (some 0) P) :
    ∃ s' D z, hstart c (n + 1) true s = .ok s' ∧ Defaults c 0 D z ∧ s'.cur = some z ∧ s'.log = s.log ++ (P.reverse.map .enter ++ D.map .enter) ∧ AtRest c s' := by
  have hPn : P.length ≤ n := by obtain ⟨l, hl, hle⟩ := ht.path 0; rw [path_unique hP hl]; exact hle
  obtain ⟨P', rfl⟩ : ∃ P', P = 0 :: P' := by cases hP; exact ⟨_, rfl⟩
  obtain ⟨s1, e1, hr1⟩ := enterTo_path ht P' [] 0 (n + 1) { s with cur := some 0 } (by simpa using hP) (by simp at hPn; omega)
  obtain ⟨D, z, s2, hD, e2, hr2, hleaf⟩ := enterDefaults_path ht n 0 _ (n + 1) s1 hP (by omega) (by omega)
  refine ⟨{ s2 with cur := some z }, D, z, ?_, hD, rfl, ?_, ?_, ?_⟩
  · have e1' : enterTo c none (n + 1) 0 { s with cur := some 0 } = .ok s1 := e1
    simp only [hstart, hx, if_true, doEnters, e1', e2, bind, Except.bind]
  · show s2.log = _
    rw [hr2.log, hr1.log]; simp
  · exact hr2.active (hr1.active hrest.1)
  · intro y hy; simp at hy; rw [← hy]; exact hleaf

/-- **C32**: `reset` leaves the current state and all its ancestors, innermost first. -/
theorem C32_reset {c : Chart σ} {n : Nat} (ht : Tree c n) (s : St σ) (x : Nat) (P : List Nat) (hrest : AtRest c s) (hx : s.cur = some x) (hP : IsPath c (some x) P) :
    ∃ s', hreset c (n + 1) true s = .ok s' ∧ s'.cur = none ∧ s'.log = s.log ++ P.map .exit ∧ AtRest c s' := by
  have hPn : P.length ≤ n := by obtain ⟨l, hl, hle⟩ := ht.path x; rw [path_unique hP hl]; exact hle
  obtain ⟨s1, e1, hr1⟩ := doExits_path (A := P) (C := []) (fuel := n) s (by simpa using hP) (hrest.1 x (hrest.2 x hx)) (by omega)
  refine ⟨{ s1 with cur := none }, ?_, rfl, hr1.log, hr1.active hrest.1, by simp⟩
  have e1' : doExits c none (n + 1) x s = .ok s1 := e1
  simp only [hreset, hx, if_true, e1', bind, Except.bind]

/-! ### Whole histories -/

/-- The stack of states inside which we are (innermost first) after a call: a state may be entered only from inside its parent, only the innermost one may be left, and
events are only given to states on the stack. -/
def hstep (c : Chart σ) (st : List Nat) : Ev → Option (List Nat)
  | .enter x => if c.parent x = st.head? then some (x :: st) else none
  | .exit x => if st.head? = some x then some st.tail else none
  | .event x _ => if x ∈ st then some st else none
  | .unknown x _ => if x ∈ st then some st else none
  | .fail => some st

def hreplay (c : Chart σ) : List Nat → List Ev → Option (List Nat)
  | st, [] => some st
  | st, e :: l => (hstep c st e).bind (fun st => hreplay c st l)

inductive Op where
  | start
  | receive (m : Nat)
  | reset

def hop (c : Chart σ) (n : Nat) (s : St σ) : Op → Res (St σ)
  | .start => hstart c (n + 1) true s
  | .receive m => hreceive c (n + 1) s m
  | .reset => hreset c (n + 1) true s

def hrun (c : Chart σ) (n : Nat) : St σ → List Op → Res (St σ)
  | s, [] => .ok s
  | s, o :: os => (hop c n s o).bind (fun s => hrun c n s os)

/-- No answer names a proper ancestor of the current state. -/
def NoAncestorAnswers (c : Chart σ) : Prop :=
  ∀ x P m u r u' l, IsPath c (some x) P → HAnswers c m P u r u' l → r ≠ No_State_Change → r < c.num → r ≠ x → r ∉ P

theorem hreplay_append (c : Chart σ) : ∀ (l l' : List Ev) (st : List Nat), hreplay c st (l ++ l') = (hreplay c st l).bind (fun st => hreplay c st l')
  | [], _, _ => rfl
  | e :: l, l', st => by
    simp only [List.cons_append, hreplay]
    cases hstep c st e with
    | none => rfl
    | some st => simpa using hreplay_append c l l' st

theorem hreplay_answers {c : Chart σ} {m : Nat} {P : List Nat} {u : σ} {r : Nat} {u' : σ} {l : List Ev} (h : HAnswers c m P u r u' l) (st : List Nat) (hs : ∀ x ∈ P, x ∈ st) :
    hreplay c st l = some st := by
  induction h with
  | handled => simp [hreplay, hstep, hs]
  | up _ _ ih => exact ih (fun x hx => hs x (by simp [hx]))
  | @passUp x y l u u1 r u' e hh h' ih =>
    simp only [hreplay, hstep, hs x (by simp), if_true, Option.bind_some]
    exact ih (fun x hx => hs x (by simp [hx]))
  | top => simp [hreplay, hstep, hs]
  | passTop => simp [hreplay, hstep, hs]

theorem hreplay_exits (c : Chart σ) : ∀ (A C : List Nat), hreplay c (A ++ C) (A.map .exit) = some C
  | [], C => rfl
  | a :: A, C => by simp [hreplay, hstep, hreplay_exits c A C]

theorem hreplay_enters {c : Chart σ} : ∀ (B C : List Nat) (o : Option Nat), IsPath c o (B ++ C) → hreplay c C (B.reverse.map .enter) = some (B ++ C)
  | [], C, _, _ => rfl
  | b :: B, C, _, h => by
    have hp : IsPath c (c.parent b) (B ++ C) := by cases h with | cons h => exact h
    rw [List.reverse_cons, List.map_append, hreplay_append, hreplay_enters B C _ hp]
    simp [hreplay, hstep, path_head hp]

theorem hreplay_defaults {c : Chart σ} {n : Nat} (ht : Tree c n) {x z : Nat} {D : List Nat} (h : Defaults c x D z) : ∀ P, IsPath c (some x) P →
    ∃ Q, IsPath c (some z) Q ∧ hreplay c P (D.map .enter) = some Q := by
  induction h with
  | stop _ => intro P hP; exact ⟨P, hP, rfl⟩
  | @more x d l z hd _ ih =>
    intro P hP
    have hp := ht.dfltChild x d hd
    obtain ⟨Q, hQ, e⟩ := ih (d :: P) (.cons (by rw [hp]; exact hP))
    refine ⟨Q, hQ, ?_⟩
    simp [hreplay, hstep, hp, path_head hP, e]

theorem hreplay_receives {c : Chart σ} {n : Nat} (ht : Tree c n) (hna : NoAncestorAnswers c) {x m z : Nat} {P : List Nat} {u : σ} {l : List Ev} (hP : IsPath c (some x) P)
    (h : HReceives c x m P u z l) : ∃ Q, IsPath c (some z) Q ∧ hreplay c P l = some Q := by
  cases h with
  | none ha => exact ⟨P, hP, hreplay_answers ha P (fun _ h => h)⟩
  | bad ha => exact ⟨P, hP, by rw [hreplay_append, hreplay_answers ha P (fun _ h => h)]; rfl⟩
  | same ha => exact ⟨P, hP, hreplay_answers ha P (fun _ h => h)⟩
  | ancestor ha h1 h2 h3 h4 => exact absurd h4 (hna x P m _ _ _ _ hP ha h1 h2 h3)
  | @change r u' l Q D z ha h1 h2 h3 hQ hD =>
    obtain ⟨A, B, C, e1, e2, _, hA, hB⟩ := commonAncestor_path (fuel := P.length + Q.length) hP hQ (by omega) (by omega)
    have hexit : P.filter (fun s => decide (s ∉ Q)) = A := by rw [e1]; exact filter_left (fun y hy => by rw [e2]; simp [hy]) hA
    have henter : Q.filter (fun s => decide (s ∉ P)) = B := by rw [e2]; exact filter_left (fun y hy => by rw [e1]; simp [hy]) hB
    obtain ⟨Z, hZ, e⟩ := hreplay_defaults ht hD Q hQ
    refine ⟨Z, hZ, ?_⟩
    rw [hreplay_append, hreplay_answers ha P (fun _ h => h), Option.bind_some, changeLog, hexit, henter, hreplay_append]
    have : hreplay c P (A.map .exit) = some C := by rw [e1]; exact hreplay_exits c A C
    rw [this, Option.bind_some, hreplay_append, hreplay_enters B C (some r) (by rw [← e2]; exact hQ), Option.bind_some, ← e2, e]

/-- **C32.** In every history of `start`, `receive` and `reset`, entries and exits nest: a state is entered only when its parent is the innermost state entered and not yet left,
only the innermost such state is left, events only go to such states, and after every operation these are exactly the current state and its ancestors. -/
theorem C32_history {c : Chart σ} {n : Nat} (ht : Tree c n) (hna : NoAncestorAnswers c) (u : σ) (active : Nat → Option Nat) (hact : ∀ y, c.dflt y = none → active y = none) :
    ∀ ops : List Op, ∃ s P, hrun c n ⟨none, active, u, []⟩ ops = .ok s ∧ AtRest c s ∧ IsPath c s.cur P ∧ hreplay c [] s.log = some P := by
  have step : ∀ (o : Op) (s : St σ) (P : List Nat), AtRest c s → IsPath c s.cur P → hreplay c [] s.log = some P →
      ∃ s' P', hop c n s o = .ok s' ∧ AtRest c s' ∧ IsPath c s'.cur P' ∧ hreplay c [] s'.log = some P' := by
    intro o s P hr hP hl
    cases hc : s.cur with
    | none =>
      rw [hc] at hP
      cases hP
      cases o with
      | start =>
        obtain ⟨P, hP, _⟩ := ht.path 0
        obtain ⟨s', D, z, e, hD, hz, hlog, hr'⟩ := C32_start ht s hr hc P hP
        obtain ⟨Q, hQ, eQ⟩ := hreplay_defaults ht hD P hP
        refine ⟨s', Q, e, hr', by rw [hz]; exact hQ, ?_⟩
        have := hreplay_enters P [] (some 0) (by simpa using hP)
        rw [hlog, hreplay_append, hl, Option.bind_some, hreplay_append, this, Option.bind_some, List.append_nil, eQ]
      | receive m => exact ⟨fail s, [], by simp [hop, hreceive, hc], hr, by show IsPath c s.cur []; rw [hc]; exact .nil, by simp [fail, hreplay_append, hl, hreplay, hstep]⟩
      | reset => exact ⟨{ s with cur := none }, [], by simp [hop, hreset, hc], ⟨hr.1, by simp⟩, .nil, hl⟩
    | some x =>
      have hP' := hP
      rw [hc] at hP
      cases o with
      | start => exact ⟨s, P, by simp [hop, hstart, hc], hr, hP', hl⟩
      | receive m =>
        obtain ⟨s', z, l, e, hrec, hz, hlog, _, hr'⟩ := C32_receive ht s x m P hr hc hP
        obtain ⟨Q, hQ, eQ⟩ := hreplay_receives ht hna hP hrec
        exact ⟨s', Q, e, hr', by rw [hz]; exact hQ, by rw [hlog, hreplay_append, hl, Option.bind_some, eQ]⟩
      | reset =>
        obtain ⟨s', e, hz, hlog, hr'⟩ := C32_reset ht s x P hr hc hP
        refine ⟨s', [], e, hr', by rw [hz]; exact .nil, ?_⟩
        have := hreplay_exits c P []
        rw [List.append_nil] at this
        rw [hlog, hreplay_append, hl, Option.bind_some, this]
  have run : ∀ (ops : List Op) (s : St σ) (P : List Nat), AtRest c s → IsPath c s.cur P → hreplay c [] s.log = some P →
      ∃ s' P', hrun c n s ops = .ok s' ∧ AtRest c s' ∧ IsPath c s'.cur P' ∧ hreplay c [] s'.log = some P' := by
    intro ops
    induction ops with
    | nil => intro s P hr hP hl; exact ⟨s, P, rfl, hr, hP, hl⟩
    | cons o os ih =>
      intro s P hr hP hl
      obtain ⟨s1, P1, e, hr1, hP1, hl1⟩ := step o s P hr hP hl
      obtain ⟨s2, P2, e2, h⟩ := ih s1 P1 hr1 hP1 hl1
      exact ⟨s2, P2, by simp only [hrun, e, Except.bind]; exact e2, h⟩
  intro ops
  exact run ops ⟨none, active, u, []⟩ [] ⟨hact, by simp⟩ .nil rfl

/-! ### A chart

0 has the children 1 (default) and 2; 2 has the children 3 (default) and 4; 5 stands alone. -/

def hdemo : Chart Nat where
  num := 6
  parent := fun x => if x = 1 ∨ x = 2 then some 0 else if x = 3 ∨ x = 4 then some 2 else none
  dflt := fun x => if x = 0 then some 1 else if x = 2 then some 3 else none
  handler := fun x m u =>
    if m = 10 ∧ x = 1 then some (2, u + 1)
    else if m = 11 ∧ x = 0 then some (5, u)
    else if m = 12 ∧ x = 3 then some (Pass_To_Parent, u)
    else if m = 12 ∧ x = 2 then some (1, u)
    else if m = 13 ∧ x = 3 then some (0, u)
    else none
  unknown := fun _ _ u => (No_State_Change, u)
  enter := fun _ u => (No_State_Change, u)
  exit := fun _ u => u

theorem hdemo_tree : Tree hdemo 3 := by
  have h0 : IsPath hdemo (some 0) [0] := .cons .nil
  have h2 : IsPath hdemo (some 2) [2, 0] := .cons h0
  refine ⟨fun x => ?_, fun x d h => ?_, fun x p h => ?_⟩
  · by_cases hx : x = 1 ∨ x = 2
    · refine ⟨[x, 0], .cons ?_, by simp⟩
      show IsPath hdemo (if x = 1 ∨ x = 2 then some 0 else _) _
      rw [if_pos hx]; exact h0
    · by_cases hx3 : x = 3 ∨ x = 4
      · refine ⟨[x, 2, 0], .cons ?_, by simp⟩
        show IsPath hdemo (if x = 1 ∨ x = 2 then some 0 else if x = 3 ∨ x = 4 then some 2 else none) _
        rw [if_neg hx, if_pos hx3]; exact h2
      · refine ⟨[x], .cons ?_, by simp⟩
        show IsPath hdemo (if x = 1 ∨ x = 2 then some 0 else if x = 3 ∨ x = 4 then some 2 else none) _
        rw [if_neg hx, if_neg hx3]; exact .nil
  · simp only [hdemo] at h ⊢; split_ifs at h <;> simp_all <;> grind
  · simp only [hdemo] at h ⊢; split_ifs at h <;> simp_all <;> grind

theorem hdemo_path {x : Nat} {P : List Nat} (h : IsPath hdemo (some x) P) : P = if x = 1 ∨ x = 2 then [x, 0] else if x = 3 ∨ x = 4 then [x, 2, 0] else [x] := by
  have h0 : IsPath hdemo (some 0) [0] := .cons .nil
  have h2 : IsPath hdemo (some 2) [2, 0] := .cons h0
  apply path_unique h
  by_cases hx : x = 1 ∨ x = 2
  · rw [if_pos hx]; refine .cons ?_
    show IsPath hdemo (if x = 1 ∨ x = 2 then some 0 else _) _
    rw [if_pos hx]; exact h0
  · rw [if_neg hx]
    by_cases hx3 : x = 3 ∨ x = 4
    · rw [if_pos hx3]; refine .cons ?_
      show IsPath hdemo (if x = 1 ∨ x = 2 then some 0 else if x = 3 ∨ x = 4 then some 2 else none) _
      rw [if_neg hx, if_pos hx3]; exact h2
    · rw [if_neg hx3]; refine .cons ?_
      show IsPath hdemo (if x = 1 ∨ x = 2 then some 0 else if x = 3 ∨ x = 4 then some 2 else none) _
      rw [if_neg hx, if_neg hx3]; exact .nil

theorem answers_from {c : Chart σ} {m : Nat} {P : List Nat} {u : σ} {r : Nat} {u' : σ} {l : List Ev} (h : HAnswers c m P u r u' l) :
    ∃ y ∈ P, (r ≠ Pass_To_Parent ∧ ∃ v v', c.handler y m v = some (r, v')) ∨ ∃ v, r = (c.unknown y m v).1 := by
  induction h with
  | @handled x l u r u' hh h0 => exact ⟨x, by simp, .inl ⟨h0, u, u', hh⟩⟩
  | up _ _ ih => obtain ⟨y, hy, h⟩ := ih; exact ⟨y, by simp [hy], h⟩
  | passUp _ _ ih => obtain ⟨y, hy, h⟩ := ih; exact ⟨y, by simp [hy], h⟩
  | @top x u _ => exact ⟨x, by simp, .inr ⟨u, rfl⟩⟩
  | @passTop x u u1 _ => exact ⟨x, by simp, .inr ⟨u1, rfl⟩⟩

/-- The chart without event 13, which goes to an ancestor, meets all the hypotheses of `C32_history`. -/
def hdemo' : Chart Nat := { hdemo with handler := fun x m u => if m = 13 then none else hdemo.handler x m u }

theorem isPath_hdemo' {o : Option Nat} {P : List Nat} : IsPath hdemo' o P ↔ IsPath hdemo o P := by
  constructor
  · intro h; induction h with
    | nil => exact .nil
    | cons _ ih => exact .cons ih
  · intro h; induction h with
    | nil => exact .nil
    | cons _ ih => exact .cons ih

example : Tree hdemo' 3 ∧ NoAncestorAnswers hdemo' := by
  refine ⟨⟨fun x => ?_, hdemo_tree.dfltChild, hdemo_tree.hasDflt⟩, ?_⟩
  · obtain ⟨l, h, h'⟩ := hdemo_tree.path x
    exact ⟨l, isPath_hdemo'.2 h, h'⟩
  · intro x P m u r u' l hP ha h1 h2 h3
    have hP := hdemo_path (isPath_hdemo'.1 hP)
    obtain ⟨y, hy, ⟨hr, v, v', h⟩ | ⟨v, h⟩⟩ := answers_from ha
    · simp only [hdemo', hdemo] at h
      grind
    · exact absurd h h1

/-- Start, go to 2 (and its default child 3), pass an event on to 2 which goes to 1, then leave everything for 5. -/
example : (hrun hdemo 3 ⟨none, fun _ => none, 7, []⟩ [.start, .receive 10, .receive 12, .receive 11]).toOption.map (fun s => (s.cur, s.log)) =
    some (some 5, [.enter 0, .enter 1, .event 1 10, .exit 1, .enter 2, .enter 3, .event 3 12, .event 2 12, .exit 3, .exit 2, .enter 1, .event 0 11, .exit 1, .exit 0, .enter 5]) := by
  decide +kernel

/-- **Finding.** A change to an ancestor of the current state enters that ancestor a second time although it was not left: event 13 in state 3 answers with its
grandparent 0. -/
theorem transition_to_ancestor_reenters :
    (hrun hdemo 3 ⟨none, fun _ => none, 7, []⟩ [.start, .receive 10, .receive 13]).toOption.map (fun s => (s.cur, s.log)) =
      some (some 1, [.enter 0, .enter 1, .event 1 10, .exit 1, .enter 2, .enter 3, .event 3 13, .exit 3, .exit 2, .enter 0, .enter 1]) := by
  decide +kernel

/-- **Finding.** `Self_Transition`, which `fsm::receive` obeys, is not known to `hfsm::receive`: it is an invalid state id. -/
theorem self_transition_not_supported {c : Chart σ} {n : Nat} (ht : Tree c n) (hn : c.num ≤ Self_Transition) (s : St σ) (x m : Nat) (hx : s.cur = some x) (u : σ)
    (hh : c.handler x m s.user = some (Self_Transition, u)) : ∃ s', hreceive c (n + 1) s m = .ok s' ∧ s'.log = s.log ++ [.event x m, .fail] := by
  refine ⟨fail { s with user := u, log := s.log ++ [.event x m] }, ?_, by simp [fail]⟩
  have : ¬ Self_Transition < c.num := by omega
  simp [hreceive, hx, processEvent, hh, bind, Except.bind, this, Self_Transition, Pass_To_Parent, No_State_Change]
  intro h; exact absurd h (by simpa [Self_Transition] using this)

end Etl.Fsm
