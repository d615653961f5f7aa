import Verif.Memory.Model

/-!
# Properties of memory.h (C78, C79)
-/
namespace Etl.Memory

/-! # unique_ptr (C78) -/

variable {D : Type}

/-! ## Specification -/

inductive Op (D : Type) where
  | new (a : Nat)                       -- the user makes the object `a`
  | ctor (i : Nat) (p : Option Nat) (d : D)
  | moveCtor (i j : Nat)
  | release (i : Nat)
  | reset (i : Nat) (p : Option Nat)
  | resetArray (i : Nat) (p : Option Nat)
  | swap (i j : Nat)
  | assignNull (i : Nat)
  | moveAssign (i j : Nat)
  | dtor (i : Nat)

/-- The call, and the pointer it returns (of `release`). -/
def step (s : P D) : Op D → Res (P D × Option Nat)
  | .new _ => .ok (s, none)
  | .ctor i p d => do .ok (← ctor s i p d, none)
  | .moveCtor i j => do .ok (← moveCtor s i j, none)
  | .release i => release s i
  | .reset i p => do .ok (← reset s i p, none)
  | .resetArray i p => do .ok (← resetArray s i p, none)
  | .swap i j => do .ok (← swap s i j, none)
  | .assignNull i => do .ok (← assignNull s i, none)
  | .moveAssign i j => do .ok (← moveAssign s i j, none)
  | .dtor i => do .ok (← dtor s i, none)

/-- The view of the user: the objects made so far, those in the user's own hands, and the deleter each object is meant for. -/
structure View (D : Type) where
  made : Nat → Prop
  hand : Nat → Prop
  dl : Nat → D

def Live (s : P D) (i : Nat) : Prop := ∃ x, s.ptr i = some x
/-- The unique_ptr `i` has the object `a`. -/
def Owns (s : P D) (i a : Nat) : Prop := ∃ d, s.ptr i = some (some a, d)

/-- `p` is null or an object in the user's hands. -/
def Mine (v : View D) : Option Nat → Prop
  | none => True
  | some a => v.hand a

/-- What a user may do: give only objects that are in their hands (or, to `reset`, the one it has), and swap only pointers with the same deleter. -/
def Legal (s : P D) (v : View D) : Op D → Prop
  | .new a => ¬ v.made a
  | .ctor i p _ => ¬ Live s i ∧ Mine v p
  | .moveCtor i j => ¬ Live s i ∧ Live s j
  | .release i => Live s i
  | .reset i p => Live s i ∧ (Mine v p ∨ ∃ a, p = some a ∧ Owns s i a)
  | .resetArray i p => Live s i ∧ (Mine v p ∨ ∃ a, p = some a ∧ Owns s i a)
  | .swap i j => ∃ p q d, s.ptr i = some (p, d) ∧ s.ptr j = some (q, d)
  | .assignNull i => Live s i
  | .moveAssign i j => Live s i ∧ Live s j
  | .dtor i => Live s i

/-- An object given away for the deleter `d`. -/
def View.give (v : View D) (p : Option Nat) (d : D) : View D := match p with
  | none => v
  | some a => ⟨v.made, fun b => v.hand b ∧ b ≠ a, upd v.dl a d⟩

/-- How the user's view changes. -/
def after (s : P D) (v : View D) (op : Op D) (ret : Option Nat) : View D := match op with
  | .new a => ⟨fun b => v.made b ∨ b = a, fun b => v.hand b ∨ b = a, v.dl⟩
  | .ctor _ p d => v.give p d
  | .release _ => ⟨v.made, fun b => v.hand b ∨ ret = some b, v.dl⟩
  | .reset i p => match s.ptr i with | some (_, d) => v.give p d | none => v
  | .resetArray i p => match s.ptr i with | some (_, d) => v.give p d | none => v
  | _ => v

inductive Reach : P D → View D → Prop where
  | init (dl : Nat → D) : Reach ⟨fun _ => none, []⟩ ⟨fun _ => False, fun _ => False, dl⟩
  | step {s v op s' ret} : Reach s v → Legal s v op → step s op = .ok (s', ret) → Reach s' (after s v op ret)

/-! ## Invariant -/

structure Inv (s : P D) (v : View D) : Prop where
  handMade : ∀ a, v.hand a → v.made a
  owned : ∀ i a d, s.ptr i = some (some a, d) → v.made a ∧ ¬ v.hand a ∧ v.dl a = d ∧ a ∉ s.log.map Prod.fst
  one : ∀ i j a d e, s.ptr i = some (some a, d) → s.ptr j = some (some a, e) → i = j
  handLog : ∀ a, v.hand a → a ∉ s.log.map Prod.fst
  nodup : (s.log.map Prod.fst).Nodup
  logDl : ∀ x ∈ s.log, v.made x.1 ∧ v.dl x.1 = x.2
  all : ∀ a, v.made a → v.hand a ∨ (∃ i, Owns s i a) ∨ a ∈ s.log.map Prod.fst

/-- Neither alive nor has it an object. -/
def Blank (x : Option (Option Nat × D)) : Prop := ∀ a d, x ≠ some (some a, d)

theorem Inv.take {s : P D} {v : View D} (h : Inv s v) {i a : Nat} {d : D} (hi : s.ptr i = some (some a, d)) {x : Option (Option Nat × D)} (hx : Blank x) :
    Inv { s with ptr := upd s.ptr i x } ⟨v.made, fun b => v.hand b ∨ b = a, v.dl⟩ := by
  obtain ⟨o1, o2, o3, o4⟩ := h.owned i a d hi
  have hp : ∀ j b e, upd s.ptr i x j = some (some b, e) → j ≠ i ∧ s.ptr j = some (some b, e) := by
    intro j b e hj
    by_cases hji : j = i
    · subst hji; rw [upd_same] at hj; exact absurd hj (hx b e)
    · rw [upd_other _ _ hji] at hj; exact ⟨hji, hj⟩
  refine ⟨?_, ?_, ?_, ?_, h.nodup, h.logDl, ?_⟩
  · rintro b (hb | hb)
    · exact h.handMade b hb
    · rw [hb]; exact o1
  · intro j b e hj
    obtain ⟨hji, hj⟩ := hp j b e hj
    obtain ⟨q1, q2, q3, q4⟩ := h.owned j b e hj
    refine ⟨q1, ?_, q3, q4⟩
    rintro (hb | hb)
    · exact q2 hb
    · subst hb; exact hji (h.one j i b e d hj hi)
  · intro j k b e f hj hk
    exact h.one j k b e f (hp j b e hj).2 (hp k b f hk).2
  · rintro b (hb | hb)
    · exact h.handLog b hb
    · rw [hb]; exact o4
  · intro b hb
    by_cases hba : b = a
    · exact Or.inl (Or.inr hba)
    · rcases h.all b hb with q | ⟨j, e, hj⟩ | q
      · exact Or.inl (Or.inl q)
      · right; left
        have hji : j ≠ i := fun e' => by subst e'; rw [hi] at hj; cases hj; exact hba rfl
        exact ⟨j, e, by show upd s.ptr i x j = _; rw [upd_other _ _ hji]; exact hj⟩
      · exact Or.inr (Or.inr q)

theorem Inv.blank {s : P D} {v : View D} (h : Inv s v) {i : Nat} (hi : Blank (s.ptr i)) {x : Option (Option Nat × D)} (hx : Blank x) : Inv { s with ptr := upd s.ptr i x } v := by
  have hp : ∀ j b e, upd s.ptr i x j = some (some b, e) → j ≠ i ∧ s.ptr j = some (some b, e) := by
    intro j b e hj
    by_cases hji : j = i
    · subst hji; rw [upd_same] at hj; exact absurd hj (hx b e)
    · rw [upd_other _ _ hji] at hj; exact ⟨hji, hj⟩
  refine ⟨h.handMade, fun j b e hj => h.owned j b e (hp j b e hj).2, fun j k b e f hj hk => h.one j k b e f (hp j b e hj).2 (hp k b f hk).2, h.handLog, h.nodup, h.logDl, ?_⟩
  intro b hb
  rcases h.all b hb with q | ⟨j, e, hj⟩ | q
  · exact Or.inl q
  · right; left
    have hji : j ≠ i := fun e' => by subst e'; exact hi b e hj
    exact ⟨j, e, by show upd s.ptr i x j = _; rw [upd_other _ _ hji]; exact hj⟩
  · exact Or.inr (Or.inr q)

theorem Inv.put {s : P D} {v : View D} (h : Inv s v) {i : Nat} (hi : Blank (s.ptr i)) {a : Nat} (ha : v.hand a) (d : D) :
    Inv { s with ptr := upd s.ptr i (some (some a, d)) } (v.give (some a) d) := by
  have hp : ∀ j b e, upd s.ptr i (some (some a, d)) j = some (some b, e) → (j = i ∧ b = a ∧ e = d) ∨ (j ≠ i ∧ s.ptr j = some (some b, e)) := by
    intro j b e hj
    by_cases hji : j = i
    · subst hji; rw [upd_same] at hj; cases hj; exact Or.inl ⟨rfl, rfl, rfl⟩
    · rw [upd_other _ _ hji] at hj; exact Or.inr ⟨hji, hj⟩
  refine ⟨fun b hb => h.handMade b hb.1, ?_, ?_, fun b hb => h.handLog b hb.1, h.nodup, ?_, ?_⟩
  · intro j b e hj
    rcases hp j b e hj with ⟨_, rfl, rfl⟩ | ⟨_, hj⟩
    · exact ⟨h.handMade _ ha, fun hb => hb.2 rfl, upd_same _ _ _, h.handLog _ ha⟩
    · obtain ⟨q1, q2, q3, q4⟩ := h.owned j b e hj
      have hba : b ≠ a := fun e' => q2 (e' ▸ ha)
      exact ⟨q1, fun hb => q2 hb.1, by show upd v.dl a d b = e; rw [upd_other _ _ hba]; exact q3, q4⟩
  · intro j k b e f hj hk
    rcases hp j b e hj with ⟨r1, r2, _⟩ | ⟨_, hj⟩
    · rcases hp k b f hk with ⟨t1, _, _⟩ | ⟨_, hk⟩
      · rw [r1, t1]
      · exact absurd (r2 ▸ ha) (h.owned k b f hk).2.1
    · rcases hp k b f hk with ⟨_, t2, _⟩ | ⟨_, hk⟩
      · exact absurd (t2 ▸ ha) (h.owned j b e hj).2.1
      · exact h.one j k b e f hj hk
  · intro x hx
    obtain ⟨q1, q2⟩ := h.logDl x hx
    have hne : x.1 ≠ a := fun e => h.handLog a ha (e ▸ List.mem_map_of_mem hx)
    exact ⟨q1, by show upd v.dl a d x.1 = x.2; rw [upd_other _ _ hne]; exact q2⟩
  · intro b hb
    by_cases hba : b = a
    · subst hba
      exact Or.inr (Or.inl ⟨i, d, upd_same _ _ _⟩)
    · rcases h.all b hb with q | ⟨j, e, hj⟩ | q
      · exact Or.inl ⟨q, hba⟩
      · right; left
        have hji : j ≠ i := fun e' => by subst e'; exact hi b e hj
        exact ⟨j, e, by show upd s.ptr i _ j = _; rw [upd_other _ _ hji]; exact hj⟩
      · exact Or.inr (Or.inr q)

theorem Inv.dele {s : P D} {v : View D} (h : Inv s v) {a : Nat} (ha : v.hand a) : Inv { s with log := (a, v.dl a) :: s.log } ⟨v.made, fun b => v.hand b ∧ b ≠ a, v.dl⟩ := by
  have hn := h.handLog a ha
  refine ⟨fun b hb => h.handMade b hb.1, ?_, h.one, ?_, ?_, ?_, ?_⟩
  · intro j b e hj
    obtain ⟨q1, q2, q3, q4⟩ := h.owned j b e hj
    refine ⟨q1, fun hb => q2 hb.1, q3, ?_⟩
    show b ∉ a :: s.log.map Prod.fst
    intro hm
    rcases List.mem_cons.mp hm with e' | e'
    · exact q2 (e' ▸ ha)
    · exact q4 e'
  · intro b hb
    show b ∉ a :: s.log.map Prod.fst
    intro hm
    rcases List.mem_cons.mp hm with e' | e'
    · exact hb.2 e'
    · exact h.handLog b hb.1 e'
  · exact List.nodup_cons.mpr ⟨hn, h.nodup⟩
  · intro x hx
    rcases List.mem_cons.mp hx with e | e
    · subst e; exact ⟨h.handMade _ ha, rfl⟩
    · exact h.logDl x e
  · intro b hb
    by_cases hba : b = a
    · right; right; rw [hba]; exact List.mem_cons_self
    · rcases h.all b hb with q | q | q
      · exact Or.inl ⟨q, hba⟩
      · exact Or.inr (Or.inl q)
      · exact Or.inr (Or.inr (List.mem_cons_of_mem _ q))

theorem Inv.congr {s : P D} {v w : View D} (h : Inv s v) (h1 : ∀ a, v.made a ↔ w.made a) (h2 : ∀ a, v.hand a ↔ w.hand a) (h3 : v.dl = w.dl) : Inv s w := by
  have e1 : v.made = w.made := funext fun a => propext (h1 a)
  have e2 : v.hand = w.hand := funext fun a => propext (h2 a)
  cases v; cases w
  cases e1; cases e2; cases h3
  exact h

theorem blank_none (d : D) : Blank (some ((none : Option Nat), d)) := fun _ _ h => by cases h
theorem blank_dead : Blank (none : Option (Option Nat × D)) := fun _ _ h => by cases h

theorem obj_ok {s : P D} {i : Nat} {x : Option Nat × D} (h : s.ptr i = some x) : obj s i = .ok x := by unfold obj; rw [h]

/-- `reset`, the two versions: nothing for the same pointer. -/
theorem reset_eq {s : P D} {i : Nat} {p : Option Nat} {d : D} (h : s.ptr i = some (p, d)) (p' : Option Nat) :
    reset s i p' = .ok (if p' = p then s else del { s with ptr := upd s.ptr i (some (p', d)) } p d) ∧ resetArray s i p' = reset s i p' := by
  have hs : p' = p → p = none → del { s with ptr := upd s.ptr i (some (p', d)) } p d = s := by
    intro e1 e2
    subst e1; subst e2
    show ({ s with ptr := upd s.ptr i (some (none, d)) } : P D) = s
    have : upd s.ptr i (some (none, d)) = s.ptr := by
      funext j
      by_cases hj : j = i
      · subst hj; rw [upd_same, h]
      · rw [upd_other _ _ hj]
    rw [this]
  have h1 : reset s i p' = .ok (if p' = p then s else del { s with ptr := upd s.ptr i (some (p', d)) } p d) := by
    unfold reset
    simp only [bind, Except.bind, obj_ok h]
    by_cases e : p' = p
    · rw [if_pos e]
      by_cases en : p' = none
      · rw [if_pos (Or.inl en), hs e (by rw [← e]; exact en)]
      · rw [if_neg]
        rintro (q | q)
        · exact en q
        · exact q e
    · rw [if_neg e, if_pos (Or.inr e)]
  refine ⟨h1, ?_⟩
  rw [h1]
  unfold resetArray
  simp only [bind, Except.bind, obj_ok h]
  by_cases e : p' = p
  · rw [if_pos e, if_neg (by simpa using e)]
  · rw [if_neg e, if_pos e]

/-- Replacing the object of a pointer and deleting the old one. -/
theorem Inv.replace {s : P D} {v : View D} (h : Inv s v) {i : Nat} {p : Option Nat} {d : D} (hi : s.ptr i = some (p, d)) (p' : Option Nat) (hp' : Mine v p') (e : D) :
    Inv (del { s with ptr := upd s.ptr i (some (p', e)) } p d) (v.give p' e) := by
  have hnon : p' = none → upd s.ptr i (some (p', e)) = upd s.ptr i (some (none, e)) := fun h => by rw [h]
  have uu : ∀ x, upd (upd s.ptr i (some (none, e))) i x = upd s.ptr i x := by
    intro x; funext j
    by_cases hj : j = i
    · subst hj; rw [upd_same, upd_same]
    · rw [upd_other _ _ hj, upd_other _ _ hj, upd_other _ _ hj]
  cases p with
  | none =>
    show Inv { s with ptr := upd s.ptr i (some (p', e)) } _
    cases p' with
    | none => exact h.blank (by rw [hi]; exact blank_none d) (blank_none e)
    | some a => exact h.put (by rw [hi]; exact blank_none d) hp' e
  | some b =>
    have hb := h.owned i b d hi
    have h1 := h.take hi (blank_none e)
    have h2 := h1.dele (a := b) (Or.inr rfl)
    have hd : v.dl b = d := hb.2.2.1
    rw [show (⟨v.made, fun c => v.hand c ∨ c = b, v.dl⟩ : View D).dl b = d from hd] at h2
    have h3 : Inv ⟨upd s.ptr i (some (none, e)), (b, d) :: s.log⟩ v := h2.congr (fun _ => Iff.rfl) (fun c => ⟨fun q => q.1.resolve_right q.2, fun q => ⟨Or.inl q, fun e => hb.2.1 (e ▸ q)⟩⟩) rfl
    cases p' with
    | none => exact h3
    | some a =>
      have h4 := h3.put (i := i) (a := a) (by show Blank (upd s.ptr i (some (none, e)) i); rw [upd_same]; exact blank_none e) hp' e
      have : ({ (⟨upd s.ptr i (some (none, e)), (b, d) :: s.log⟩ : P D) with ptr := upd (upd s.ptr i (some (none, e))) i (some (some a, e)) } : P D) = ⟨upd s.ptr i (some (some a, e)), (b, d) :: s.log⟩ := by
        rw [uu]
      rw [this] at h4
      exact h4

/-- Every legal call succeeds and keeps the invariant. -/
theorem step_inv {s : P D} {v : View D} (h : Inv s v) {op : Op D} (hl : Legal s v op) : ∃ s' ret, step s op = .ok (s', ret) ∧ Inv s' (after s v op ret) := by
  have hreset : ∀ i p, Live s i ∧ (Mine v p ∨ ∃ a, p = some a ∧ Owns s i a) → ∃ s', reset s i p = .ok s' ∧ resetArray s i p = .ok s' ∧ Inv s' (match s.ptr i with | some (_, d) => v.give p d | none => v) := by
    rintro i p ⟨⟨⟨q, d⟩, hx⟩, hp⟩
    obtain ⟨r1, r2⟩ := reset_eq hx p
    refine ⟨_, r1, r2.trans r1, ?_⟩
    rw [hx]
    show Inv _ (v.give p d)
    by_cases e : p = q
    · rw [if_pos e]
      cases p with
      | none => exact h
      | some a =>
        have ho := h.owned i a d (by rw [hx, e])
        refine h.congr (fun _ => Iff.rfl) (fun b => ⟨fun hb => ⟨hb, fun e' => ho.2.1 (e' ▸ hb)⟩, fun hb => hb.1⟩) ?_
        funext b
        show v.dl b = upd v.dl a d b
        by_cases hb : b = a
        · subst hb; rw [upd_same]; exact ho.2.2.1
        · rw [upd_other _ _ hb]
    · rw [if_neg e]
      have hm : Mine v p := by
        rcases hp with hp | ⟨a, ha, f, hf⟩
        · exact hp
        · rw [hx] at hf; cases hf; exact absurd ha e
      exact h.replace hx p hm d
  have hrelease : ∀ (i : Nat) (p : Option Nat) (d : D), s.ptr i = some (p, d) → release s i = .ok ({ s with ptr := upd s.ptr i (some (none, d)) }, p) ∧
      Inv { s with ptr := upd s.ptr i (some (none, d)) } ⟨v.made, fun b => v.hand b ∨ p = some b, v.dl⟩ := by
    intro i p d hi
    constructor
    · unfold release; simp only [bind, Except.bind, obj_ok hi]
    · cases p with
      | none => exact (h.blank (by rw [hi]; exact blank_none d) (blank_none d)).congr (fun _ => Iff.rfl) (fun b => ⟨Or.inl, fun q => q.resolve_right (fun e => by cases e)⟩) rfl
      | some a => exact (h.take hi (blank_none d)).congr (fun _ => Iff.rfl) (fun b => ⟨fun q => q.imp id (fun e => by rw [e]), fun q => q.imp id (fun e => (Option.some.inj e).symm)⟩) rfl
  cases op with
  | new a =>
    refine ⟨s, none, rfl, ?_, ?_, h.one, ?_, h.nodup, ?_, ?_⟩
    · rintro b (hb | hb)
      · exact Or.inl (h.handMade b hb)
      · exact Or.inr hb
    · intro i b d hi
      obtain ⟨q1, q2, q3, q4⟩ := h.owned i b d hi
      refine ⟨Or.inl q1, ?_, q3, q4⟩
      rintro (hb | hb)
      · exact q2 hb
      · exact hl (hb ▸ q1)
    · rintro b (hb | hb)
      · exact h.handLog b hb
      · intro hm
        obtain ⟨x, hx, e⟩ := List.mem_map.mp hm
        have := (h.logDl x hx).1
        rw [e, hb] at this
        exact hl this
    · intro x hx; exact ⟨Or.inl (h.logDl x hx).1, (h.logDl x hx).2⟩
    · rintro b (hb | hb)
      · rcases h.all b hb with q | q | q
        · exact Or.inl (Or.inl q)
        · exact Or.inr (Or.inl q)
        · exact Or.inr (Or.inr q)
      · exact Or.inl (Or.inr hb)
  | ctor i p d =>
    obtain ⟨hl1, hl2⟩ := hl
    have hdead : s.ptr i = none := by
      cases hp : s.ptr i with
      | none => rfl
      | some x => exact absurd ⟨x, hp⟩ hl1
    refine ⟨{ s with ptr := upd s.ptr i (some (p, d)) }, none, ?_, ?_⟩
    · unfold step ctor; simp only [bind, Except.bind, hdead]
    · show Inv _ (v.give p d)
      cases p with
      | none => exact h.blank (by rw [hdead]; exact blank_dead) (blank_none d)
      | some a => exact h.put (by rw [hdead]; exact blank_dead) hl2 d
  | moveCtor i j =>
    obtain ⟨hl1, ⟨p, d⟩, hj⟩ := hl
    have hdead : s.ptr i = none := by
      cases hp : s.ptr i with
      | none => rfl
      | some x => exact absurd ⟨x, hp⟩ hl1
    have hij : i ≠ j := fun e => by subst e; rw [hdead] at hj; cases hj
    obtain ⟨r1, r2⟩ := hrelease j p d hj
    have hi' : upd s.ptr j (some (none, d)) i = none := by rw [upd_other _ _ hij]; exact hdead
    refine ⟨⟨upd (upd s.ptr j (some (none, d))) i (some (p, d)), s.log⟩, none, ?_, ?_⟩
    · unfold step moveCtor ctor; simp only [bind, Except.bind, obj_ok hj, r1, hi']
    · show Inv _ v
      cases p with
      | none => exact (r2.blank (i := i) (x := some (none, d)) (by show Blank (upd s.ptr j (some (none, d)) i); rw [hi']; exact blank_dead) (blank_none d)).congr (fun _ => Iff.rfl) (fun b => ⟨fun q => q.resolve_right (fun e => by cases e), Or.inl⟩) rfl
      | some a =>
        have ho := h.owned j a d hj
        refine (r2.put (i := i) (a := a) (by show Blank (upd s.ptr j (some (none, d)) i); rw [hi']; exact blank_dead) (Or.inr rfl) d).congr (fun _ => Iff.rfl) (fun b => ⟨fun q => ?_, fun q => ⟨Or.inl q, fun e => ho.2.1 (e ▸ q)⟩⟩) ?_
        · rcases q.1 with w | w
          · exact w
          · exact absurd (Option.some.inj w).symm q.2
        · funext b
          show upd v.dl a d b = v.dl b
          by_cases hb : b = a
          · subst hb; rw [upd_same]; exact ho.2.2.1.symm
          · rw [upd_other _ _ hb]
  | release i =>
    obtain ⟨⟨p, d⟩, hi⟩ := hl
    obtain ⟨r1, r2⟩ := hrelease i p d hi
    exact ⟨_, p, r1, r2⟩
  | reset i p =>
    obtain ⟨s', r1, _, r3⟩ := hreset i p hl
    exact ⟨s', none, by unfold step; simp only [bind, Except.bind, r1], r3⟩
  | resetArray i p =>
    obtain ⟨s', _, r2, r3⟩ := hreset i p hl
    exact ⟨s', none, by unfold step; simp only [bind, Except.bind, r2], r3⟩
  | swap i j =>
    obtain ⟨p, q, d, hi, hj⟩ := hl
    by_cases hij : i = j
    · subst hij
      rw [hi] at hj
      cases hj
      refine ⟨s, none, ?_, h⟩
      have e1 : upd s.ptr i (some (p, d)) = s.ptr := by
        funext k
        by_cases hk : k = i
        · subst hk; rw [upd_same, hi]
        · rw [upd_other _ _ hk]
      unfold step swap; simp only [bind, Except.bind, obj_ok hi, e1]
    · have hji : j ≠ i := fun e => hij e.symm
      have hj' : upd s.ptr i (some (q, d)) j = some (q, d) := by rw [upd_other _ _ hji]; exact hj
      refine ⟨⟨upd (upd s.ptr i (some (q, d))) j (some (p, d)), s.log⟩, none, ?_, ?_⟩
      · have ho : obj ({ s with ptr := upd s.ptr i (some (q, d)) } : P D) j = .ok (q, d) := obj_ok hj'
        unfold step swap; simp only [bind, Except.bind, obj_ok hi, obj_ok hj, ho]
      · show Inv _ v
        -- both are emptied, then filled
        have key : ∀ (p : Option Nat) (s : P D) (v : View D) (i : Nat), Inv s v → s.ptr i = some (p, d) → Inv { s with ptr := upd s.ptr i (some (none, d)) } ⟨v.made, fun b => v.hand b ∨ p = some b, v.dl⟩ := by
          intro p s v i h hi
          cases p with
          | none => exact (h.blank (by rw [hi]; exact blank_none d) (blank_none d)).congr (fun _ => Iff.rfl) (fun b => ⟨Or.inl, fun q => q.resolve_right (fun e => by cases e)⟩) rfl
          | some a => exact (h.take hi (blank_none d)).congr (fun _ => Iff.rfl) (fun b => ⟨fun q => q.imp id (fun e => by rw [e]), fun q => q.imp id (fun e => (Option.some.inj e).symm)⟩) rfl
        have back : ∀ (p : Option Nat) (s : P D) (v : View D) (i : Nat), Inv s v → s.ptr i = some (none, d) → (∀ a, p = some a → v.hand a ∧ v.dl a = d) → Inv { s with ptr := upd s.ptr i (some (p, d)) } ⟨v.made, fun b => v.hand b ∧ p ≠ some b, v.dl⟩ := by
          intro p s v i h hi hp
          cases p with
          | none => exact (h.blank (by rw [hi]; exact blank_none d) (blank_none d)).congr (fun _ => Iff.rfl) (fun b => ⟨fun q => ⟨q, fun e => by cases e⟩, fun q => q.1⟩) rfl
          | some a =>
            refine (h.put (by rw [hi]; exact blank_none d) (hp a rfl).1 d).congr (fun _ => Iff.rfl) (fun b => ⟨fun q => ⟨q.1, fun e => q.2 (Option.some.inj e).symm⟩, fun q => ⟨q.1, fun e => q.2 (by rw [e])⟩⟩) ?_
            funext b
            show upd v.dl a d b = v.dl b
            by_cases hb : b = a
            · subst hb; rw [upd_same]; exact (hp b rfl).2.symm
            · rw [upd_other _ _ hb]
        have dlp : ∀ a, p = some a → v.dl a = d := fun a e => (h.owned i a d (by rw [hi, e])).2.2.1
        have dlq : ∀ a, q = some a → v.dl a = d := fun a e => (h.owned j a d (by rw [hj, e])).2.2.1
        have hpq : ∀ a, p = some a → q ≠ some a := fun a e1 e2 => hij (h.one i j a d d (by rw [hi, e1]) (by rw [hj, e2]))
        have nhp : ∀ a, p = some a → ¬ v.hand a := fun a e => (h.owned i a d (by rw [hi, e])).2.1
        have nhq : ∀ a, q = some a → ¬ v.hand a := fun a e => (h.owned j a d (by rw [hj, e])).2.1
        have h1 := key p s v i h hi
        have h2 := key q _ _ j h1 (by show upd s.ptr i (some (none, d)) j = _; rw [upd_other _ _ hji]; exact hj)
        have h3 := back q _ _ i h2 (by show upd (upd s.ptr i (some (none, d))) j (some (none, d)) i = _; rw [upd_other _ _ hij, upd_same]) (fun a e => ⟨Or.inr e, dlq a e⟩)
        have h4 := back p _ _ j h3 (by show upd (upd (upd s.ptr i (some (none, d))) j (some (none, d))) i (some (q, d)) j = _; rw [upd_other _ _ hji, upd_same]) (fun a e => ⟨⟨Or.inl (Or.inr e), fun e' => hpq a e e'⟩, dlp a e⟩)
        have es : upd (upd (upd (upd s.ptr i (some (none, d))) j (some (none, d))) i (some (q, d))) j (some (p, d)) = upd (upd s.ptr i (some (q, d))) j (some (p, d)) := by
          funext k
          by_cases hkj : k = j
          · subst hkj; rw [upd_same, upd_same]
          · rw [upd_other _ _ hkj, upd_other _ _ hkj]
            by_cases hki : k = i
            · subst hki; rw [upd_same, upd_same]
            · rw [upd_other _ _ hki, upd_other _ _ hki, upd_other _ _ hkj, upd_other _ _ hki]
        replace h4 : Inv ⟨upd (upd (upd (upd s.ptr i (some (none, d))) j (some (none, d))) i (some (q, d))) j (some (p, d)), s.log⟩ _ := h4
        rw [es] at h4
        refine h4.congr (fun _ => Iff.rfl) (fun b => ⟨fun hb => ?_, fun hb => ⟨⟨Or.inl (Or.inl hb), fun e => nhq b e hb⟩, fun e => nhp b e hb⟩⟩) rfl
        rcases hb.1.1 with (w | w) | w
        · exact w
        · exact absurd w hb.2
        · exact absurd w hb.1.2
  | assignNull i =>
    obtain ⟨⟨p, d⟩, hi⟩ := hl
    obtain ⟨r1, _⟩ := reset_eq hi none
    refine ⟨if none = p then s else del { s with ptr := upd s.ptr i (some (none, d)) } p d, none, ?_, ?_⟩
    · unfold step assignNull
      simp only [bind, Except.bind, obj_ok hi, r1]
      cases p with
      | none => rw [if_neg (by simp), if_pos rfl]
      | some a => rw [if_pos (by simp)]
    · show Inv _ v
      split
      · exact h
      · exact h.replace hi none trivial d
  | moveAssign i j =>
    obtain ⟨⟨⟨p, d⟩, hi⟩, ⟨q, e⟩, hj⟩ := hl
    by_cases hij : j = i
    · refine ⟨s, none, ?_, h⟩
      unfold step moveAssign
      simp only [bind, Except.bind]
      rw [if_neg (by simpa using hij)]
    · have hij' : i ≠ j := fun e => hij e.symm
      obtain ⟨r1, r2⟩ := hrelease j q e hj
      have hi1 : upd s.ptr j (some (none, e)) i = some (p, d) := by rw [upd_other _ _ hij']; exact hi
      -- the state after `reset`
      have hmine : Mine (⟨v.made, fun b => v.hand b ∨ q = some b, v.dl⟩ : View D) q := by
        cases q with
        | none => trivial
        | some a => exact Or.inr rfl
      obtain ⟨t1, _⟩ := reset_eq (s := ⟨upd s.ptr j (some (none, e)), s.log⟩) hi1 q
      have hrep := r2.replace hi1 q hmine e
      have ddl : ∀ (x : P D) (p : Option Nat) (d : D), (del x p d).ptr = x.ptr := fun x p d => by cases p <;> rfl
      have dupd : ∀ (x : P D) (f : Nat → Option (Option Nat × D)) (p : Option Nat) (d : D), ({ del x p d with ptr := f } : P D) = del { x with ptr := f } p d := fun x f p d => by cases p <;> rfl
      have uu : ∀ (f : Nat → Option (Option Nat × D)) x y, upd (upd f i x) i y = upd f i y := by
        intro f x y; funext k
        by_cases hk : k = i
        · subst hk; rw [upd_same, upd_same]
        · rw [upd_other _ _ hk, upd_other _ _ hk, upd_other _ _ hk]
      have hfin : Inv (del ⟨upd (upd s.ptr j (some (none, e))) i (some (q, e)), s.log⟩ p d) v := by
        refine hrep.congr ?_ ?_ ?_
        · intro b; cases q <;> exact Iff.rfl
        · intro b
          cases q with
          | none => exact ⟨fun w => w.resolve_right (fun e => by cases e), Or.inl⟩
          | some a =>
            have ho := h.owned j a e hj
            refine ⟨fun w => ?_, fun w => ⟨Or.inl w, fun e' => ho.2.1 (e' ▸ w)⟩⟩
            rcases w.1 with z | z
            · exact z
            · exact absurd (Option.some.inj z).symm w.2
        · cases q with
          | none => rfl
          | some a =>
            have ho := h.owned j a e hj
            funext b
            show upd v.dl a e b = v.dl b
            by_cases hb : b = a
            · subst hb; rw [upd_same]; exact ho.2.2.1.symm
            · rw [upd_other _ _ hb]
      refine ⟨del ⟨upd (upd s.ptr j (some (none, e))) i (some (q, e)), s.log⟩ p d, none, ?_, hfin⟩
      unfold step moveAssign
      simp only [bind, Except.bind]
      rw [if_pos hij]
      simp only [bind, Except.bind, r1, t1]
      by_cases hqp : q = p
      · -- both null, or the same object (impossible)
        have hpn : p = none := by
          cases p with
          | none => rfl
          | some a => exact absurd (h.one i j a d e hi (by rw [hj, hqp])) hij'
        subst hpn
        subst hqp
        rw [if_pos rfl]
        have o1 : obj (⟨upd s.ptr j (some (none, e)), s.log⟩ : P D) j = .ok (none, e) := obj_ok (upd_same _ _ _)
        have o2 : obj (⟨upd s.ptr j (some (none, e)), s.log⟩ : P D) i = .ok (none, d) := obj_ok hi1
        simp only [o1, o2]
        rfl
      · rw [if_neg hqp]
        have o1 : obj (del (⟨upd (upd s.ptr j (some (none, e))) i (some (q, d)), s.log⟩ : P D) p d) j = .ok (none, e) := by
          apply obj_ok; rw [ddl]
          show upd (upd s.ptr j (some (none, e))) i (some (q, d)) j = _
          rw [upd_other _ _ hij, upd_same]
        have o2 : obj (del (⟨upd (upd s.ptr j (some (none, e))) i (some (q, d)), s.log⟩ : P D) p d) i = .ok (q, d) := by
          apply obj_ok; rw [ddl]
          exact upd_same _ _ _
        simp only [o1, o2]
        rw [ddl, dupd]
        simp only [uu]
  | dtor i =>
    obtain ⟨⟨p, d⟩, hi⟩ := hl
    refine ⟨del { s with ptr := upd s.ptr i none } p d, none, ?_, ?_⟩
    · unfold step dtor; simp only [bind, Except.bind, obj_ok hi]
    · show Inv _ v
      cases p with
      | none => exact h.blank (by rw [hi]; exact blank_none d) blank_dead
      | some a =>
        have ho := h.owned i a d hi
        have h1 := (h.take hi blank_dead).dele (a := a) (Or.inr rfl)
        rw [show (⟨v.made, fun c => v.hand c ∨ c = a, v.dl⟩ : View D).dl a = d from ho.2.2.1] at h1
        exact h1.congr (fun _ => Iff.rfl) (fun c => ⟨fun q => q.1.resolve_right q.2, fun q => ⟨Or.inl q, fun e => ho.2.1 (e ▸ q)⟩⟩) rfl

theorem reach_inv {s : P D} {v : View D} (h : Reach s v) : Inv s v := by
  induction h with
  | init dl => exact ⟨fun _ (h : False) => h.elim, (fun _ _ _ h => by cases h), (fun _ _ _ _ _ h => by cases h), fun _ (h : False) => h.elim, List.nodup_nil, fun _ h => (List.not_mem_nil h).elim, fun _ (h : False) => h.elim⟩
  | step _ hl he ih =>
    obtain ⟨s', ret, h1, h2⟩ := step_inv ih hl
    rw [he] at h1; cases h1; exact h2

/-- C78: no legal call touches a dead unique_ptr or constructs over a live one. -/
theorem C78_no_ub {s : P D} {v : View D} (h : Reach s v) (op : Op D) (hl : Legal s v op) : ∃ s' ret, step s op = .ok (s', ret) := by
  obtain ⟨s', ret, h1, _⟩ := step_inv (reach_inv h) hl
  exact ⟨s', ret, h1⟩

/-- C78: after every history: every object made is in exactly one place: in the user's hands, with exactly one unique_ptr, or deleted; it is deleted at most once, and with the deleter it was given for. -/
theorem C78_one_owner {s : P D} {v : View D} (h : Reach s v) :
    (∀ a, v.made a → v.hand a ∨ (∃ i, Owns s i a) ∨ a ∈ s.log.map Prod.fst) ∧
    (∀ i a, Owns s i a → v.made a ∧ ¬ v.hand a ∧ a ∉ s.log.map Prod.fst ∧ ∀ j, Owns s j a → j = i) ∧
    (∀ a, v.hand a → a ∉ s.log.map Prod.fst) ∧ (s.log.map Prod.fst).Nodup ∧ (∀ x ∈ s.log, v.made x.1 ∧ x.2 = v.dl x.1) := by
  have hi := reach_inv h
  refine ⟨hi.all, ?_, hi.handLog, hi.nodup, fun x hx => ⟨(hi.logDl x hx).1, (hi.logDl x hx).2.symm⟩⟩
  rintro i a ⟨d, hd⟩
  obtain ⟨q1, q2, q3, q4⟩ := hi.owned i a d hd
  exact ⟨q1, q2, q4, fun j ⟨e, he⟩ => hi.one j i a e d he hd⟩

/-- C78: when all unique_ptrs are gone and the user has nothing left, every object made has been deleted, once. -/
theorem C78_no_leak {s : P D} {v : View D} (h : Reach s v) (hd : ∀ i, ¬ Live s i) (hh : ∀ a, ¬ v.hand a) : ∀ a, v.made a ↔ a ∈ s.log.map Prod.fst := by
  have hi := reach_inv h
  intro a
  constructor
  · intro ha
    rcases hi.all a ha with q | ⟨i, d, q⟩ | q
    · exact absurd q (hh a)
    · exact absurd ⟨_, q⟩ (hd i)
    · exact q
  · intro ha
    obtain ⟨x, hx, e⟩ := List.mem_map.mp ha
    exact e ▸ (hi.logDl x hx).1

/-- C78: `reset` and the destructor delete exactly the old object, with this pointer's deleter; `release` hands it out without deleting; moving leaves the source empty. -/
theorem C78_calls {s : P D} {i : Nat} {p : Option Nat} {d : D} (hi : s.ptr i = some (p, d)) :
    (∀ p', p' ≠ p → reset s i p' = .ok (del { s with ptr := upd s.ptr i (some (p', d)) } p d)) ∧ reset s i p = .ok s ∧ (∀ p', resetArray s i p' = reset s i p') ∧
    release s i = .ok ({ s with ptr := upd s.ptr i (some (none, d)) }, p) ∧ dtor s i = .ok (del { s with ptr := upd s.ptr i none } p d) ∧
    ∀ j, s.ptr j = none → moveCtor s j i = .ok { s with ptr := upd (upd s.ptr i (some (none, d))) j (some (p, d)) } := by
  refine ⟨fun p' hp => by rw [(reset_eq hi p').1, if_neg hp], by rw [(reset_eq hi p).1, if_pos rfl], fun p' => (reset_eq hi p').2, ?_, ?_, ?_⟩
  · unfold release; simp only [bind, Except.bind, obj_ok hi]
  · unfold dtor; simp only [bind, Except.bind, obj_ok hi]
  · intro j hj
    have hji : j ≠ i := fun e => by subst e; rw [hj] at hi; cases hi
    have hj' : upd s.ptr i (some (none, d)) j = none := by rw [upd_other _ _ hji]; exact hj
    unfold moveCtor release ctor
    simp only [bind, Except.bind, obj_ok hi, hj']

/-- C78: `swap` exchanges the pointers; move assignment deletes the old object of the target with the old deleter, gives it the object and the deleter of the source, and empties the source; assigning null deletes. -/
theorem C78_calls_two {s : P D} {i j : Nat} {p q : Option Nat} {d e : D} (hi : s.ptr i = some (p, d)) (hj : s.ptr j = some (q, e)) :
    (i ≠ j → swap s i j = .ok { s with ptr := upd (upd s.ptr i (some (q, d))) j (some (p, e)) }) ∧ swap s i i = .ok s ∧
    (i ≠ j → (q = none ∨ q ≠ p) → moveAssign s i j = .ok (del { s with ptr := upd (upd s.ptr j (some (none, e))) i (some (q, e)) } p d)) ∧ moveAssign s i i = .ok s ∧
    assignNull s i = .ok (del { s with ptr := upd s.ptr i (some (none, d)) } p d) := by
  have idem : upd s.ptr i (some (p, d)) = s.ptr := by
    funext k
    by_cases hk : k = i
    · subst hk; rw [upd_same, hi]
    · rw [upd_other _ _ hk]
  have uu : ∀ (f : Nat → Option (Option Nat × D)) x y, upd (upd f i x) i y = upd f i y := by
    intro f x y; funext k
    by_cases hk : k = i
    · subst hk; rw [upd_same, upd_same]
    · rw [upd_other _ _ hk, upd_other _ _ hk, upd_other _ _ hk]
  refine ⟨?_, ?_, ?_, ?_, ?_⟩
  · intro hij
    have ho : obj ({ s with ptr := upd s.ptr i (some (q, d)) } : P D) j = .ok (q, e) := obj_ok (by show upd s.ptr i (some (q, d)) j = _; rw [upd_other _ _ (Ne.symm hij)]; exact hj)
    unfold swap; simp only [bind, Except.bind, obj_ok hi, obj_ok hj, ho]
  · unfold swap; simp only [bind, Except.bind, obj_ok hi, idem]
  · intro hij hq
    have hi1 : upd s.ptr j (some (none, e)) i = some (p, d) := by rw [upd_other _ _ hij]; exact hi
    have ddl : ∀ (x : P D) (p : Option Nat) (d : D), (del x p d).ptr = x.ptr := fun x p d => by cases p <;> rfl
    have dupd : ∀ (x : P D) (f : Nat → Option (Option Nat × D)) (p : Option Nat) (d : D), ({ del x p d with ptr := f } : P D) = del { x with ptr := f } p d := fun x f p d => by cases p <;> rfl
    have hr : release s j = .ok (⟨upd s.ptr j (some (none, e)), s.log⟩, q) := by unfold release; simp only [bind, Except.bind, obj_ok hj]
    have hre : reset ⟨upd s.ptr j (some (none, e)), s.log⟩ i q = .ok (del ⟨upd (upd s.ptr j (some (none, e))) i (some (q, d)), s.log⟩ p d) := by
      unfold reset
      have h1 : obj (⟨upd s.ptr j (some (none, e)), s.log⟩ : P D) i = .ok (p, d) := obj_ok hi1
      simp only [bind, Except.bind, h1]
      rw [if_pos hq]
    have hoj : obj (del ⟨upd (upd s.ptr j (some (none, e))) i (some (q, d)), s.log⟩ p d) j = .ok (none, e) := obj_ok (by rw [ddl]; show upd (upd s.ptr j (some (none, e))) i (some (q, d)) j = _; rw [upd_other _ _ (Ne.symm hij), upd_same])
    have hoi : obj (del ⟨upd (upd s.ptr j (some (none, e))) i (some (q, d)), s.log⟩ p d) i = .ok (q, d) := obj_ok (by rw [ddl]; exact upd_same _ _ _)
    unfold moveAssign
    rw [if_pos (Ne.symm hij)]
    simp only [bind, Except.bind, hr, hre, hoj, hoi]
    rw [dupd, ddl, uu]
  · unfold moveAssign; rw [if_neg (by simp)]
  · unfold assignNull
    cases p with
    | none =>
      simp only [bind, Except.bind, obj_ok hi]
      rw [if_neg (by simp)]
      show _ = Except.ok ({ s with ptr := upd s.ptr i (some (none, d)) } : P D)
      rw [idem]
    | some a =>
      simp only [bind, Except.bind, obj_ok hi]
      rw [if_pos (by simp), (reset_eq hi none).1, if_neg (by simp)]

/-! ## Examples -/

/-- Two pointers with the deleter `()`; an object is moved, one reset, one released and given back. -/
def exRun : Res (List Nat) := do
  let s : P Unit := ⟨fun _ => none, []⟩
  let s ← ctor s 0 (some 10) ()
  let s ← moveCtor s 1 0
  let s ← reset s 0 (some 11)
  let (s, p) ← release s 1
  let s ← moveAssign s 1 0
  let s ← reset s 1 p
  let s ← dtor s 0
  let s ← dtor s 1
  .ok (s.log.map Prod.fst)
example : exRun = .ok [10, 11] := by rfl

example : ∃ (s : P Unit) (v : View Unit), Reach s v ∧ Owns s 0 10 := by
  refine ⟨_, _, Reach.step (op := .ctor 0 (some 10) ()) (Reach.step (op := .new 10) (Reach.init (fun _ => ())) (fun h => h) rfl) ⟨(fun ⟨_, h⟩ => by cases h), Or.inr rfl⟩ rfl, (), rfl⟩

/-! ## Finding -/

/-- The cause why C78 allows `swap` only between pointers with the same deleter: `swap` exchanges the pointers and leaves the deleters, so that both objects are then deleted with the wrong one. -/
theorem C78_finding_swap : (do
    let s : P Nat := ⟨fun _ => none, []⟩
    let s ← ctor s 0 (some 10) 100   -- object 10 is for deleter 100
    let s ← ctor s 1 (some 11) 101   -- object 11 is for deleter 101
    let s ← swap s 0 1
    let s ← dtor s 0
    let s ← dtor s 1
    .ok s.log : Res (List (Nat × Nat))) = .ok [(10, 101), (11, 100)] := by rfl

/-! # Uninitialised memory (C79) -/

variable {α : Type}

/-! ## Specification -/

/-- The memory from `b` on holds exactly the objects `vs`. -/
def Holds (m : Mem α) (b : Nat) (vs : List α) : Prop := ∀ k x, vs[k]? = some x → m (b + k) = some x
/-- The `n` cells from `b` on are raw. -/
def Raw (m : Mem α) (b n : Nat) : Prop := ∀ k, k < n → m (b + k) = none
/-- Outside of the `n` cells from `b` on nothing has changed. -/
def Else (m m' : Mem α) (b n : Nat) : Prop := ∀ a, (a < b ∨ b + n ≤ a) → m' a = m a

/-! ## Lemmas -/

/-- What is left of an object. -/
def left (mv : Option (α → α)) (v : α) : α := match mv with | none => v | some f => f v

theorem put_ok {t : Bool} {m : Mem α} {a : Nat} (ht : t = true ∨ m a = none) (v : α) : put t m a v = .ok (upd m a (some v)) := by
  unfold put construct
  cases t with
  | true => rfl
  | false =>
    rcases ht with h | h
    · cases h
    · rw [h]; rfl

theorem fill_ok (t : Bool) (v : α) (n : Nat) : ∀ (fuel : Nat) (m : Mem α) (b : Nat), n ≤ fuel → (t = true ∨ Raw m b n) →
    ∃ m', uninitFill t v fuel m b (b + n) = .ok (m', b + n) ∧ (∀ k, k < n → m' (b + k) = some v) ∧ Else m m' b n := by
  induction n with
  | zero =>
    intro fuel m b _ _
    refine ⟨m, ?_, fun k hk => by omega, fun _ _ => rfl⟩
    unfold uninitFill
    exact if_pos rfl
  | succ n ih =>
    intro fuel m b hf hr
    obtain ⟨f, rfl⟩ : ∃ f, fuel = f + 1 := ⟨fuel - 1, by omega⟩
    have hp : put t m b v = .ok (upd m b (some v)) := put_ok (hr.imp id (fun h => h 0 (by omega))) v
    obtain ⟨m', e1, e2, e3⟩ := ih f (upd m b (some v)) (b + 1) (by omega) (hr.imp id (fun h k hk => by
      rw [upd_other _ _ (by omega)]
      have := h (k + 1) (by omega)
      rw [show b + 1 + k = b + (k + 1) by omega]; exact this))
    refine ⟨m', ?_, ?_, ?_⟩
    · rw [uninitFill]
      rw [if_neg (by omega)]
      simp only [bind, Except.bind, hp]
      rw [show b + (n + 1) = b + 1 + n by omega]
      exact e1
    · intro k hk
      cases k with
      | zero => rw [e3 (b + 0) (by omega)]; exact upd_same _ _ _
      | succ k => rw [show b + (k + 1) = b + 1 + k by omega]; exact e2 k (by omega)
    · intro a ha
      rw [e3 a (by omega), upd_other _ _ (by omega)]

theorem copy_ok (t : Bool) (mv : Option (α → α)) (vs : List α) : ∀ (fuel : Nat) (m : Mem α) (ib o : Nat), vs.length ≤ fuel → Holds m ib vs → (t = true ∨ Raw m o vs.length) →
    (ib + vs.length ≤ o ∨ o + vs.length ≤ ib) →
    ∃ m', uninitCopy t mv fuel m ib (ib + vs.length) o = .ok (m', o + vs.length) ∧ Holds m' o vs ∧ Holds m' ib (match mv with | none => vs | some f => vs.map f) ∧
      ∀ a, (a < o ∨ o + vs.length ≤ a) → (a < ib ∨ ib + vs.length ≤ a) → m' a = m a := by
  induction vs with
  | nil =>
    intro fuel m ib o _ _ _ _
    refine ⟨m, ?_, fun k x h => by simp at h, fun k x h => by cases mv <;> simp at h, fun _ _ _ => rfl⟩
    unfold uninitCopy
    exact if_pos rfl
  | cons v vs ih =>
    intro fuel m ib o hf hh hr hd
    simp only [List.length_cons] at hf hr hd ⊢
    obtain ⟨f, rfl⟩ : ∃ f, fuel = f + 1 := ⟨fuel - 1, by omega⟩
    have hv : m ib = some v := hh 0 v rfl
    have hrd : readAt m ib = .ok v := by unfold readAt; rw [hv]
    have hp : put t m o v = .ok (upd m o (some v)) := put_ok (hr.imp id (fun h => h 0 (by omega))) v
    generalize hm2 : (match mv with | none => upd m o (some v) | some f => upd (upd m o (some v)) ib (some (f v))) = m2
    have hio : ib ≠ o := by omega
    have h2o : m2 o = some v := by
      rw [← hm2]
      cases mv with
      | none => exact upd_same _ _ _
      | some f => show upd (upd m o (some v)) ib (some (f v)) o = _; rw [upd_other _ _ (Ne.symm hio), upd_same]
    have h2i : m2 ib = some (left mv v) := by
      rw [← hm2]
      cases mv with
      | none => show upd m o (some v) ib = _; rw [upd_other _ _ hio]; exact hv
      | some f => exact upd_same _ _ _
    have h2e : ∀ a, a ≠ ib → a ≠ o → m2 a = m a := by
      intro a h1 h2
      rw [← hm2]
      cases mv with
      | none => exact upd_other _ _ h2
      | some f => show upd (upd m o (some v)) ib (some (f v)) a = _; rw [upd_other _ _ h1, upd_other _ _ h2]
    obtain ⟨m', e1, e2, e3, e4⟩ := ih f m2 (ib + 1) (o + 1) (by omega) (fun k x hx => by
        have hk := (List.getElem?_eq_some_iff.mp hx).1
        rw [h2e _ (by omega) (by omega), show ib + 1 + k = ib + (k + 1) by omega]
        exact hh (k + 1) x hx) (hr.imp id (fun h k hk => by
        rw [h2e _ (by omega) (by omega), show o + 1 + k = o + (k + 1) by omega]
        exact h (k + 1) (by omega))) (by omega)
    refine ⟨m', ?_, ?_, ?_, ?_⟩
    · rw [uninitCopy]
      rw [if_neg (by omega)]
      simp only [bind, Except.bind, hrd, hp]
      rw [show ib + (vs.length + 1) = ib + 1 + vs.length by omega, show o + (vs.length + 1) = o + 1 + vs.length by omega, ← e1, ← hm2]
      cases mv <;> rfl
    · intro k x hx
      cases k with
      | zero =>
        rw [List.getElem?_cons_zero] at hx
        rw [← hx, Nat.add_zero, e4 o (by omega) (by omega), h2o]
      | succ k => rw [show o + (k + 1) = o + 1 + k by omega]; exact e2 k x hx
    · intro k x hx
      cases k with
      | zero =>
        rw [Nat.add_zero, e4 ib (by omega) (by omega), h2i]
        cases mv with
        | none => exact hx
        | some f => exact hx
      | succ k =>
        rw [show ib + (k + 1) = ib + 1 + k by omega]
        refine e3 k x ?_
        cases mv with
        | none => exact hx
        | some f => exact hx
    · intro a ha1 ha2
      rw [e4 a (by omega) (by omega), h2e a (by omega) (by omega)]

theorem destroy_ok (vs : List α) : ∀ (fuel : Nat) (m : Mem α) (b : Nat), vs.length ≤ fuel → Holds m b vs →
    ∃ m', destroy fuel m b (b + vs.length) = .ok m' ∧ destroyN vs.length m b = .ok (m', b + vs.length) ∧ Raw m' b vs.length ∧ Else m m' b vs.length := by
  induction vs with
  | nil =>
    intro fuel m b _ _
    refine ⟨m, ?_, rfl, fun k hk => by simp at hk, fun _ _ => rfl⟩
    unfold destroy
    exact if_pos rfl
  | cons v vs ih =>
    intro fuel m b hf hh
    simp only [List.length_cons] at hf ⊢
    obtain ⟨f, rfl⟩ : ∃ f, fuel = f + 1 := ⟨fuel - 1, by omega⟩
    have hd : destroyAt m b = .ok (upd m b none) := by unfold destroyAt; rw [show m b = some v from hh 0 v rfl]
    obtain ⟨m', e1, e2, e3, e4⟩ := ih f (upd m b none) (b + 1) (by omega) (fun k x hx => by
      rw [upd_other _ _ (by omega), show b + 1 + k = b + (k + 1) by omega]
      exact hh (k + 1) x hx)
    refine ⟨m', ?_, ?_, ?_, ?_⟩
    · rw [destroy]
      rw [if_neg (by omega)]
      simp only [bind, Except.bind, hd]
      rw [show b + (vs.length + 1) = b + 1 + vs.length by omega]
      exact e1
    · unfold destroyN
      simp only [bind, Except.bind, hd]
      rw [show b + (vs.length + 1) = b + 1 + vs.length by omega]
      exact e2
    · intro k hk
      cases k with
      | zero => rw [e4 (b + 0) (by omega)]; exact upd_same _ _ _
      | succ k => rw [show b + (k + 1) = b + 1 + k by omega]; exact e3 k (by omega)
    · intro a ha
      rw [e4 a (by omega), upd_other _ _ (by omega)]

/-! ## Properties -/

/-- C79: `uninitialized_fill` and `_fill_n` on raw memory of any size make exactly `n` copies there, return the end, change nothing else and, in the counting version, count `n`; `uninitialized_value_construct` likewise with the
default value, and `uninitialized_default_construct` of a type that is not trivial. -/
theorem C79_fill (t : Bool) (v : α) (m : Mem α) (b n : Nat) (hr : Raw m b n) (fuel : Nat) (hf : n ≤ fuel) (count : Int) :
    ∃ m', uninitFill t v fuel m b (b + n) = .ok (m', b + n) ∧ uninitFillN t v fuel m b n = .ok (m', b + n) ∧ uninitFillCount t v fuel m b (b + n) count = .ok (m', b + n, count + n) ∧
      uninitValue t v fuel m b (b + n) = .ok m' ∧ (t = false → uninitDefault t v fuel m b (b + n) = .ok m' ∧ uninitDefaultCount t v fuel m b (b + n) count = .ok (m', count + n)) ∧
      Holds m' b (List.replicate n v) ∧ Else m m' b n := by
  obtain ⟨m', e1, e2, e3⟩ := fill_ok t v n fuel m b hf (Or.inr hr)
  refine ⟨m', e1, e1, ?_, ?_, ?_, ?_, e3⟩
  · unfold uninitFillCount
    simp only [bind, Except.bind, e1]
    rw [show ((b + n : Nat) : Int) - (b : Int) = n by omega]
  · unfold uninitValue; simp only [bind, Except.bind, e1]
  · intro ht
    subst ht
    constructor
    · unfold uninitDefault; rw [if_neg (by decide)]; simp only [bind, Except.bind, e1]
    · unfold uninitDefaultCount uninitDefault
      rw [if_neg (by decide), if_neg (by decide)]
      simp only [bind, Except.bind, e1]
      rw [show ((b + n : Nat) : Int) - (b : Int) = n by omega]
  · intro k x hx
    have hk := (List.getElem?_eq_some_iff.mp hx).1
    rw [List.length_replicate] at hk
    rw [List.getElem?_replicate, if_pos hk] at hx
    rw [e2 k hk, hx]

/-- C79: `uninitialized_copy` and `uninitialized_move` (with their counting versions) from objects to raw memory elsewhere: the values arrive in order, the source keeps its objects (the moved ones as moved from), nothing else changes. -/
theorem C79_copy (t : Bool) (mv : Option (α → α)) (vs : List α) (m : Mem α) (ib o : Nat) (hs : Holds m ib vs) (hr : Raw m o vs.length) (hd : ib + vs.length ≤ o ∨ o + vs.length ≤ ib)
    (fuel : Nat) (hf : vs.length ≤ fuel) (count : Int) :
    ∃ m', uninitCopy t mv fuel m ib (ib + vs.length) o = .ok (m', o + vs.length) ∧ uninitCopyCount t mv fuel m ib (ib + vs.length) o count = .ok (m', o + vs.length, count + vs.length) ∧
      Holds m' o vs ∧ Holds m' ib (match mv with | none => vs | some f => vs.map f) ∧ ∀ a, (a < o ∨ o + vs.length ≤ a) → (a < ib ∨ ib + vs.length ≤ a) → m' a = m a := by
  obtain ⟨m', e1, e2, e3, e4⟩ := copy_ok t mv vs fuel m ib o hf hs (Or.inr hr) hd
  refine ⟨m', e1, ?_, e2, e3, e4⟩
  unfold uninitCopyCount
  simp only [bind, Except.bind, e1]
  rw [show ((ib + vs.length : Nat) : Int) - (ib : Int) = vs.length by omega]

/-- C79: `destroy` and `destroy_n` destroy every object of the range once, nothing else, and count down by their number. -/
theorem C79_destroy (vs : List α) (m : Mem α) (b : Nat) (hs : Holds m b vs) (fuel : Nat) (hf : vs.length ≤ fuel) (count : Int) :
    ∃ m', destroy fuel m b (b + vs.length) = .ok m' ∧ destroyCount fuel m b (b + vs.length) count = .ok (m', count - vs.length) ∧ destroyN vs.length m b = .ok (m', b + vs.length) ∧ Raw m' b vs.length ∧ Else m m' b vs.length := by
  obtain ⟨m', e1, e2, e3, e4⟩ := destroy_ok vs fuel m b hf hs
  refine ⟨m', e1, ?_, e2, e3, e4⟩
  unfold destroyCount
  simp only [bind, Except.bind, e1]
  rw [show ((b + vs.length : Nat) : Int) - (b : Int) = vs.length by omega]

/-- C79: what is made by `uninitialized_fill` is taken away by `destroy`: the memory is as before, the counter too. -/
theorem C79_balanced (t : Bool) (v : α) (m : Mem α) (b n : Nat) (hr : Raw m b n) (fuel : Nat) (hf : n ≤ fuel) (count : Int) :
    (do let (m, e, count) ← uninitFillCount t v fuel m b (b + n) count; destroyCount fuel m b e count) = .ok (m, count) := by
  obtain ⟨m1, _, _, e3, _, _, e6, e7⟩ := C79_fill t v m b n hr fuel hf count
  obtain ⟨m2, _, d2, _, d4, d5⟩ := C79_destroy (List.replicate n v) m1 b e6 fuel (by rw [List.length_replicate]; exact hf) (count + n)
  rw [List.length_replicate] at d2 d4 d5
  simp only [bind, Except.bind, e3]
  rw [d2]
  have hm : m2 = m := by
    funext a
    by_cases ha : a < b ∨ b + n ≤ a
    · rw [d5 a ha, e7 a ha]
    · have h1 := d4 (a - b) (by omega)
      have h2 := hr (a - b) (by omega)
      rw [show b + (a - b) = a by omega] at h1 h2
      rw [h1, h2]
  rw [hm, show count + (n : Int) - (n : Int) = count by omega]

/-- C79: `memory_set` and `memory_clear` write exactly the given bytes. -/
theorem C79_memory_set (v n : Nat) (m : Nat → Nat) (p : Nat) : ∀ a, memorySet v n m p a = if p ≤ a ∧ a < p + n then v else m a := by
  induction n generalizing m p with
  | zero => intro a; rw [if_neg (by omega)]; rfl
  | succ n ih =>
    intro a
    show memorySet v n (upd m p v) (p + 1) a = _
    rw [ih]
    by_cases h : p + 1 ≤ a ∧ a < p + 1 + n
    · rw [if_pos h, if_pos (by omega)]
    · rw [if_neg h]
      by_cases hp : a = p
      · subst hp; rw [upd_same, if_pos (by omega)]
      · rw [upd_other _ _ hp, if_neg (by omega)]

/-! ## Examples -/

example : Raw (fun a => if a < 10 then some a else none : Mem Nat) 10 3 ∧ Holds (fun a => if a < 10 then some a else none : Mem Nat) 4 [4, 5, 6] := by
  constructor
  · intro k _; simp
  · intro k x hx
    match k with
    | 0 => simpa using hx
    | 1 => simpa using hx
    | 2 => simpa using hx
    | k + 3 => simp at hx

example : ((uninitCopyCount false (some (fun _ => 0)) 3 (fun a => if a < 10 then some a else none) 4 7 10 5).map (fun r => ([4, 5, 6, 10, 11, 12, 13].map r.1, r.2))) =
    .ok ([some 0, some 0, some 0, some 4, some 5, some 6, none], 13, 8) := by rfl

/-! ## Findings -/

/-- `uninitialized_default_construct` with a debug counter, for trivially constructible types: the counter is set to the number of the new objects, those counted before are forgotten. -/
theorem C79_finding_count_lost : (uninitDefaultCount true 0 3 (fun _ => none) 10 13 (5 : Int)).map Prod.snd = .ok 3 := by rfl

/-- `mem_compare` gives the opposite sign of what its comment says: it calls `memcmp` with the destination first. -/
theorem C79_finding_mem_compare (sb db : List Nat) : memCompare sb db = - memcmp sb db := by
  unfold memCompare
  induction sb generalizing db with
  | nil => cases db <;> rfl
  | cons a sb ih =>
    cases db with
    | nil => rfl
    | cons b db =>
      unfold memcmp
      rcases Nat.lt_trichotomy a b with h | h | h
      · rw [if_neg (by omega), if_pos h, if_pos h]; rfl
      · subst h; rw [if_neg (by omega), if_neg (by omega), if_neg (by omega), if_neg (by omega)]; exact ih db
      · rw [if_pos h, if_neg (by omega), if_pos h]

end Etl.Memory
