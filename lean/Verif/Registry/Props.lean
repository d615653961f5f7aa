import Verif.Registry.Model
import Verif.Flat.Props

/-!
# Properties of message_router_registry.h (C83)
-/
namespace Etl.Registry
open Etl.Flat

/-! ## Specification: the registry is the list of its routers in the order of their registration -/

inductive Op where
  | add (p : Option Nat)
  | addAll (rs : List Nat)
  | remove (id : Nat)

/-- A call: the registry after it, and whether there was no error. -/
def call (rid : Nat → Nat) (s : Reg) : Op → Res (Reg × Bool)
  | .add p => addPtr rid s p
  | .addAll rs => addAll rid s rs
  | .remove id => do .ok (← remove s id, true)

/-- The first router registered with this id. -/
def first (rid : Nat → Nat) (reg : List Nat) (id : Nat) : Option Nat := reg.find? (fun r => rid r == id)

def specAdd (rid : Nat → Nat) (cap : Nat) (reg : List Nat) (r : Nat) : List Nat × Bool :=
  if reg.length = cap ∨ first rid reg (rid r) = some r then (reg, false) else (reg ++ [r], true)
def specAddAll (rid : Nat → Nat) (cap : Nat) : List Nat → List Nat → List Nat × Bool
  | reg, [] => (reg, true)
  | reg, r :: rs => let q := specAdd rid cap reg r; if q.2 then specAddAll rid cap q.1 rs else (q.1, false)

def spec (rid : Nat → Nat) (cap : Nat) (reg : List Nat) : Op → List Nat × Bool
  | .add none => (reg, true)
  | .add (some r) => specAdd rid cap reg r
  | .addAll rs => specAddAll rid cap reg rs
  | .remove id => (reg.filter (fun r => !(rid r == id)), true)

inductive Reach (rid : Nat → Nat) (cap : Nat) (dbg triv : Bool) : Reg → List Nat → Prop where
  | new : Reach rid cap dbg triv (new cap dbg triv) []
  | call {s reg s' b} (op : Op) : Reach rid cap dbg triv s reg → call rid s op = .ok (s', b) → Reach rid cap dbg triv s' (spec rid cap reg op).1

/-! ## Invariant -/

theorem sw : StrictWeak idLt := ⟨fun a => by simp [idLt], fun a b c h1 h2 => by simp [idLt] at *; omega, fun a b c h1 h2 h3 h4 => by simp [idLt] at *; omega⟩
theorem equiv_iff (a b : Nat) : equivBy idLt a b = (a == b) := by
  unfold equivBy idLt
  by_cases h : a = b
  · subst h; simp
  · have : a < b ∨ b < a := by omega
    rcases this with h' | h' <;> simp [h', h]

def tag (rid : Nat → Nat) (r : Nat) : Nat × Nat := (rid r, r)

structure Good (rid : Nat → Nat) (cap : Nat) (dbg triv : Bool) (s : Reg) (reg : List Nat) (l : List (Nat × Nat)) : Prop where
  inv : Flat.Inv Prod.fst idLt cap true true dbg triv s l
  sort : IsStableSort (fun x y => idLt x.1 y.1) (reg.map (tag rid)) l

variable {rid : Nat → Nat} {cap : Nat} {dbg triv : Bool} {s : Reg} {reg : List Nat} {l : List (Nat × Nat)}

theorem Good.filter (h : Good rid cap dbg triv s reg l) (id : Nat) : l.filter (fun x => x.1 == id) = (reg.map (tag rid)).filter (fun x => x.1 == id) := by
  have e := h.sort.stable (id, 0)
  have hf : (equivBy (fun x y : Nat × Nat => idLt x.1 y.1) (id, 0)) = fun x => x.1 == id := by
    funext x
    show equivBy idLt id x.1 = _
    rw [equiv_iff]; exact Bool.beq_comm ..
  rw [hf] at e; exact e

theorem find_tag (rid : Nat → Nat) (reg : List Nat) (id : Nat) : (reg.map (tag rid)).find? (fun x => x.1 == id) = (first rid reg id).map (tag rid) := by
  unfold first
  induction reg with
  | nil => rfl
  | cons r reg ih =>
    rw [List.map_cons, List.find?_cons, List.find?_cons]
    show (match rid r == id with | true => _ | false => _) = _
    cases rid r == id with
    | true => rfl
    | false => exact ih

theorem Good.findEq (h : Good rid cap dbg triv s reg l) (id : Nat) : l.find? (fun x => x.1 == id) = (first rid reg id).map (tag rid) := by
  rw [← List.head?_filter, h.filter, List.head?_filter, find_tag]

/-- The iterator `find` of the map gives, and the element there. -/
theorem Good.at (h : Good rid cap dbg triv s reg l) (id : Nat) :
    (∃ i r, Flat.find Prod.fst idLt s id = .ok i ∧ i ≠ size s ∧ readAt s i = .ok (rid r, r) ∧ first rid reg id = some r) ∨ (Flat.find Prod.fst idLt s id = .ok (size s) ∧ first rid reg id = none) := by
  have hs := Flat.shows_of_inv sw h.inv
  have hat := hs.at_ id
  have hp : (fun x : Nat × Nat => equivBy idLt x.1 id) = fun x => x.1 == id := by funext x; exact equiv_iff _ _
  rw [hp, h.findEq] at hat
  by_cases hh : Has Prod.fst idLt l id = true
  · left
    obtain ⟨x, hx, hxe⟩ := hs.found id hh
    rw [equiv_iff] at hxe
    have hlt := (List.getElem?_eq_some_iff.mp hx).1
    have hne : below Prod.fst idLt l id ≠ size s := by rw [hs.size]; omega
    have hr := readAt_ok h.inv.view hx
    have hsame : same idLt x.1 id = true := by
      have := equiv_iff x.1 id
      unfold equivBy at this
      unfold same
      rw [this]; exact hxe
    unfold at? at hat
    rw [hs.lower id] at hat
    simp only [] at hat
    rw [if_neg hne, hr] at hat
    simp only [] at hat
    rw [if_pos hsame] at hat
    cases hf : first rid reg id with
    | none => rw [hf] at hat; simp at hat
    | some r =>
      rw [hf] at hat
      have hx' : x = tag rid r := by simpa using hat
      subst hx'
      exact ⟨_, r, by rw [hs.find id, if_pos hh], hne, hr, rfl⟩
  · right
    refine ⟨by rw [hs.find id, if_neg hh, hs.size], ?_⟩
    have hn : l.find? (fun x => x.1 == id) = none := by
      rw [List.find?_eq_none]
      intro x hx hc
      refine hh ?_
      unfold Has
      rw [List.any_eq_true]
      exact ⟨x, hx, by rw [equiv_iff]; exact hc⟩
    rw [h.findEq] at hn
    cases hf : first rid reg id with
    | none => rfl
    | some r => rw [hf] at hn; cases hn

theorem Good.contains_eq (h : Good rid cap dbg triv s reg l) (r : Nat) : contains rid s r = .ok (decide (first rid reg (rid r) = some r)) := by
  unfold contains
  rcases h.at (rid r) with ⟨i, r', e1, e2, e3, e4⟩ | ⟨e1, e2⟩
  · simp only [bind, Except.bind, e1, e3]
    rw [if_pos e2, e4]
    congr 1
    by_cases hr : r' = r
    · subst hr; simp
    · simp [hr]
  · simp only [bind, Except.bind, e1]
    rw [if_neg (by simp), e2]; simp

theorem Good.len (h : Good rid cap dbg triv s reg l) : l.length = reg.length := by rw [h.sort.perm.length_eq, List.length_map]

theorem add_good (h : Good rid cap dbg triv s reg l) (r : Nat) : ∃ s' l', add rid s r = .ok (s', (specAdd rid cap reg r).2) ∧ Good rid cap dbg triv s' (specAdd rid cap reg r).1 l' := by
  have hs := Flat.shows_of_inv sw h.inv
  unfold add specAdd
  by_cases hf : reg.length = cap
  · rw [if_pos (Or.inl hf)]
    have : full s = true := hs.full.mpr (by rw [h.len]; exact hf)
    rw [this]
    exact ⟨s, l, rfl, h⟩
  · have hfl : full s = false := by
      cases e : full s with
      | false => rfl
      | true => exact absurd (hs.full.mp e) (by rw [h.len]; exact hf)
    rw [hfl]
    simp only [bind, Except.bind, h.contains_eq]
    by_cases hc : first rid reg (rid r) = some r
    · rw [if_pos (Or.inr hc)]
      exact ⟨s, l, by simp [hc], h⟩
    · have hno : ¬(reg.length = cap ∨ first rid reg (rid r) = some r) := fun e => e.elim hf hc
      rw [if_neg hno]
      obtain ⟨s', e, hi'⟩ := Flat.step_sim sw h.inv (.insert (rid r, r)) trivial
      have hq : Flat.specStep Prod.fst idLt cap true true dbg l (.insert (rid r, r)) = (put Prod.fst idLt l (rid r, r), .pair (upTo Prod.fst idLt l (rid r)) true) := by
        show specInsert Prod.fst idLt cap true l (rid r, r) = _
        unfold specInsert
        rw [if_neg (by simp), if_neg (by rw [h.len]; exact hf)]
      rw [hq] at e hi'
      refine ⟨s', put Prod.fst idLt l (rid r, r), ?_, hi', ?_, ?_, ?_⟩
      · simp [hc, e]
      · have := put_ordered sw (multi := true) (key := Prod.fst) (lt := idLt) (l := l) (by unfold Ordered; exact h.sort.sorted) (rid r, r) (.inl rfl)
        unfold Ordered at this; simpa using this
      · show (put Prod.fst idLt l (tag rid r)).Perm ((reg ++ [r]).map (tag rid))
        rw [List.map_append]
        exact (put_perm Prod.fst idLt l (tag rid r)).trans (h.sort.perm.append_right _)
      · intro a
        show (put Prod.fst idLt l (tag rid r)).filter _ = ((reg ++ [r]).map (tag rid)).filter _
        rw [put_stable sw, List.map_append, List.filter_append, List.filter_append, h.sort.stable a]; rfl

theorem addAll_good (rs : List Nat) : ∀ {s : Reg} {reg : List Nat} {l : List (Nat × Nat)}, Good rid cap dbg triv s reg l →
    ∃ s' l', addAll rid s rs = .ok (s', (specAddAll rid cap reg rs).2) ∧ Good rid cap dbg triv s' (specAddAll rid cap reg rs).1 l' := by
  induction rs with
  | nil => intro s reg l h; exact ⟨s, l, rfl, h⟩
  | cons r rs ih =>
    intro s reg l h
    obtain ⟨s1, l1, e1, h1⟩ := add_good h r
    unfold addAll specAddAll
    simp only [bind, Except.bind, e1]
    cases hq : (specAdd rid cap reg r).2 with
    | false => exact ⟨s1, l1, by simp, by simpa using h1⟩
    | true =>
      obtain ⟨s2, l2, e2, h2⟩ := ih h1
      exact ⟨s2, l2, by simpa using e2, by simpa using h2⟩

theorem filter_sort {α : Type} {lt : α → α → Bool} {a b : List α} (h : IsStableSort lt a b) (p : α → Bool) : IsStableSort lt (a.filter p) (b.filter p) := by
  refine ⟨h.sorted.sublist List.filter_sublist, h.perm.filter p, fun c => ?_⟩
  rw [List.filter_filter, List.filter_filter]
  have hc : ∀ l : List α, l.filter (fun x => equivBy lt c x && p x) = (l.filter (equivBy lt c)).filter p := by
    intro l; rw [List.filter_filter]; exact List.filter_congr (fun x _ => Bool.and_comm ..)
  rw [hc, hc, h.stable c]

theorem call_good (h : Good rid cap dbg triv s reg l) (op : Op) : ∃ s' l', call rid s op = .ok (s', (spec rid cap reg op).2) ∧ Good rid cap dbg triv s' (spec rid cap reg op).1 l' := by
  cases op with
  | add p =>
    cases p with
    | none => exact ⟨s, l, rfl, h⟩
    | some r => exact add_good h r
  | addAll rs => exact addAll_good rs h
  | remove id =>
    obtain ⟨s', e, hi'⟩ := Flat.step_sim sw h.inv (.eraseKey id) trivial
    refine ⟨s', l.filter (fun x => !(x.1 == id)), ?_, ?_, ?_⟩
    · unfold call remove
      simp only [bind, Except.bind, e]; rfl
    · have : (Flat.specStep Prod.fst idLt cap true true dbg l (.eraseKey id)).1 = l.filter (fun x => !(x.1 == id)) := by
        show l.filter _ = _
        exact List.filter_congr (fun x _ => by rw [equiv_iff])
      rw [this] at hi'; exact hi'
    · have := filter_sort h.sort (fun x => !(x.1 == id))
      rw [List.filter_map] at this
      exact this

theorem reach_good {s : Reg} {reg : List Nat} (h : Reach rid cap dbg triv s reg) : ∃ l, Good rid cap dbg triv s reg l := by
  induction h with
  | new => exact ⟨[], Flat.init_inv cap true true dbg triv, List.Pairwise.nil, List.Perm.refl _, fun _ => rfl⟩
  | call op _ he ih =>
    obtain ⟨l, hg⟩ := ih
    obtain ⟨s', l', e, hg'⟩ := call_good hg op
    rw [e] at he
    cases he
    exact ⟨l', hg'⟩

theorem range_eq (hi : Flat.Inv Prod.fst idLt cap true true dbg triv s l) (k : Nat) : (l.take (upTo Prod.fst idLt l k)).drop (below Prod.fst idLt l k) = l.filter (fun x => x.1 == k) := by
  have ho := hi.sorted sw
  obtain ⟨_, h1, h2, h3⟩ := lower_ok sw hi.view ho k
  obtain ⟨_, g1, g2, g3⟩ := upper_ok sw hi.view ho k
  have hle : below Prod.fst idLt l k ≤ upTo Prod.fst idLt l k := by have := (equiv_cut sw hi.view ho k).1; omega
  have e1 : (l.take (below Prod.fst idLt l k)).filter (fun x => x.1 == k) = [] := by
    rw [List.filter_eq_nil_iff]
    intro x hx; rw [h2] at hx; have := (List.mem_filter.1 hx).2; simp [idLt] at this ⊢; omega
  have e2 : (l.drop (upTo Prod.fst idLt l k)).filter (fun x => x.1 == k) = [] := by
    rw [List.filter_eq_nil_iff]
    intro x hx; rw [g3] at hx; have := (List.mem_filter.1 hx).2; simp [idLt] at this ⊢; omega
  have e3 : ((l.take (upTo Prod.fst idLt l k)).drop (below Prod.fst idLt l k)).filter (fun x => x.1 == k) = (l.take (upTo Prod.fst idLt l k)).drop (below Prod.fst idLt l k) := by
    rw [List.filter_eq_self]
    intro x hx
    have a : x ∈ l.take (upTo Prod.fst idLt l k) := List.mem_of_mem_drop hx
    have b : x ∈ l.drop (below Prod.fst idLt l k) := by
      rw [List.drop_take] at hx; exact List.mem_of_mem_take hx
    rw [g2] at a; rw [h3] at b
    have a := (List.mem_filter.1 a).2; have b := (List.mem_filter.1 b).2
    simp [idLt] at a b ⊢; omega
  conv => rhs; rw [cut l hle g1]
  rw [List.filter_append, List.filter_append, e1, e2, e3]; simp

/-! ## Properties -/

/-- C83: every call does what the ideal registry does: a router is refused, with an error, exactly if there is no room or if it is the first one registered with its id; `remove(id)` takes out all routers with this id. -/
theorem C83_calls {s : Reg} {reg : List Nat} (h : Reach rid cap dbg triv s reg) (op : Op) : ∃ s', call rid s op = .ok (s', (spec rid cap reg op).2) ∧ Reach rid cap dbg triv s' (spec rid cap reg op).1 := by
  obtain ⟨l, hg⟩ := reach_good h
  obtain ⟨s', _, e, _⟩ := call_good hg op
  exact ⟨s', e, Reach.call op h e⟩

/-- C83: after every history: `find(id)` is the first of the routers with this id still registered, null if there is none; `contains` agrees with it; `count(id)` is their number; `size`, `full`, `empty` are those of the list. -/
theorem C83_queries {s : Reg} {reg : List Nat} (h : Reach rid cap dbg triv s reg) :
    (∀ id, find s id = .ok (first rid reg id)) ∧ (∀ id, containsId s id = .ok (decide (∃ r ∈ reg, rid r = id))) ∧ (∀ r, contains rid s r = .ok (decide (first rid reg (rid r) = some r))) ∧
    (∀ p : Option Nat, containsPtr rid s p = .ok (decide (∃ r, p = some r ∧ first rid reg (rid r) = some r))) ∧
    (∀ id, count s id = .ok (reg.countP (fun r => rid r == id))) ∧ size s = reg.length ∧ (full s = true ↔ reg.length = cap) ∧ (Flat.empty s = true ↔ reg = []) := by
  obtain ⟨l, hg⟩ := reach_good h
  have hs := Flat.shows_of_inv sw hg.inv
  have hfind : ∀ id, find s id = .ok (first rid reg id) := by
    intro id
    unfold find
    rcases hg.at id with ⟨i, r', e1, e2, e3, e4⟩ | ⟨e1, e2⟩
    · simp only [bind, Except.bind, e1, e3]
      rw [if_pos e2, e4]
    · simp only [bind, Except.bind, e1]
      rw [if_neg (by simp), e2]
  refine ⟨hfind, ?_, fun r => hg.contains_eq r, ?_, ?_, by rw [hs.size, hg.len], by rw [hs.full, hg.len], ?_⟩
  · intro id
    unfold containsId
    simp only [bind, Except.bind, hfind]
    congr 1
    by_cases hx : ∃ r ∈ reg, rid r = id
    · rw [decide_eq_true hx]
      obtain ⟨r, hr, e⟩ := hx
      unfold first
      rw [List.find?_isSome]
      exact ⟨r, hr, by simp [e]⟩
    · rw [decide_eq_false hx]
      unfold first
      rw [List.find?_eq_none.mpr (fun r hr hc => hx ⟨r, hr, by simpa using hc⟩)]; rfl
  · intro p
    cases p with
    | none => simp [containsPtr]
    | some r => rw [show containsPtr rid s (some r) = contains rid s r from rfl, hg.contains_eq r]; simp
  · intro id
    unfold count
    rw [hs.count id]
    congr 1
    have hp : (fun x : Nat × Nat => equivBy idLt x.1 id) = fun x => x.1 == id := by funext x; exact equiv_iff _ _
    rw [hp, hg.sort.perm.countP_eq, List.countP_map]; rfl
  · rw [hs.empty, ← List.length_eq_zero_iff, hg.len, List.length_eq_zero_iff]

/-- C83: the iterators show every router registered, in the order of the ids, those with the same id in the order of their registration; `lower_bound` to `upper_bound` shows those with the id, in that order. -/
theorem C83_iteration {s : Reg} {reg : List Nat} (h : Reach rid cap dbg triv s reg) :
    (∃ q, shown s = .ok q ∧ IsStableSort (fun a b => decide (rid a < rid b)) reg q) ∧ ∀ id, shownRange s id = .ok (reg.filter (fun r => rid r == id)) := by
  obtain ⟨l, hg⟩ := reach_good h
  have hs := Flat.shows_of_inv sw hg.inv
  have htag : ∀ x ∈ l, x = tag rid x.2 := by
    intro x hx
    obtain ⟨r, _, e⟩ := List.mem_map.mp (hg.sort.perm.mem_iff.mp hx)
    subst e; rfl
  have hl : l = (l.map Prod.snd).map (tag rid) := by
    rw [List.map_map]
    conv_lhs => rw [← List.map_id l]
    exact List.map_congr_left (fun x hx => htag x hx)
  have hsnd : (reg.map (tag rid)).map Prod.snd = reg := by
    rw [List.map_map]
    conv_rhs => rw [← List.map_id reg]
    exact List.map_congr_left (fun _ _ => rfl)
  constructor
  · refine ⟨l.map Prod.snd, ?_, ?_, ?_, ?_⟩
    · unfold shown; simp only [bind, Except.bind, hs.view]
    · have := hg.sort.sorted
      rw [hl] at this
      exact List.pairwise_map.mp this
    · have := hg.sort.perm.map Prod.snd
      rw [hsnd] at this; exact this
    · intro a
      have e := congrArg (List.map Prod.snd) (hg.sort.stable (tag rid a))
      have hX : ∀ X : List Nat, ((X.map (tag rid)).filter (equivBy (fun x y : Nat × Nat => idLt x.1 y.1) (tag rid a))).map Prod.snd = X.filter (equivBy (fun a b => decide (rid a < rid b)) a) := by
        intro X
        rw [List.filter_map, List.map_map]
        conv_rhs => rw [← List.map_id (X.filter _)]
        rfl
      rw [hl, hX, hX] at e
      exact e
  · intro id
    unfold shownRange
    simp only [bind, Except.bind, hs.view, hs.lower, hs.upper]
    rw [range_eq hg.inv id, hg.filter id, List.filter_map, List.map_map]
    congr 1
    conv_rhs => rw [← List.map_id (reg.filter _)]
    rfl

/-! ## Findings -/

/-- A second router with the same id is not reported as contained, although it is registered, and it can be registered again: only the first router with an id is looked at (l.354-367, l.434-439). -/
theorem C83_finding_second_same_id : ∃ rid cap s, Reach rid cap true true s [1, 2, 2] ∧ contains rid s 2 = .ok false :=
  ⟨fun _ => 5, 4, _, Reach.call (.addAll [1, 2, 2]) Reach.new rfl, by decide +kernel⟩

/-- Registering a router that is already there fails with the error "registry full", although it is not full (l.354-367). -/
theorem C83_finding_wrong_error : ∃ rid cap s s', Reach rid cap true true s [1] ∧ full s = false ∧ call rid s (.add (some 1)) = .ok (s', false) :=
  ⟨fun _ => 5, 4, _, _, Reach.call (.addAll [1]) Reach.new rfl, rfl, rfl⟩

/-! ## Examples: three routers, two of them with the same id; the third call is refused -/

example : ∃ s, Reach (fun r => r % 10) 3 true true s [12, 31, 22] ∧ shown s = .ok [31, 12, 22] ∧ shownRange s 2 = .ok [12, 22] ∧ find s 2 = .ok (some 12) ∧ find s 4 = .ok none ∧ count s 2 = .ok 2 ∧
    (∃ s', call (fun r => r % 10) s (.remove 2) = .ok (s', true) ∧ shown s' = .ok [31]) ∧ (∃ s', call (fun r => r % 10) s (.add (some 7)) = .ok (s', false)) :=
  ⟨_, Reach.call (.addAll [12, 31, 22]) Reach.new rfl, rfl, rfl, rfl, rfl, rfl, ⟨_, rfl, rfl⟩, ⟨_, rfl⟩⟩

end Etl.Registry
