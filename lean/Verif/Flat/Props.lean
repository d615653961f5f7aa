import Verif.Flat.Model
import Mathlib.Tactic.ByContra
import Mathlib.Tactic.SplitIfs
import Mathlib.Tactic.Tauto
import Mathlib.Data.List.Nodup
import Batteries.Data.List.Perm

/-! # C18: flat sets and maps are ordered sets and maps, and stay sorted -/
namespace Etl.Flat
open Etl.Algo

variable {α κ : Type}

/-! ## Specification

The ideal container is the list of its elements in ascending key order. -/

section Spec
variable (key : α → κ) (lt : κ → κ → Bool) (cap : Nat) (multi map dbg : Bool)

/-- an element with an equivalent key -/
def Has (l : List α) (k : κ) : Bool := l.any (fun x => equivBy lt (key x) k)
/-- the number of elements with a smaller key; the number of elements without a greater key -/
def below (l : List α) (k : κ) : Nat := l.countP (fun x => lt (key x) k)
def upTo (l : List α) (k : κ) : Nat := l.countP (fun x => !lt k (key x))
/-- the element put behind the elements that have no greater key -/
def put (l : List α) (v : α) : List α := l.filter (fun x => !lt (key v) (key x)) ++ v :: l.filter (fun x => lt (key v) (key x))

/-- `insert`: an existing key of a unique container wins over the missing room. -/
def specInsert (l : List α) (v : α) : List α × Out :=
  if multi = false ∧ Has key lt l (key v) = true then (l, .pair (below key lt l (key v)) false)
  else if l.length = cap then (l, .err .full) else (put key lt l v, .pair (upTo key lt l (key v)) true)
/-- the end of a range insertion is the first error -/
def specInsertRange (l : List α) : List α → List α × Out
  | [] => (l, .ok)
  | v :: vs => match specInsert key lt cap multi l v with
    | (l, .err e) => (l, .err e)
    | (l, _) => specInsertRange l vs

def specStep (l : List α) : Op α κ → List α × Out
  | .insert v => specInsert key lt cap multi l v
  -- needs room even if the key exists
  | .emplace v => if l.length = cap then (l, .err .full) else if multi = false ∧ Has key lt l (key v) = true then (l, .pair (if map then below key lt l (key v) else l.length) false)
      else (put key lt l v, .pair (upTo key lt l (key v)) true)
  | .index v => if Has key lt l (key v) = true then (l, .it (below key lt l (key v))) else if l.length = cap then (l, .err .full) else (put key lt l v, .it (upTo key lt l (key v)))
  | .write i v => (l.set i v, .ok)
  | .eraseKey k => (l.filter (fun x => !equivBy lt (key x) k), .num (l.countP (fun x => equivBy lt (key x) k)))
  | .eraseAt i => (l.eraseIdx i, .it i)
  | .eraseRange i j => (l.take i ++ l.drop j, .it i)
  | .clear => ([], .ok)
  | .insertRange vs => specInsertRange key lt cap multi l vs
  | .assign vs => if dbg = true ∧ cap < vs.length then (l, .err .full) else specInsertRange key lt cap multi [] vs

/-- Iterators must be valid; `operator []` is a member of the unique map; an element keeps its key. -/
def Legal (l : List α) : Op α κ → Prop
  | .write i v => ∃ x, l[i]? = some x ∧ key x = key v
  | .eraseAt i => i < l.length
  | .eraseRange i j => i ≤ j ∧ j ≤ l.length
  | .index _ => multi = false
  | _ => True

def specRun (l : List α) : List (Op α κ) → List α × List Out
  | [] => (l, [])
  | o :: os => let r := specStep key lt cap multi map dbg l o; let q := specRun r.1 os; (q.1, r.2 :: q.2)
def LegalRun (l : List α) : List (Op α κ) → Prop
  | [] => True
  | o :: os => Legal key multi l o ∧ LegalRun (specStep key lt cap multi map dbg l o).1 os

/-- strictly ascending keys; ascending for the multi containers -/
def Ordered (l : List α) : Prop := if multi then SortedBy (fun a b => lt (key a) (key b)) l else StrictSortedBy (fun a b => lt (key a) (key b)) l
end Spec

/-! ## The invariant -/

structure Inv (key : α → κ) (lt : κ → κ → Bool) (cap : Nat) (multi map dbg triv : Bool) (s : St α) (l : List α) : Prop where
  view : view s = .ok l
  perm : (s.lookup ++ s.free).Perm (items cap)
  dead : ∀ p, p ∉ s.lookup → s.val p = .raw
  ord : Ordered key lt multi l
  ecap : s.cap = cap
  emulti : s.multi = multi
  emap : s.map = map
  edbg : s.dbg = dbg
  etriv : s.triv = triv

section Lemmas
variable {key : α → κ} {lt : κ → κ → Bool}

theorem viewL_len {val : Nat → Cell α} : ∀ {ps : List Nat} {l : List α}, viewL val ps = .ok l → l.length = ps.length := by
  intro ps
  induction ps with
  | nil => intro l h; simp [viewL] at h; simp [← h]
  | cons p ps ih =>
    intro l h
    unfold viewL at h
    split at h
    · split at h
      · simp at h
      · rename_i l' e; injection h with h; subst h; simp [ih e]
    · simp at h

theorem viewL_iff {val : Nat → Cell α} : ∀ {ps : List Nat} {l : List α}, viewL val ps = .ok l ↔ ps.map val = l.map Cell.live := by
  intro ps
  induction ps with
  | nil => intro l; unfold viewL; constructor
           · intro h; injection h with h; subst h; rfl
           · intro h; cases l with
             | nil => rfl
             | cons x l => simp at h
  | cons p ps ih =>
    intro l
    unfold viewL
    cases hv : val p with
    | raw => simp only [List.map_cons, hv]; cases l <;> simp
    | moved => simp only [List.map_cons, hv]; cases l <;> simp
    | live v =>
      simp only [List.map_cons, hv]
      cases e : viewL val ps with
      | error u =>
        simp only [reduceCtorEq, false_iff]
        intro h
        cases l with
        | nil => simp at h
        | cons x l => simp at h; have := ih.mpr h.2; rw [e] at this; cases this
      | ok l' =>
        have := ih.mp e
        cases l with
        | nil => simp
        | cons x l =>
          simp only [Except.ok.injEq, List.cons.injEq, List.map_cons, Cell.live.injEq]
          constructor
          · rintro ⟨rfl, rfl⟩; exact ⟨rfl, this⟩
          · rintro ⟨rfl, h2⟩; have := ih.mpr h2; rw [e] at this; injection this with this; exact ⟨rfl, this⟩

theorem readAt_ok {s : St α} {l : List α} (h : view s = .ok l) {i : Nat} {x : α} (hx : l[i]? = some x) : readAt s i = .ok x := by
  have h' := viewL_iff.mp h
  have e : (s.lookup.map s.val)[i]? = some (.live x) := by rw [h']; simp [hx]
  rw [List.getElem?_map] at e
  unfold readAt
  cases hl : s.lookup[i]? with
  | none => rw [hl] at e; simp at e
  | some p => rw [hl] at e; simp at e; simp only [e]

theorem strict_sorted (h : StrictWeak lt) {multi : Bool} {l : List α} (ho : Ordered key lt multi l) : SortedBy (fun a b => lt (key a) (key b)) l := by
  unfold Ordered at ho
  split at ho
  · exact ho
  · exact ho.imp (fun hab => h.asymm hab)

theorem lower_ok (h : StrictWeak lt) {s : St α} {l : List α} (hv : view s = .ok l) (ho : SortedBy (fun a b => lt (key a) (key b)) l) (k : κ) :
    lower key lt s k = .ok (below key lt l k) ∧ below key lt l k ≤ l.length ∧ l.take (below key lt l k) = l.filter (fun x => lt (key x) k) ∧ l.drop (below key lt l k) = l.filter (fun x => !lt (key x) k) := by
  obtain ⟨r, e, h1, h2, h3⟩ := lowerBound_filter l k (fun x k => lt (key x) k) (ho.imp (by
    intro y z hyz hz
    exact h.lt_of_le_of_lt hyz hz))
  have hr : r = below key lt l k := by
    unfold below; rw [List.countP_eq_length_filter, ← h2, List.length_take]; omega
  subst hr
  refine ⟨?_, h1, h2, h3⟩
  unfold lower; rw [hv]; exact e

theorem upper_ok (h : StrictWeak lt) {s : St α} {l : List α} (hv : view s = .ok l) (ho : SortedBy (fun a b => lt (key a) (key b)) l) (k : κ) :
    upper key lt s k = .ok (upTo key lt l k) ∧ upTo key lt l k ≤ l.length ∧ l.take (upTo key lt l k) = l.filter (fun x => !lt k (key x)) ∧ l.drop (upTo key lt l k) = l.filter (fun x => lt k (key x)) := by
  obtain ⟨r, e, h1, h2, h3⟩ := upperBound_filter l k (fun k x => lt k (key x)) (ho.imp (by
    intro y z hyz hz
    exact h.lt_of_lt_of_le hz hyz))
  have hr : r = upTo key lt l k := by
    unfold upTo; rw [List.countP_eq_length_filter, ← h2, List.length_take]; omega
  subst hr
  refine ⟨?_, h1, h2, h3⟩
  unfold upper; rw [hv]; exact e

theorem drop_head {l : List α} {n : Nat} {y : α} (h : l[n]? = some y) : l.drop n = y :: l.drop (n + 1) := by
  obtain ⟨hn, rfl⟩ := List.getElem?_eq_some_iff.1 h
  exact List.drop_eq_getElem_cons hn

theorem has_iff {l : List α} {k : κ} : Has key lt l k = true ↔ ∃ x ∈ l, lt (key x) k = false ∧ lt k (key x) = false := by
  unfold Has equivBy; simp

/-- where the key is, if it is there -/
theorem has_at (h : StrictWeak lt) {l : List α} (ho : SortedBy (fun a b => lt (key a) (key b)) l) (k : κ)
    (h3 : l.drop (below key lt l k) = l.filter (fun x => !lt (key x) k)) :
    (l[below key lt l k]? = none → Has key lt l k = false) ∧ (∀ y, l[below key lt l k]? = some y → lt (key y) k = false ∧ Has key lt l k = !lt k (key y)) := by
  constructor
  · intro hn
    have hd : l.drop (below key lt l k) = [] := by rw [List.drop_eq_nil_iff]; exact List.getElem?_eq_none_iff.1 hn
    rw [hd] at h3
    cases hh : Has key lt l k
    · rfl
    · obtain ⟨x, hx, a, _⟩ := has_iff.mp hh
      have : x ∈ l.filter (fun x => !lt (key x) k) := List.mem_filter.2 ⟨hx, by simp [a]⟩
      rw [← h3] at this; simp at this
  · intro y hy
    have hd := drop_head hy
    have hy1 : lt (key y) k = false := by
      have : y ∈ l.filter (fun x => !lt (key x) k) := by rw [← h3, hd]; exact List.mem_cons_self
      simpa using (List.mem_filter.1 this).2
    refine ⟨hy1, ?_⟩
    have hs : ∀ x, x ∈ l → lt (key x) k = false → lt (key x) (key y) = false := by
      intro x hx a
      have hm : x ∈ y :: l.drop (below key lt l k + 1) := by rw [← hd, h3]; exact List.mem_filter.2 ⟨hx, by simp [a]⟩
      rcases List.mem_cons.1 hm with e | hm
      · rw [e]; exact h.irrefl _
      · have hp : (y :: l.drop (below key lt l k + 1)).Pairwise (fun a b => lt (key b) (key a) = false) := by
          rw [← hd]; exact List.Pairwise.sublist (List.drop_sublist _ _) ho
        exact List.rel_of_pairwise_cons hp hm
    cases hk : lt k (key y)
    · simp only [Bool.not_false]
      exact has_iff.mpr ⟨y, List.mem_of_getElem? hy, hy1, hk⟩
    · simp only [Bool.not_true]
      cases hh : Has key lt l k
      · rfl
      · obtain ⟨x, hx, a, b⟩ := has_iff.mp hh
        have c := h.lt_of_lt_of_le hk (hs x hx a)
        rw [b] at c; cases c

variable {cap : Nat} {multi map dbg triv : Bool} {s : St α} {l : List α}

theorem Inv.sorted (h : StrictWeak lt) (hi : Inv key lt cap multi map dbg triv s l) : SortedBy (fun a b => lt (key a) (key b)) l := strict_sorted h hi.ord
theorem Inv.len (hi : Inv key lt cap multi map dbg triv s l) : s.lookup.length = l.length := (viewL_len hi.view).symm
theorem Inv.le (hi : Inv key lt cap multi map dbg triv s l) : l.length ≤ cap := by
  have := hi.perm.length_eq; rw [← hi.len]; simp [items] at this; omega
theorem Inv.full (hi : Inv key lt cap multi map dbg triv s l) : full s = true ↔ l.length = cap := by
  unfold Flat.full; rw [hi.len, hi.ecap]; simp
theorem Inv.nodup (hi : Inv key lt cap multi map dbg triv s l) : (s.lookup ++ s.free).Nodup := hi.perm.nodup_iff.2 List.nodup_range

theorem absent_ok (h : StrictWeak lt) (hv : view s = .ok l) (ho : SortedBy (fun a b => lt (key a) (key b)) l) (k : κ) :
    absent key lt s (below key lt l k) k = .ok (!Has key lt l k) := by
  obtain ⟨_, h1, _, h3⟩ := lower_ok h hv ho k
  obtain ⟨a, b⟩ := has_at h ho k h3
  have hl := viewL_len hv
  unfold absent size
  cases hy : l[below key lt l k]? with
  | none => rw [if_pos (by have := List.getElem?_eq_none_iff.1 hy; omega), a hy]; rfl
  | some y =>
    have := (List.getElem?_eq_some_iff.1 hy).1
    rw [if_neg (by omega), readAt_ok hv hy, (b y hy).2]; simp

theorem find_ok (h : StrictWeak lt) (hv : view s = .ok l) (ho : SortedBy (fun a b => lt (key a) (key b)) l) (k : κ) :
    find key lt s k = .ok (if Has key lt l k then below key lt l k else l.length) := by
  obtain ⟨e, h1, _, h3⟩ := lower_ok h hv ho k
  obtain ⟨a, b⟩ := has_at h ho k h3
  have hl := viewL_len hv
  unfold find size
  rw [e]
  cases hy : l[below key lt l k]? with
  | none =>
    have := List.getElem?_eq_none_iff.1 hy
    simp only
    rw [if_pos (by omega), a hy, ← hl]; rfl
  | some y =>
    have := (List.getElem?_eq_some_iff.1 hy).1
    simp only
    rw [if_neg (by omega), readAt_ok hv hy]
    simp only
    unfold same
    rw [(b y hy).1, (b y hy).2, ← hl]; simp

theorem upTo_eq_below (h : StrictWeak lt) {k : κ} (hh : Has key lt l k = false) : upTo key lt l k = below key lt l k := by
  unfold upTo below
  apply List.countP_congr
  intro x hx
  have : ¬ (lt (key x) k = false ∧ lt k (key x) = false) := fun hc => by
    have := has_iff.mpr ⟨x, hx, hc⟩; rw [hh] at this; cases this
  cases a : lt (key x) k <;> cases b : lt k (key x) <;> simp_all
  have := h.asymm a; rw [b] at this; cases this

theorem put_ordered (h : StrictWeak lt) {multi : Bool} (ho : Ordered key lt multi l) (v : α) (hm : multi = true ∨ Has key lt l (key v) = false) : Ordered key lt multi (put key lt l v) := by
  have hs := strict_sorted h ho
  unfold Ordered put at *
  split at ho
  · rename_i e
    rw [if_pos e]
    refine List.pairwise_append.2 ⟨ho.filter _, List.pairwise_cons.2 ⟨?_, ho.filter _⟩, ?_⟩
    · intro x hx; have := (List.mem_filter.1 hx).2; exact h.asymm this
    · intro x hx y hy
      have hx := (List.mem_filter.1 hx).2
      simp only [Bool.not_eq_true'] at hx
      rcases List.mem_cons.1 hy with rfl | hy
      · exact hx
      · have hy := (List.mem_filter.1 hy).2
        exact h.asymm (h.lt_of_le_of_lt hx hy)
  · rename_i e
    rw [if_neg e]
    have hh : Has key lt l (key v) = false := by rcases hm with hm | hm; exact absurd hm e; exact hm
    have hx' : ∀ x ∈ l, lt (key v) (key x) = false → lt (key x) (key v) = true := by
      intro x hx a
      cases b : lt (key x) (key v)
      · have := has_iff.mpr ⟨x, hx, b, a⟩; rw [hh] at this; cases this
      · rfl
    refine List.pairwise_append.2 ⟨ho.filter _, List.pairwise_cons.2 ⟨?_, ho.filter _⟩, ?_⟩
    · intro x hx; exact (List.mem_filter.1 hx).2
    · intro x hx y hy
      have hx1 := (List.mem_filter.1 hx).2
      have hx := hx' x (List.mem_filter.1 hx).1 (by simpa using hx1)
      rcases List.mem_cons.1 hy with rfl | hy
      · exact hx
      · have hy := (List.mem_filter.1 hy).2
        exact h.trans _ _ _ hx hy

theorem map_upd_not_mem {val : Nat → Cell α} {ps : List Nat} {p : Nat} {c : Cell α} (hp : p ∉ ps) : ps.map (upd val p c) = ps.map val := by
  apply List.map_congr_left
  intro q hq
  exact upd_other _ _ (fun e => hp (e ▸ hq))

theorem allocate_ok (hi : Inv key lt cap multi map dbg triv s l) (hl : l.length < cap) (v : α) :
    ∃ p f, s.free = p :: f ∧ allocate s v = .ok ({ s with val := upd s.val p (.live v), free := f }, p) ∧ p ∉ s.lookup := by
  cases hf : s.free with
  | nil => have := hi.perm.length_eq; rw [hf] at this; simp [items] at this; have := hi.len; omega
  | cons p f =>
    have hn := hi.nodup
    have hp : p ∉ s.lookup := by
      rw [hf, List.nodup_append'] at hn
      intro hc; exact hn.2.2 hc List.mem_cons_self
    refine ⟨p, f, rfl, ?_, hp⟩
    unfold allocate; rw [hf]; simp only; rw [hi.dead p hp]

theorem insertAt_ok (hv : view s = .ok l) {p : Nat} {v : α} (hp : s.val p = .live v) {i : Nat} (hil : i ≤ l.length) (hl : l.length < s.cap)
    (hd : s.multi = true ∨ ∀ y, l[i]? = some y → equivBy lt (key y) (key v) = false) :
    insertAt key lt s i p = .ok ({ s with lookup := s.lookup.take i ++ p :: s.lookup.drop i }, .pair i true) := by
  have hlen := viewL_len hv
  have hf : ¬ full s = true := by unfold full; simp; omega
  have hpl : place s i p = .ok { s with lookup := s.lookup.take i ++ p :: s.lookup.drop i } := by
    unfold place; rw [if_pos (by omega)]
  unfold insertAt
  by_cases e : i = size s
  · rw [if_pos e, if_neg hf, hpl]
    simp only [size] at *
    subst e; simp
  · rw [if_neg e]
    have hy : l[i]? = some (l[i]'(by unfold size at e; omega)) := List.getElem?_eq_getElem _
    rw [readAt_ok hv hy, hp]
    simp only
    rw [if_pos, if_neg hf, hpl]
    rcases hd with hd | hd
    · simp [hd]
    · have := hd _ hy
      unfold equivBy at this; unfold same; rw [this]; simp

theorem placed_inv (hi : Inv key lt cap multi map dbg triv s l) {p : Nat} {f : List Nat} (hf : s.free = p :: f) (hp : p ∉ s.lookup) {v : α} {i : Nat}
    (ho : Ordered key lt multi (l.take i ++ v :: l.drop i)) :
    Inv key lt cap multi map dbg triv { s with val := upd s.val p (.live v), free := f, lookup := s.lookup.take i ++ p :: s.lookup.drop i } (l.take i ++ v :: l.drop i) where
  view := by
    have h' := viewL_iff.mp hi.view
    apply viewL_iff.mpr
    show (s.lookup.take i ++ p :: s.lookup.drop i).map (upd s.val p (.live v)) = _
    have a : p ∉ s.lookup.take i := fun hc => hp (List.mem_of_mem_take hc)
    have b : p ∉ s.lookup.drop i := fun hc => hp (List.mem_of_mem_drop hc)
    rw [List.map_append, List.map_cons, map_upd_not_mem a, map_upd_not_mem b, upd_same, List.map_append, List.map_cons, List.map_take, List.map_drop, h', List.map_take, List.map_drop]
  perm := by
    have := hi.perm
    rw [hf] at this
    refine List.Perm.trans ?_ this
    show ((s.lookup.take i ++ p :: s.lookup.drop i) ++ f).Perm (s.lookup ++ p :: f)
    have e1 : (s.lookup.take i ++ p :: s.lookup.drop i).Perm (p :: s.lookup) := by
      refine List.perm_middle.trans ?_
      rw [List.take_append_drop]
    exact (e1.append_right f).trans List.perm_middle.symm
  dead := by
    intro q hq
    have hqp : q ≠ p := fun e => hq (by simp [e])
    show upd s.val p _ q = _
    rw [upd_other _ _ hqp]
    apply hi.dead
    intro hc
    apply hq
    rw [← List.take_append_drop i s.lookup] at hc
    rcases List.mem_append.1 hc with hc | hc
    · exact List.mem_append_left _ hc
    · exact List.mem_append_right _ (List.mem_cons_of_mem _ hc)
  ord := ho
  ecap := hi.ecap
  emulti := hi.emulti
  emap := hi.emap
  edbg := hi.edbg
  etriv := hi.etriv

/-- the place of a new element -/
theorem put_place (h : StrictWeak lt) (hi : Inv key lt cap multi map dbg triv s l) (v : α) (hm : multi = true ∨ Has key lt l (key v) = false) :
    l.take (upTo key lt l (key v)) ++ v :: l.drop (upTo key lt l (key v)) = put key lt l v ∧ (∀ y, l[upTo key lt l (key v)]? = some y → equivBy lt (key y) (key v) = false) := by
  obtain ⟨_, h1, h2, h3⟩ := upper_ok h hi.view (hi.sorted h) (key v)
  refine ⟨by rw [h2, h3]; rfl, fun y hy => ?_⟩
  have : y ∈ l.filter (fun x => lt (key v) (key x)) := by rw [← h3, drop_head hy]; exact List.mem_cons_self
  have := (List.mem_filter.1 this).2
  simp [equivBy, this]

theorem view_alloc (hv : view s = .ok l) {p : Nat} (hp : p ∉ s.lookup) (v : α) (f : List Nat) : view { s with val := upd s.val p (.live v), free := f } = .ok l := by
  apply viewL_iff.mpr; rw [← viewL_iff.mp hv]; exact map_upd_not_mem hp

theorem insertValue_ok (h : StrictWeak lt) (hi : Inv key lt cap multi map dbg triv s l) (v : α) (hm : multi = true ∨ Has key lt l (key v) = false) (hl : l.length < cap) :
    ∃ s', insertValue key lt s (upTo key lt l (key v)) v = .ok (s', .pair (upTo key lt l (key v)) true) ∧ Inv key lt cap multi map dbg triv s' (put key lt l v) := by
  obtain ⟨p, f, hf, ha, hp⟩ := allocate_ok hi hl v
  obtain ⟨h1, h2⟩ := put_place h hi v hm
  obtain ⟨_, h3, _⟩ := upper_ok h hi.view (hi.sorted h) (key v)
  refine ⟨_, ?_, h1 ▸ placed_inv hi hf hp (h1 ▸ put_ordered h hi.ord v hm)⟩
  unfold insertValue
  rw [if_neg (by rw [hi.full]; omega), ha]
  exact insertAt_ok (view_alloc hi.view hp v f) (upd_same _ _ _) h3 (by rw [hi.ecap]; exact hl) (.inr h2)

theorem insertValue_full (hi : Inv key lt cap multi map dbg triv s l) (hl : l.length = cap) (i : Nat) (v : α) : insertValue key lt s i v = .ok (s, .err .full) := by
  unfold insertValue; rw [if_pos (hi.full.2 hl)]

/-- simulation of one call: result and new ideal state -/
def Sim (key : α → κ) (lt : κ → κ → Bool) (cap : Nat) (multi map dbg triv : Bool) (r : Res (St α × Out)) (q : List α × Out) : Prop :=
  ∃ s', r = .ok (s', q.2) ∧ Inv key lt cap multi map dbg triv s' q.1

theorem insert_sim (h : StrictWeak lt) (hi : Inv key lt cap multi map dbg triv s l) (v : α) : Sim key lt cap multi map dbg triv (insert key lt s v) (specInsert key lt cap multi l v) := by
  have hle := hi.le
  unfold insert
  cases hm : multi with
  | true =>
    rw [if_pos (hi.emulti.trans hm)]
    unfold insertMulti specInsert
    by_cases hl : l.length = cap
    · rw [if_pos (hi.full.2 hl), if_neg (by simp), if_pos hl]; exact ⟨s, rfl, hm ▸ hi⟩
    · rw [if_neg (fun hc => hl (hi.full.1 hc)), if_neg (by simp), if_neg hl, (upper_ok h hi.view (hi.sorted h) (key v)).1]
      obtain ⟨s', e, hi'⟩ := insertValue_ok h hi v (.inl hm) (by omega)
      exact ⟨s', e, hm ▸ hi'⟩
  | false =>
    rw [if_neg (by rw [hi.emulti, hm]; simp)]
    unfold insertUnique specInsert
    rw [(lower_ok h hi.view (hi.sorted h) (key v)).1]
    simp only
    rw [absent_ok h hi.view (hi.sorted h) (key v)]
    cases hh : Has key lt l (key v) with
    | true => exact ⟨s, by simp, by simpa [hm] using hi⟩
    | false =>
      simp only [Bool.not_false, if_true]
      rw [if_neg (by simp), ← upTo_eq_below h hh]
      by_cases hl : l.length = cap
      · rw [if_pos hl, insertValue_full hi hl]; exact ⟨s, rfl, hm ▸ hi⟩
      · rw [if_neg hl]
        obtain ⟨s', e, hi'⟩ := insertValue_ok h hi v (.inr hh) (by omega)
        exact ⟨s', e, hm ▸ hi'⟩

theorem emplace_sim (h : StrictWeak lt) (hi : Inv key lt cap multi map dbg triv s l) (v : α) :
    Sim key lt cap multi map dbg triv (emplace key lt s v) (specStep key lt cap multi map dbg l (.emplace v)) := by
  have hle := hi.le
  unfold emplace
  show Sim _ _ _ _ _ _ _ _ (if l.length = cap then _ else _)
  by_cases hl : l.length = cap
  · rw [if_pos (hi.full.2 hl), if_pos hl]; exact ⟨s, rfl, hi⟩
  rw [if_neg (fun hc => hl (hi.full.1 hc)), if_neg hl]
  obtain ⟨p, f, hf, ha, hp⟩ := allocate_ok hi (by omega) v
  rw [ha]
  have hv' := view_alloc hi.view hp v f
  have hvp : ({ s with val := upd s.val p (.live v), free := f } : St α).val p = .live v := upd_same _ _ _
  have hcap : l.length < ({ s with val := upd s.val p (.live v), free := f } : St α).cap := by show _ < s.cap; rw [hi.ecap]; omega
  have new : ∀ (hm : multi = true ∨ Has key lt l (key v) = false), Sim key lt cap multi map dbg triv (insertAt key lt { s with val := upd s.val p (.live v), free := f } (upTo key lt l (key v)) p) (put key lt l v, .pair (upTo key lt l (key v)) true) := by
    intro hm
    obtain ⟨h1, h2⟩ := put_place h hi v hm
    obtain ⟨_, h3, _⟩ := upper_ok h hi.view (hi.sorted h) (key v)
    refine ⟨_, insertAt_ok hv' hvp h3 hcap (.inr h2), ?_⟩
    exact h1 ▸ placed_inv hi hf hp (h1 ▸ put_ordered h hi.ord v hm)
  cases hm : multi with
  | true =>
    simp only
    rw [if_pos (show s.multi = true from hi.emulti.trans hm), (upper_ok h hv' (hi.sorted h) (key v)).1, if_neg (by simp)]
    exact hm ▸ new (.inl hm)
  | false =>
    simp only
    rw [if_neg (show ¬ s.multi = true by rw [hi.emulti, hm]; simp), (lower_ok h hv' (hi.sorted h) (key v)).1]
    simp only
    rw [absent_ok h hv' (hi.sorted h) (key v)]
    cases hh : Has key lt l (key v) with
    | true =>
      have hpf : p ∉ f := by have := hi.nodup; rw [hf] at this; simp [List.nodup_append] at this; tauto
      have hd : destroy { s with val := upd s.val p (.live v), free := f } p = .ok { s with val := upd (upd s.val p (.live v)) p .raw, free := p :: f } := by
        unfold destroy; rw [if_neg hpf]; simp only [upd_same]
      simp only [Bool.not_true, Bool.false_eq_true, if_false, hd]
      refine ⟨{ s with val := upd (upd s.val p (.live v)) p .raw, free := p :: f }, ?_, ?_⟩
      · simp only [and_self, if_true, size, hi.emap, hi.len]
      · have hval : upd (upd s.val p (.live v)) p .raw = s.val := by
          funext q; by_cases e : q = p
          · rw [e, upd_same, hi.dead p hp]
          · rw [upd_other _ _ e, upd_other _ _ e]
        have e : ({ s with val := upd (upd s.val p (.live v)) p .raw, free := p :: f } : St α) = s := by rw [hval, ← hf]
        rw [e]; simpa [hm] using hi
    | false =>
      simp only [Bool.not_false, if_true]
      rw [if_neg (by simp), ← upTo_eq_below h hh]
      exact hm ▸ new (.inr hh)

theorem index_sim (h : StrictWeak lt) (hi : Inv key lt cap multi map dbg triv s l) (v : α) (hm : multi = false) :
    Sim key lt cap multi map dbg triv (index key lt s v) (specStep key lt cap multi map dbg l (.index v)) := by
  have hle := hi.le
  unfold index
  show Sim _ _ _ _ _ _ _ _ (if _ then _ else _)
  rw [(lower_ok h hi.view (hi.sorted h) (key v)).1]
  simp only
  rw [absent_ok h hi.view (hi.sorted h) (key v)]
  cases hh : Has key lt l (key v) with
  | true => exact ⟨s, by simp, by simpa using hi⟩
  | false =>
    simp only [Bool.not_false, if_true]
    rw [if_neg (by simp), ← upTo_eq_below h hh]
    by_cases hl : l.length = cap
    · rw [if_pos hl, insertValue_full hi hl]; exact ⟨s, rfl, hi⟩
    · rw [if_neg hl]
      obtain ⟨s', e, hi'⟩ := insertValue_ok h hi v (.inr hh) (by omega)
      rw [e]
      exact ⟨s', rfl, hi'⟩

theorem lookup_get (hv : view s = .ok l) {i : Nat} {x : α} (hx : l[i]? = some x) : ∃ p, s.lookup[i]? = some p ∧ s.val p = .live x := by
  have h' := viewL_iff.mp hv
  have e : (s.lookup.map s.val)[i]? = some (.live x) := by rw [h']; simp [hx]
  rw [List.getElem?_map] at e
  cases hl : s.lookup[i]? with
  | none => rw [hl] at e; simp at e
  | some p => rw [hl] at e; simp at e; exact ⟨p, rfl, e⟩

theorem ordered_set {i : Nat} {x v : α} (ho : Ordered key lt multi l) (hx : l[i]? = some x) (hk : key x = key v) : Ordered key lt multi (l.set i v) := by
  have hmap : (l.set i v).map key = l.map key := by
    apply List.ext_getElem?
    intro j
    rw [List.getElem?_map, List.getElem?_map, List.getElem?_set]
    split
    · rename_i e; subst e
      rw [hx, if_pos (List.getElem?_eq_some_iff.1 hx).1]; simp [hk]
    · rfl
  unfold Ordered SortedBy StrictSortedBy at *
  split at ho
  · rename_i e; rw [if_pos e]
    rw [← List.pairwise_map (f := key) (R := fun a b => lt b a = false), hmap, List.pairwise_map]; exact ho
  · rename_i e; rw [if_neg e]
    rw [← List.pairwise_map (f := key) (R := fun a b => lt a b = true), hmap, List.pairwise_map]; exact ho

theorem write_sim (hi : Inv key lt cap multi map dbg triv s l) {i : Nat} {v : α} (hl : ∃ x, l[i]? = some x ∧ key x = key v) :
    Sim key lt cap multi map dbg triv (write s i v) (l.set i v, .ok) := by
  obtain ⟨x, hx, hk⟩ := hl
  obtain ⟨p, e1, e2⟩ := lookup_get hi.view hx
  refine ⟨{ s with val := upd s.val p (.live v) }, ?_, ?_⟩
  · unfold write; rw [e1]; simp only [e2]
  · have hn : s.lookup.Nodup := (List.nodup_append'.1 hi.nodup).1
    refine ⟨?_, hi.perm, ?_, ordered_set hi.ord hx hk, hi.ecap, hi.emulti, hi.emap, hi.edbg, hi.etriv⟩
    · apply viewL_iff.mpr
      show s.lookup.map (upd s.val p (.live v)) = _
      have h' := viewL_iff.mp hi.view
      apply List.ext_getElem?
      intro j
      rw [List.getElem?_map, List.getElem?_map, List.getElem?_set]
      have hj : (s.lookup[j]?).map s.val = (l[j]?).map Cell.live := by rw [← List.getElem?_map, h', List.getElem?_map]
      by_cases e : i = j
      · subst e
        rw [if_pos rfl, if_pos (List.getElem?_eq_some_iff.1 hx).1, e1]
        simp only [Option.map_some, upd_same]
      · rw [if_neg e, ← hj]
        cases hq : s.lookup[j]? with
        | none => rfl
        | some q =>
          have hqp : q ≠ p := by
            intro hc; subst hc
            obtain ⟨a1, a2⟩ := List.getElem?_eq_some_iff.1 e1
            obtain ⟨b1, b2⟩ := List.getElem?_eq_some_iff.1 hq
            exact e ((List.Nodup.getElem_inj_iff hn).1 (a2.trans b2.symm))
          simp only [Option.map_some, upd_other _ _ hqp]
    · intro q hq
      have : p ∈ s.lookup := List.mem_of_getElem? e1
      show upd s.val p _ q = _
      have hqp : q ≠ p := fun e => hq (by rw [e]; exact this)
      rw [upd_other _ _ hqp]; exact hi.dead q hq

theorem destroyAll_ok : ∀ (ps : List Nat) (s : St α), ps.Nodup → (∀ p ∈ ps, p ∉ s.free) → (∀ p ∈ ps, s.val p ≠ .raw) →
    destroyAll s ps = .ok { s with val := fun q => if q ∈ ps then .raw else s.val q, free := ps.reverse ++ s.free }
  | [], s, _, _, _ => by simp [destroyAll]
  | p :: ps, s, hn, hf, hv => by
    have hn' := List.nodup_cons.1 hn
    have hd : destroy s p = .ok { s with val := upd s.val p .raw, free := p :: s.free } := by
      unfold destroy; rw [if_neg (hf p List.mem_cons_self)]
      have := hv p List.mem_cons_self
      cases hc : s.val p <;> simp_all
    unfold destroyAll
    rw [hd]
    simp only
    rw [destroyAll_ok ps _ hn'.2]
    · congr 2
      · funext q
        by_cases e : q = p
        · subst e; simp [upd_same]
        · simp [upd_other _ _ e, e]
      · simp
    · intro q hq hc
      rcases List.mem_cons.1 hc with e | hc
      · exact hn'.1 (e ▸ hq)
      · exact hf q (List.mem_cons_of_mem _ hq) hc
    · intro q hq
      show upd s.val p _ q ≠ _
      have hqp : q ≠ p := fun e => hn'.1 (by rw [← e]; exact hq)
      rw [upd_other _ _ hqp]
      exact hv q (List.mem_cons_of_mem _ hq)

theorem live_of_view (hv : view s = .ok l) {p : Nat} (hp : p ∈ s.lookup) : s.val p ≠ .raw := by
  have h' := viewL_iff.mp hv
  have : s.val p ∈ s.lookup.map s.val := List.mem_map_of_mem hp
  rw [h'] at this
  obtain ⟨x, _, e⟩ := List.mem_map.1 this
  rw [← e]; simp

theorem ordered_sub {l' : List α} (ho : Ordered key lt multi l) (hs : l'.Sublist l) : Ordered key lt multi l' := by
  unfold Ordered at *
  split at ho
  · rename_i e; rw [if_pos e]; exact List.Pairwise.sublist hs ho
  · rename_i e; rw [if_neg e]; exact List.Pairwise.sublist hs ho

theorem cut (l : List α) {i j : Nat} (hij : i ≤ j) (hj : j ≤ l.length) : l = l.take i ++ ((l.take j).drop i ++ l.drop j) := by
  conv => lhs; rw [← List.take_append_drop j l, ← List.take_append_drop i (l.take j), List.take_take, Nat.min_eq_left hij, List.append_assoc]

theorem eraseRange_sim (hi : Inv key lt cap multi map dbg triv s l) {i j : Nat} (hij : i ≤ j) (hj : j ≤ l.length) :
    Sim key lt cap multi map dbg triv (eraseRange s i j) (l.take i ++ l.drop j, .it i) := by
  have hlen := hi.len
  have hc := cut s.lookup hij (by omega)
  have hn := hi.nodup
  have hn1 := (List.nodup_append'.1 hn).1
  have hdis := (List.nodup_append'.1 hn).2.2
  have hsub : ∀ p ∈ (s.lookup.take j).drop i, p ∈ s.lookup := fun p hp => List.mem_of_mem_take (List.mem_of_mem_drop hp)
  have hd := destroyAll_ok ((s.lookup.take j).drop i) s ((hn1.sublist (List.take_sublist _ _)).sublist (List.drop_sublist _ _)) (fun p hp hf => hdis (hsub p hp) hf) (fun p hp => live_of_view hi.view (hsub p hp))
  have hout : ∀ p, p ∈ s.lookup.take i ++ s.lookup.drop j → p ∉ (s.lookup.take j).drop i := by
    intro p hp hm
    rw [hc, List.nodup_append', List.nodup_append'] at hn1
    rcases List.mem_append.1 hp with hp | hp
    · exact hn1.2.2 hp (List.mem_append_left _ hm)
    · exact hn1.2.1.2.2 hm hp
  refine ⟨{ s with val := fun q => if q ∈ (s.lookup.take j).drop i then .raw else s.val q, free := ((s.lookup.take j).drop i).reverse ++ s.free, lookup := s.lookup.take i ++ s.lookup.drop j }, ?_, ?_⟩
  · unfold eraseRange; rw [if_pos ⟨hij, by omega⟩, hd]
  · refine ⟨?_, ?_, ?_, ?_, hi.ecap, hi.emulti, hi.emap, hi.edbg, hi.etriv⟩
    · apply viewL_iff.mpr
      show (s.lookup.take i ++ s.lookup.drop j).map _ = (l.take i ++ l.drop j).map Cell.live
      have h' := viewL_iff.mp hi.view
      have h2 : (l.take i ++ l.drop j).map Cell.live = (s.lookup.take i ++ s.lookup.drop j).map s.val := by
        rw [List.map_append, List.map_append, List.map_take, List.map_drop, List.map_take, List.map_drop, h']
      rw [h2]
      apply List.map_congr_left
      intro q hq
      simp only [if_neg (hout q hq)]
    · refine List.Perm.trans ?_ hi.perm
      show ((s.lookup.take i ++ s.lookup.drop j) ++ (((s.lookup.take j).drop i).reverse ++ s.free)).Perm (s.lookup ++ s.free)
      conv => rhs; rw [hc]
      generalize s.lookup.take i = a; generalize s.lookup.drop j = b; generalize (s.lookup.take j).drop i = c
      have e1 : (b ++ (c.reverse ++ s.free)).Perm ((c ++ b) ++ s.free) := by
        rw [← List.append_assoc]
        exact List.Perm.append_right _ (List.perm_append_comm.trans (List.Perm.append_right _ (List.reverse_perm c)))
      have := List.Perm.append_left a e1
      simpa [List.append_assoc] using this
    · intro q hq
      show (if q ∈ (s.lookup.take j).drop i then Cell.raw else s.val q) = .raw
      by_cases hm : q ∈ (s.lookup.take j).drop i
      · rw [if_pos hm]
      · rw [if_neg hm]
        apply hi.dead
        intro hq'
        rw [hc] at hq'
        simp only [List.mem_append] at hq'
        rcases hq' with h1 | h1 | h1
        · exact hq (List.mem_append_left _ h1)
        · exact hm h1
        · exact hq (List.mem_append_right _ h1)
    · apply ordered_sub hi.ord
      conv => rhs; rw [cut l hij hj]
      exact List.Sublist.append (List.Sublist.refl _) (List.sublist_append_right _ _)

theorem eraseAt_eq {i : Nat} (hi : i < s.lookup.length) : eraseAt s i = eraseRange s i (i + 1) := by
  unfold eraseAt eraseRange
  have e : (s.lookup.take (i + 1)).drop i = [s.lookup[i]] := by
    rw [List.drop_take, Nat.add_sub_cancel_left, List.drop_eq_getElem_cons hi]; rfl
  rw [if_pos ⟨by omega, by omega⟩, e, List.getElem?_eq_getElem hi]
  simp only [destroyAll]
  cases hd : destroy s s.lookup[i] with
  | error u => rfl
  | ok s' =>
    have : s'.lookup = s.lookup := by
      unfold destroy at hd
      split at hd
      · cases hd
      · split at hd
        · cases hd
        · injection hd with hd; rw [← hd]
    simp only [this, List.eraseIdx_eq_take_drop_succ]

theorem eraseAt_sim (hi : Inv key lt cap multi map dbg triv s l) {i : Nat} (hl : i < l.length) : Sim key lt cap multi map dbg triv (eraseAt s i) (l.eraseIdx i, .it i) := by
  rw [eraseAt_eq (by rw [hi.len]; exact hl), List.eraseIdx_eq_take_drop_succ]
  exact eraseRange_sim hi (by omega) (by omega)

/-- the elements with an equivalent key are the ones from `below` to `upTo` -/
theorem equiv_cut (h : StrictWeak lt) (hv : view s = .ok l) (ho : SortedBy (fun a b => lt (key a) (key b)) l) (k : κ) :
    below key lt l k + l.countP (fun x => equivBy lt (key x) k) = upTo key lt l k ∧ l.take (below key lt l k) ++ l.drop (upTo key lt l k) = l.filter (fun x => !equivBy lt (key x) k) := by
  obtain ⟨_, h1, h2, h3⟩ := lower_ok h hv ho k
  obtain ⟨_, g1, g2, g3⟩ := upper_ok h hv ho k
  have c1 : ∀ l : List α, below key lt l k + l.countP (fun x => equivBy lt (key x) k) = upTo key lt l k := by
    intro l
    induction l with
    | nil => rfl
    | cons x l ih =>
      unfold below upTo equivBy at *
      rw [List.countP_cons, List.countP_cons, List.countP_cons]
      have : lt (key x) k = true → lt k (key x) = false := h.asymm
      cases a : lt (key x) k <;> cases b : lt k (key x) <;> simp_all <;> omega
  refine ⟨c1 l, ?_⟩
  have hle : below key lt l k ≤ upTo key lt l k := by have := c1 l; omega
  -- the rest of the list without its equivalent elements
  have e1 : (l.take (below key lt l k)).filter (fun x => !equivBy lt (key x) k) = l.take (below key lt l k) := by
    rw [List.filter_eq_self]
    intro x hx; rw [h2] at hx; have := (List.mem_filter.1 hx).2; simp [equivBy, this]
  have e2 : (l.drop (upTo key lt l k)).filter (fun x => !equivBy lt (key x) k) = l.drop (upTo key lt l k) := by
    rw [List.filter_eq_self]
    intro x hx; rw [g3] at hx; have := (List.mem_filter.1 hx).2; simp [equivBy, this]
  have e3 : ((l.take (upTo key lt l k)).drop (below key lt l k)).filter (fun x => !equivBy lt (key x) k) = [] := by
    rw [List.filter_eq_nil_iff]
    intro x hx
    have a : x ∈ l.take (upTo key lt l k) := List.mem_of_mem_drop hx
    have b : x ∈ l.drop (below key lt l k) := by
      rw [List.drop_take] at hx; exact List.mem_of_mem_take hx
    rw [g2] at a; rw [h3] at b
    have a := (List.mem_filter.1 a).2; have b := (List.mem_filter.1 b).2
    simp at a b; simp [equivBy, a, b]
  conv => rhs; rw [cut l hle g1]
  rw [List.filter_append, List.filter_append, e1, e2, e3]; rfl

theorem below_lt (h : StrictWeak lt) (hv : view s = .ok l) (ho : SortedBy (fun a b => lt (key a) (key b)) l) (k : κ) : Has key lt l k = true → below key lt l k < l.length := by
  intro hh
  obtain ⟨_, _, _, h3⟩ := lower_ok h hv ho k
  obtain ⟨a, _⟩ := has_at h ho k h3
  by_contra hc
  have := a (List.getElem?_eq_none_iff.2 (by omega))
  rw [hh] at this; cases this

theorem countP_has (k : κ) : l.countP (fun x => equivBy lt (key x) k) = 0 ↔ Has key lt l k = false := by
  rw [List.countP_eq_zero]
  constructor
  · intro h; cases hh : Has key lt l k
    · rfl
    · obtain ⟨x, hx, a, b⟩ := has_iff.mp hh
      exact absurd (by simp [equivBy, a, b]) (h x hx)
  · intro hh x hx hc
    unfold equivBy at hc; simp at hc
    have := has_iff.mpr ⟨x, hx, hc⟩
    rw [hh] at this; cases this

/-- a unique container has at most one equivalent element -/
theorem countP_unique (h : StrictWeak lt) (ho : StrictSortedBy (fun a b => lt (key a) (key b)) l) (k : κ) : l.countP (fun x => equivBy lt (key x) k) ≤ 1 := by
  induction l with
  | nil => simp
  | cons x l ih =>
    have ho' := List.pairwise_cons.1 ho
    rw [List.countP_cons]
    have := ih ho'.2
    by_cases hx : equivBy lt (key x) k = true
    · have hz : l.countP (fun x => equivBy lt (key x) k) = 0 := by
        rw [List.countP_eq_zero]
        intro y hy hc
        unfold equivBy at hx hc; simp at hx hc
        have := h.lt_of_lt_of_le (ho'.1 y hy) hc.2
        rw [hx.1] at this; cases this
      rw [hz, if_pos hx]; exact Nat.le_refl 1
    · rw [if_neg hx]; omega

theorem eraseKey_sim (h : StrictWeak lt) (hi : Inv key lt cap multi map dbg triv s l) (k : κ) :
    Sim key lt cap multi map dbg triv (eraseKey key lt s k) (l.filter (fun x => !equivBy lt (key x) k), .num (l.countP (fun x => equivBy lt (key x) k))) := by
  have ho := hi.sorted h
  obtain ⟨c1, c2⟩ := equiv_cut h hi.view ho k
  obtain ⟨u1, u2, _, _⟩ := upper_ok h hi.view ho k
  have l1 := (lower_ok h hi.view ho k).1
  have hlen := hi.len
  have hnone : l.countP (fun x => equivBy lt (key x) k) = 0 → l.filter (fun x => !equivBy lt (key x) k) = l := by
    intro hz; rw [List.countP_eq_zero] at hz; rw [List.filter_eq_self]; intro x hx; have := hz x hx; simpa using this
  unfold eraseKey
  cases hm : multi with
  | true =>
    rw [if_pos (hi.emulti.trans hm)]
    unfold eraseMulti Flat.equalRange size
    rw [l1]; simp only; rw [u1]; simp only
    by_cases e : below key lt l k = s.lookup.length
    · rw [if_pos e]
      have hz : l.countP (fun x => equivBy lt (key x) k) = 0 := by omega
      refine ⟨s, by simp only [hz], ?_⟩
      rw [show (l.filter (fun x => !equivBy lt (key x) k), Out.num (l.countP (fun x => equivBy lt (key x) k))).1 = l from hnone hz]; exact hm ▸ hi
    · rw [if_neg e]
      obtain ⟨s', e', hi'⟩ := eraseRange_sim hi (show below key lt l k ≤ upTo key lt l k by omega) u2
      rw [e']
      refine ⟨s', by simp only; rw [← c1, Nat.add_sub_cancel_left], ?_⟩
      have hi'' : Inv key lt cap multi map dbg triv s' (l.take (below key lt l k) ++ l.drop (upTo key lt l k)) := hi'
      rw [c2] at hi''; exact hm ▸ hi''
  | false =>
    rw [if_neg (by rw [hi.emulti, hm]; simp)]
    unfold eraseUnique size
    rw [find_ok h hi.view ho k]
    simp only
    have h1 : l.countP (fun x => equivBy lt (key x) k) ≤ 1 := countP_unique h (by have := hi.ord; rw [hm] at this; simpa [Ordered] using this) k
    cases hh : Has key lt l k with
    | false =>
      have hz := (countP_has k).2 hh
      simp only [Bool.false_eq_true, if_false]
      rw [if_pos hlen.symm]
      refine ⟨s, by simp only [hz], ?_⟩
      rw [show (l.filter (fun x => !equivBy lt (key x) k), Out.num (l.countP (fun x => equivBy lt (key x) k))).1 = l from hnone hz]; exact hm ▸ hi
    | true =>
      have hz : l.countP (fun x => equivBy lt (key x) k) = 1 := by
        have : ¬ l.countP (fun x => equivBy lt (key x) k) = 0 := fun hc => by have := (countP_has k).1 hc; rw [hh] at this; cases this
        omega
      have hlt := below_lt h hi.view ho k hh
      simp only [if_true]
      rw [if_neg (by omega)]
      obtain ⟨s', e', hi'⟩ := eraseAt_sim hi hlt
      rw [e']
      refine ⟨s', by simp only [hz], ?_⟩
      have hi'' : Inv key lt cap multi map dbg triv s' (l.eraseIdx (below key lt l k)) := hi'
      rw [List.eraseIdx_eq_take_drop_succ, show below key lt l k + 1 = upTo key lt l k by omega, c2] at hi''; exact hm ▸ hi''

theorem clear_ok (hi : Inv key lt cap multi map dbg triv s l) : ∃ s', clear s = .ok s' ∧ Inv key lt cap multi map dbg triv s' [] := by
  have hord : Ordered key lt multi ([] : List α) := by unfold Ordered; split <;> exact List.Pairwise.nil
  unfold clear
  by_cases ht : s.triv = true
  · rw [if_pos ht]
    refine ⟨_, rfl, rfl, ?_, fun _ _ => rfl, hord, hi.ecap, hi.emulti, hi.emap, hi.edbg, hi.etriv⟩
    show ([] ++ items s.cap).Perm (items cap)
    rw [hi.ecap]; exact List.Perm.refl _
  · rw [if_neg ht]
    have hn := List.nodup_append'.1 hi.nodup
    rw [destroyAll_ok s.lookup s hn.1 (fun p hp hf => hn.2.2 hp hf) (fun p hp => live_of_view hi.view hp)]
    refine ⟨_, rfl, rfl, ?_, ?_, hord, hi.ecap, hi.emulti, hi.emap, hi.edbg, hi.etriv⟩
    · show ([] ++ (s.lookup.reverse ++ s.free)).Perm (items cap)
      exact (List.Perm.append_right _ (List.reverse_perm _)).trans hi.perm
    · intro q _
      show (if q ∈ s.lookup then Cell.raw else s.val q) = .raw
      by_cases hq : q ∈ s.lookup
      · rw [if_pos hq]
      · rw [if_neg hq]; exact hi.dead q hq

theorem insertRange_sim (h : StrictWeak lt) : ∀ (vs : List α) {s : St α} {l : List α}, Inv key lt cap multi map dbg triv s l →
    Sim key lt cap multi map dbg triv (insertRange key lt s vs) (specInsertRange key lt cap multi l vs)
  | [], s, l, hi => ⟨s, rfl, hi⟩
  | v :: vs, s, l, hi => by
    obtain ⟨s', e, hi'⟩ := insert_sim h hi v
    unfold insertRange specInsertRange
    rw [e]
    rcases hq : specInsert key lt cap multi l v with ⟨l', o⟩
    rw [hq] at hi'
    cases o with
    | err x => exact ⟨s', rfl, hi'⟩
    | ok => exact insertRange_sim h vs hi'
    | pair i b => exact insertRange_sim h vs hi'
    | it i => exact insertRange_sim h vs hi'
    | num n => exact insertRange_sim h vs hi'

theorem step_sim (h : StrictWeak lt) (hi : Inv key lt cap multi map dbg triv s l) (o : Op α κ) (hl : Legal key multi l o) :
    Sim key lt cap multi map dbg triv (step key lt s o) (specStep key lt cap multi map dbg l o) := by
  cases o with
  | insert v => exact insert_sim h hi v
  | emplace v => exact emplace_sim h hi v
  | index v => exact index_sim h hi v hl
  | write i v => exact write_sim hi hl
  | eraseKey k => exact eraseKey_sim h hi k
  | eraseAt i => exact eraseAt_sim hi hl
  | eraseRange i j => exact eraseRange_sim hi hl.1 hl.2
  | clear => obtain ⟨s', e, hi'⟩ := clear_ok hi; exact ⟨s', by unfold step; rw [e]; rfl, hi'⟩
  | insertRange vs => exact insertRange_sim h vs hi
  | assign vs =>
    show Sim _ _ _ _ _ _ _ (assign key lt s vs) (if dbg = true ∧ cap < vs.length then (l, Out.err Err.full) else specInsertRange key lt cap multi [] vs)
    unfold assign
    rw [hi.edbg, hi.ecap]
    by_cases hc : dbg = true ∧ cap < vs.length
    · rw [if_pos hc, if_pos (by simp [hc.1, hc.2])]; exact ⟨s, rfl, hi⟩
    · rw [if_neg hc, if_neg (by simpa using hc)]
      obtain ⟨s', e, hi'⟩ := clear_ok hi
      rw [e]; exact insertRange_sim h vs hi'

theorem run_sim (h : StrictWeak lt) : ∀ (os : List (Op α κ)) {s : St α} {l : List α}, Inv key lt cap multi map dbg triv s l → LegalRun key lt cap multi map dbg l os →
    ∃ s', run key lt s os = .ok (s', (specRun key lt cap multi map dbg l os).2) ∧ Inv key lt cap multi map dbg triv s' (specRun key lt cap multi map dbg l os).1
  | [], s, l, hi, _ => ⟨s, rfl, hi⟩
  | o :: os, s, l, hi, hl => by
    obtain ⟨s1, e1, hi1⟩ := step_sim h hi o hl.1
    obtain ⟨s2, e2, hi2⟩ := run_sim h os hi1 hl.2
    refine ⟨s2, ?_, hi2⟩
    unfold run; rw [e1]; simp only; rw [e2]; rfl

theorem init_inv (cap : Nat) (multi map dbg triv : Bool) : Inv key lt cap multi map dbg triv (init (α := α) cap multi map dbg triv) [] where
  view := rfl
  perm := List.Perm.refl _
  dead := fun _ _ => rfl
  ord := by unfold Ordered; split <;> exact List.Pairwise.nil
  ecap := rfl
  emulti := rfl
  emap := rfl
  edbg := rfl
  etriv := rfl

end Lemmas

/-! ## Theorems -/

/-- What the members of a container with the elements `l` show. -/
structure Shows (key : α → κ) (lt : κ → κ → Bool) (cap : Nat) (multi : Bool) (s : St α) (l : List α) : Prop where
  view : view s = .ok l
  size : size s = l.length
  empty : empty s = true ↔ l = []
  full : full s = true ↔ l.length = cap
  available : available s = cap - l.length
  room : l.length ≤ cap
  ordered : Ordered key lt multi l
  find : ∀ k, find key lt s k = .ok (if Has key lt l k then below key lt l k else l.length)
  found : ∀ k, Has key lt l k = true → ∃ x, l[below key lt l k]? = some x ∧ equivBy lt (key x) k = true
  contains : ∀ k, contains key lt s k = .ok (Has key lt l k)
  count : ∀ k, count key lt s k = .ok (l.countP (fun x => equivBy lt (key x) k))
  lower : ∀ k, lower key lt s k = .ok (below key lt l k)
  upper : ∀ k, upper key lt s k = .ok (upTo key lt l k)
  range : ∀ k, equalRange key lt s k = .ok (below key lt l k, upTo key lt l k)
  at_ : ∀ k, at? key lt s k = .ok (match l.find? (fun x => equivBy lt (key x) k) with
    | none => .error .bounds
    | some x => .ok x)
  /-- exactly the elements are alive -/
  alive : ∀ p, (s.val p ≠ .raw ↔ p ∈ s.lookup)
  pool : (s.lookup ++ s.free).Perm (items cap)

theorem shows_of_inv {key : α → κ} {lt : κ → κ → Bool} (h : StrictWeak lt) {cap : Nat} {multi map dbg triv : Bool} {s : St α} {l : List α} (hi : Inv key lt cap multi map dbg triv s l) : Shows key lt cap multi s l := by
  have ho := hi.sorted h
  have hlen := hi.len
  have hfind := find_ok h hi.view ho
  have found : ∀ k, Has key lt l k = true → ∃ x, l[below key lt l k]? = some x ∧ equivBy lt (key x) k = true := by
    intro k hh
    have hlt := below_lt h hi.view ho k hh
    have hx := List.getElem?_eq_getElem hlt
    obtain ⟨_, _, _, h3⟩ := lower_ok h hi.view ho k
    obtain ⟨_, b⟩ := has_at h ho k h3
    obtain ⟨b1, b2⟩ := b _ hx
    refine ⟨_, hx, ?_⟩
    rw [hh] at b2
    simp at b2; simp [equivBy, b1, b2]
  have hcontains : ∀ k, contains key lt s k = .ok (Has key lt l k) := by
    intro k
    unfold contains Flat.size
    rw [hfind k]
    cases hh : Has key lt l k with
    | false => simp [hlen]
    | true => have := below_lt h hi.view ho k hh; simp; omega
  have hrange : ∀ k, equalRange key lt s k = .ok (below key lt l k, upTo key lt l k) := by
    intro k; unfold equalRange; rw [(lower_ok h hi.view ho k).1]; simp only; rw [(upper_ok h hi.view ho k).1]
  refine ⟨hi.view, hlen, ?_, hi.full, by unfold Flat.available; rw [hlen, hi.ecap], hi.le, hi.ord, hfind, found, hcontains, ?_, fun k => (lower_ok h hi.view ho k).1,
    fun k => (upper_ok h hi.view ho k).1, hrange, ?_, ?_, hi.perm⟩
  · unfold Flat.empty; rw [hlen]; simp [List.length_eq_zero_iff]
  · intro k
    unfold count
    cases hm : multi with
    | true =>
      rw [if_pos (hi.emulti.trans hm), hrange k]
      have := (equiv_cut h hi.view ho k).1
      simp only; congr 1; omega
    | false =>
      rw [if_neg (by rw [hi.emulti, hm]; simp), hfind k]
      have h1 : l.countP (fun x => equivBy lt (key x) k) ≤ 1 := countP_unique h (by have := hi.ord; rw [hm] at this; simpa [Ordered] using this) k
      simp only [Flat.size]
      cases hh : Has key lt l k with
      | false => simp [hlen, (countP_has k).2 hh]
      | true =>
        have : ¬ l.countP (fun x => equivBy lt (key x) k) = 0 := fun hc => by have := (countP_has k).1 hc; rw [hh] at this; cases this
        have := below_lt h hi.view ho k hh
        simp only [if_true]
        rw [if_neg (by omega)]; congr 1; omega
  · intro k
    obtain ⟨e, h1, h2, h3⟩ := lower_ok h hi.view ho k
    obtain ⟨a, b⟩ := has_at h ho k h3
    unfold at?
    rw [e]
    simp only
    have hsz : Flat.size s = l.length := hlen
    cases hy : l[below key lt l k]? with
    | none =>
      have hn := List.getElem?_eq_none_iff.1 hy
      rw [if_pos (by omega)]
      have : l.find? (fun x => equivBy lt (key x) k) = none := by
        rw [List.find?_eq_none]; intro x hx hc
        have := a hy
        unfold equivBy at hc; simp at hc
        have := has_iff.mpr ⟨x, hx, hc⟩
        rw [a hy] at this; cases this
      rw [this]
    | some y =>
      have hn := (List.getElem?_eq_some_iff.1 hy).1
      rw [if_neg (by omega), readAt_ok hi.view hy]
      obtain ⟨b1, b2⟩ := b y hy
      have hs : l.find? (fun x => equivBy lt (key x) k) = (y :: l.drop (below key lt l k + 1)).find? (fun x => equivBy lt (key x) k) := by
        rw [← drop_head hy]
        conv => lhs; rw [← List.take_append_drop (below key lt l k) l]
        rw [List.find?_append]
        have : (l.take (below key lt l k)).find? (fun x => equivBy lt (key x) k) = none := by
          rw [List.find?_eq_none]; intro x hx hc; rw [h2] at hx
          have := (List.mem_filter.1 hx).2; simp [equivBy, this] at hc
        rw [this]; rfl
      simp only
      unfold same
      rw [hs, b1]
      cases hk : lt k (key y) with
      | false =>
        have : equivBy lt (key y) k = true := by simp [equivBy, b1, hk]
        rw [List.find?_cons, this]; rfl
      | true =>
        have hno : Has key lt l k = false := by rw [b2, hk]; rfl
        have : (y :: l.drop (below key lt l k + 1)).find? (fun x => equivBy lt (key x) k) = none := by
          rw [List.find?_eq_none]; intro x hx hc
          rw [← drop_head hy] at hx
          unfold equivBy at hc; simp at hc
          have := has_iff.mpr ⟨x, List.mem_of_mem_drop hx, hc⟩
          rw [hno] at this; cases this
        rw [this]; rfl
  · intro p
    constructor
    · intro hp; by_contra hc; exact hp (hi.dead p hc)
    · exact fun hp => live_of_view hi.view hp

/-- C18: any legal sequence of calls on a flat set, map, multiset or multimap runs without undefined behaviour, every call returns what the ideal ordered container returns, and afterwards the container shows the elements of
the ideal one: in (strictly) ascending key order, found by every search, with exactly the elements alive and no storage lost. -/
theorem C18_refines (key : α → κ) {lt : κ → κ → Bool} (h : StrictWeak lt) (cap : Nat) (multi map dbg triv : Bool) (os : List (Op α κ)) (hl : LegalRun key lt cap multi map dbg [] os) :
    ∃ s, run key lt (init cap multi map dbg triv) os = .ok (s, (specRun key lt cap multi map dbg [] os).2) ∧ Shows key lt cap multi s (specRun key lt cap multi map dbg [] os).1 := by
  obtain ⟨s, e, hi⟩ := run_sim h os (init_inv cap multi map dbg triv) hl
  exact ⟨s, e, shows_of_inv h hi⟩

/-! ## Multi containers keep equivalent elements in the order of insertion -/

theorem put_perm (key : α → κ) (lt : κ → κ → Bool) (l : List α) (v : α) : (put key lt l v).Perm (l ++ [v]) := by
  unfold put
  refine List.perm_middle.trans ?_
  refine List.Perm.trans ?_ (List.perm_append_comm (l₁ := [v]) (l₂ := l))
  refine List.Perm.cons v ?_
  have := List.filter_append_perm (fun x => !lt (key v) (key x)) l
  simpa using this

theorem put_stable {key : α → κ} {lt : κ → κ → Bool} (h : StrictWeak lt) (l : List α) (v a : α) :
    (put key lt l v).filter (equivBy (fun x y => lt (key x) (key y)) a) = (l ++ [v]).filter (equivBy (fun x y => lt (key x) (key y)) a) := by
  unfold put
  rw [List.filter_append, List.filter_append, List.filter_cons, List.filter_cons]
  by_cases hv : equivBy (fun x y => lt (key x) (key y)) a v = true
  · rw [if_pos hv, if_pos hv]
    have hv' := hv
    unfold equivBy at hv'
    simp at hv'
    have e1 : (l.filter (fun x => lt (key v) (key x))).filter (equivBy (fun x y => lt (key x) (key y)) a) = [] := by
      rw [List.filter_eq_nil_iff]
      intro x hx hc
      have hx := (List.mem_filter.1 hx).2
      unfold equivBy at hc; simp at hc
      have := h.lt_of_le_of_lt hv'.2 hx
      rw [hc.1] at this; cases this
    have e2 : (l.filter (fun x => !lt (key v) (key x))).filter (equivBy (fun x y => lt (key x) (key y)) a) = l.filter (equivBy (fun x y => lt (key x) (key y)) a) := by
      rw [List.filter_filter]
      apply List.filter_congr
      intro x _
      cases hx : equivBy (fun x y => lt (key x) (key y)) a x
      · simp
      · unfold equivBy at hx; simp at hx
        have : lt (key v) (key x) = false := h.le_trans (a := key x) (b := key a) hx.1 hv'.2
        simp [this]
    rw [e1, e2]; rfl
  · rw [if_neg hv, if_neg hv, ← List.filter_append]
    have hp : ∀ m : List α, (m.filter (fun x => !lt (key v) (key x)) ++ m.filter (fun x => lt (key v) (key x))).filter (equivBy (fun x y => lt (key x) (key y)) a) = m.filter (equivBy (fun x y => lt (key x) (key y)) a) := by
      -- an equivalence class lies on one side of `v`
      intro m
      rw [List.filter_append, List.filter_filter, List.filter_filter]
      have side : (∀ x, equivBy (fun x y => lt (key x) (key y)) a x = true → lt (key v) (key x) = true) ∨ (∀ x, equivBy (fun x y => lt (key x) (key y)) a x = true → lt (key v) (key x) = false) := by
        cases hc : lt (key v) (key a)
        · right
          intro x hx
          unfold equivBy at hx; simp at hx
          exact h.le_trans (a := key x) (b := key a) hx.1 hc
        · left
          intro x hx
          unfold equivBy at hx; simp at hx
          exact h.lt_of_lt_of_le hc hx.2
      rcases side with hs | hs
      · have e1 : m.filter (fun x => equivBy (fun x y => lt (key x) (key y)) a x && !lt (key v) (key x)) = [] := by
          rw [List.filter_eq_nil_iff]; intro x _ hc; simp at hc; rw [hs x hc.1] at hc; simp at hc
        rw [e1, List.nil_append]
        apply List.filter_congr; intro x _
        cases hx : equivBy (fun x y => lt (key x) (key y)) a x
        · simp
        · simp [hs x hx]
      · have e1 : m.filter (fun x => equivBy (fun x y => lt (key x) (key y)) a x && lt (key v) (key x)) = [] := by
          rw [List.filter_eq_nil_iff]; intro x _ hc; simp at hc; rw [hs x hc.1] at hc; simp at hc
        rw [e1, List.append_nil]
        apply List.filter_congr; intro x _
        cases hx : equivBy (fun x y => lt (key x) (key y)) a x
        · simp
        · simp [hs x hx]
    rw [hp l]; simp

theorem specInsertRange_multi {key : α → κ} {lt : κ → κ → Bool} (h : StrictWeak lt) {cap : Nat} : ∀ (vs l inp : List α), IsStableSort (fun x y => lt (key x) (key y)) inp l → (inp ++ vs).length ≤ cap →
    ∃ q, specInsertRange key lt cap true l vs = (q, .ok) ∧ IsStableSort (fun x y => lt (key x) (key y)) (inp ++ vs) q
  | [], l, inp, hs, _ => ⟨l, rfl, by simpa using hs⟩
  | v :: vs, l, inp, hs, hc => by
    have hlen := hs.perm.length_eq
    have hsi : specInsert key lt cap true l v = (put key lt l v, .pair (upTo key lt l (key v)) true) := by
      unfold specInsert; rw [if_neg (by simp), if_neg (by simp at hc; omega)]
    have hs' : IsStableSort (fun x y => lt (key x) (key y)) (inp ++ [v]) (put key lt l v) := by
      refine ⟨?_, (put_perm key lt l v).trans (hs.perm.append_right _), ?_⟩
      · have := put_ordered h (multi := true) (key := key) (lt := lt) (l := l) (by unfold Ordered; exact hs.sorted) v (.inl rfl)
        unfold Ordered at this; simpa using this
      · intro a; rw [put_stable h, List.filter_append, List.filter_append, hs.stable a]
    obtain ⟨q, e, hq⟩ := specInsertRange_multi h vs (put key lt l v) (inp ++ [v]) hs' (by simpa using hc)
    refine ⟨q, ?_, by simpa using hq⟩
    unfold specInsertRange; rw [hsi]; exact e

/-- C56: a flat multiset or multimap filled by any sequence of insertions that fits holds every inserted element, sorted, equivalent ones in the order of their insertion: the stable sort of the inserted sequence. -/
theorem C56_stable (key : α → κ) {lt : κ → κ → Bool} (h : StrictWeak lt) (cap : Nat) (map dbg triv : Bool) (vs : List α) (hc : vs.length ≤ cap) :
    ∃ s q, insertRange key lt (init cap true map dbg triv) vs = .ok (s, .ok) ∧ view s = .ok q ∧ IsStableSort (fun x y => lt (key x) (key y)) vs q := by
  obtain ⟨q, e, hq⟩ := specInsertRange_multi h (cap := cap) vs [] [] ⟨List.Pairwise.nil, List.Perm.refl _, fun _ => rfl⟩ (by simpa using hc)
  obtain ⟨s, e', hi⟩ := insertRange_sim h vs (init_inv (key := key) (lt := lt) cap true map dbg triv)
  rw [e] at e' hi
  exact ⟨s, q, e', hi.view, by simpa using hq⟩

/-- C56: erasing a key of a multi container removes all of its elements and no other, keeps the order of the rest, and returns their number. -/
theorem C56_erase (key : α → κ) {lt : κ → κ → Bool} (h : StrictWeak lt) {cap : Nat} {map dbg triv : Bool} (os : List (Op α κ)) (hl : LegalRun key lt cap true map dbg [] os) (k : κ) :
    ∃ s l s', run key lt (init cap true map dbg triv) os = .ok (s, (specRun key lt cap true map dbg [] os).2) ∧ view s = .ok l ∧
      eraseKey key lt s k = .ok (s', .num (l.countP (fun x => equivBy lt (key x) k))) ∧ view s' = .ok (l.filter (fun x => !equivBy lt (key x) k)) := by
  obtain ⟨s, e, hi⟩ := run_sim h os (init_inv cap true map dbg triv) hl
  obtain ⟨s', e', hi'⟩ := eraseKey_sim h hi k
  exact ⟨s, _, s', e, hi.view, e', hi'.view⟩

/-! ## Copies and moves -/

section
variable {key : α → κ} {lt : κ → κ → Bool}

/-- an element that is not less than any other one goes to the end -/
theorem specInsert_last {cap : Nat} {multi : Bool} (h : StrictWeak lt) {l : List α} {v : α} (hl : l.length < cap)
    (hv : ∀ x ∈ l, if multi then lt (key v) (key x) = false else lt (key x) (key v) = true) : specInsert key lt cap multi l v = (l ++ [v], .pair l.length true) := by
  have h1 : ∀ x ∈ l, lt (key v) (key x) = false := by
    intro x hx; have := hv x hx
    split at this
    · exact this
    · exact h.asymm this
  have hno : ¬ (multi = false ∧ Has key lt l (key v) = true) := by
    rintro ⟨hm, hh⟩
    obtain ⟨x, hx, a, _⟩ := has_iff.mp hh
    have := hv x hx
    rw [if_neg (by simp [hm]), a] at this; cases this
  unfold specInsert
  rw [if_neg hno, if_neg (by omega)]
  have e1 : l.filter (fun x => !lt (key v) (key x)) = l := List.filter_eq_self.2 (fun x hx => by simp [h1 x hx])
  have e2 : l.filter (fun x => lt (key v) (key x)) = [] := List.filter_eq_nil_iff.2 (fun x hx => by simp [h1 x hx])
  unfold put upTo
  rw [List.countP_eq_length_filter, e1, e2]

theorem specInsertRange_ordered {cap : Nat} {multi : Bool} (h : StrictWeak lt) : ∀ (vs l : List α), Ordered key lt multi (l ++ vs) → (l ++ vs).length ≤ cap →
    specInsertRange key lt cap multi l vs = (l ++ vs, .ok)
  | [], l, _, _ => by simp [specInsertRange]
  | v :: vs, l, ho, hc => by
    have hv : ∀ x ∈ l, if multi then lt (key v) (key x) = false else lt (key x) (key v) = true := by
      intro x hx
      unfold Ordered at ho
      split
      · rename_i hm; rw [if_pos hm] at ho; exact (List.pairwise_append.1 ho).2.2 x hx v List.mem_cons_self
      · rename_i hm; rw [if_neg hm] at ho; exact (List.pairwise_append.1 ho).2.2 x hx v List.mem_cons_self
    unfold specInsertRange
    rw [specInsert_last h (by simp at hc; omega) hv]
    simp only
    rw [specInsertRange_ordered h vs (l ++ [v]) (by simpa using ho) (by simpa using hc)]
    simp

/-- C18: the copy constructor, the copy assignment and the construction from another such container: the target gets the same elements; it keeps its own storage. -/
theorem C18_copy (h : StrictWeak lt) {cap cap2 : Nat} {multi map dbg triv : Bool} {s r : St α} {l q : List α} (hi : Inv key lt cap multi map dbg triv s l) (hr : Inv key lt cap2 multi map dbg triv r q) (hc : q.length ≤ cap) :
    ∃ q' s', view r = .ok q' ∧ assign key lt s q' = .ok (s', .ok) ∧ Inv key lt cap multi map dbg triv s' q := by
  obtain ⟨s', e, hi'⟩ := step_sim h hi (.assign q) trivial
  have hs : specStep key lt cap multi map dbg l (.assign q) = (q, .ok) := by
    show (if dbg = true ∧ cap < q.length then (l, Out.err Err.full) else specInsertRange key lt cap multi [] q) = _
    rw [if_neg (by omega), specInsertRange_ordered h q [] (by simpa using hr.ord) (by simpa using hc)]; rfl
  rw [hs] at e hi'
  exact ⟨q, s', hr.view, e, hi'⟩

theorem moveLoop_ok (h : StrictWeak lt) {cap : Nat} {multi map dbg triv : Bool} (r : St α) (hn : r.lookup.Nodup) : ∀ (ps done : List Nat) (vs : List α) (s : St α) (l : List α), r.lookup = done ++ ps → ps.map r.val = vs.map Cell.live →
    Inv key lt cap multi map dbg triv s l → Ordered key lt multi (l ++ vs) → (l ++ vs).length ≤ cap →
    ∃ s', moveLoop key lt s { r with val := fun p => if p ∈ done then .moved else r.val p } ps = .ok (s', { r with val := fun p => if p ∈ done ++ ps then .moved else r.val p }, .ok) ∧ Inv key lt cap multi map dbg triv s' (l ++ vs)
  | [], done, vs, s, l, _, hv, hi, _, _ => by
    cases vs with
    | cons v vs => simp at hv
    | nil => exact ⟨s, by simp [moveLoop], by simpa using hi⟩
  | p :: ps, done, vs, s, l, hd, hv, hi, ho, hc => by
    cases vs with
    | nil => simp at hv
    | cons v vs =>
      simp only [List.map_cons, List.cons.injEq] at hv
      have hpd : p ∉ done := by
        rw [hd, List.nodup_append'] at hn
        intro hx; exact hn.2.2 hx List.mem_cons_self
      have hlast : specInsert key lt cap multi l v = (l ++ [v], .pair l.length true) := by
        apply specInsert_last h (by simp at hc; omega)
        intro x hx
        unfold Ordered at ho
        split
        · rename_i hm; rw [if_pos hm] at ho; exact (List.pairwise_append.1 ho).2.2 x hx v List.mem_cons_self
        · rename_i hm; rw [if_neg hm] at ho; exact (List.pairwise_append.1 ho).2.2 x hx v List.mem_cons_self
      obtain ⟨s1, e1, hi1⟩ := insert_sim h hi v
      rw [hlast] at e1 hi1
      obtain ⟨s2, e2, hi2⟩ := moveLoop_ok h r hn ps (done ++ [p]) vs s1 (l ++ [v]) (by simpa using hd) hv.2 hi1 (by simpa using ho) (by simpa using hc)
      refine ⟨s2, ?_, by simpa using hi2⟩
      unfold moveLoop
      simp only [if_neg hpd, hv.1, e1]
      have hval : upd (fun q => if q ∈ done then Cell.moved else r.val q) p .moved = fun q => if q ∈ done ++ [p] then Cell.moved else r.val q := by
        funext q
        by_cases e : q = p
        · subst e; simp [upd_same]
        · rw [upd_other _ _ e]; simp [e]
      rw [hval, e2]; simp

/-- C18, move construction and assignment: the target gets the elements of the source; the source keeps its (now moved from) objects, which still have to be destroyed by it. -/
theorem C18_move (h : StrictWeak lt) {cap cap2 : Nat} {multi map dbg triv : Bool} {s r : St α} {l q : List α} (hi : Inv key lt cap multi map dbg triv s l) (hr : Inv key lt cap2 multi map dbg triv r q) (hc : q.length ≤ cap) :
    ∃ s' r', moveAssign key lt s r = .ok (s', r', .ok) ∧ Inv key lt cap multi map dbg triv s' q ∧ r'.lookup = r.lookup ∧ r'.free = r.free ∧ (∀ p, r'.val p = if p ∈ r.lookup then .moved else .raw) ∧ ∃ r'', clear r' = .ok r'' ∧ Inv key lt cap2 multi map dbg triv r'' [] := by
  obtain ⟨s1, e1, hi1⟩ := clear_ok hi
  have hn := List.nodup_append'.1 hr.nodup
  obtain ⟨s2, e2, hi2⟩ := moveLoop_ok h r hn.1 r.lookup [] q s1 [] rfl (viewL_iff.mp hr.view) hi1 (by simpa using hr.ord) (by simpa using hc)
  refine ⟨s2, { r with val := fun p => if p ∈ r.lookup then .moved else r.val p }, ?_, by simpa using hi2, rfl, rfl, ?_, ?_⟩
  · unfold moveAssign; rw [e1]; simpa using e2
  · intro p
    show (if p ∈ r.lookup then Cell.moved else r.val p) = _
    by_cases hp : p ∈ r.lookup
    · rw [if_pos hp, if_pos hp]
    · rw [if_neg hp, if_neg hp]; exact hr.dead p hp
  · have hord : Ordered key lt multi ([] : List α) := by unfold Ordered; split <;> exact List.Pairwise.nil
    unfold clear
    by_cases ht : r.triv = true
    · rw [if_pos ht]
      refine ⟨_, rfl, rfl, ?_, fun _ _ => rfl, hord, hr.ecap, hr.emulti, hr.emap, hr.edbg, hr.etriv⟩
      show ([] ++ items r.cap).Perm (items cap2)
      rw [hr.ecap]; exact List.Perm.refl _
    · rw [if_neg ht]
      show ∃ r'', (match destroyAll { r with val := fun p => if p ∈ r.lookup then .moved else r.val p } r.lookup with | .error u => .error u | .ok s => .ok { s with lookup := [] }) = Except.ok r'' ∧ _
      rw [destroyAll_ok r.lookup { r with val := fun p => if p ∈ r.lookup then .moved else r.val p } hn.1 (fun p hp hf => hn.2.2 hp hf) (fun p hp => by simp [hp])]
      refine ⟨_, rfl, rfl, ?_, ?_, hord, hr.ecap, hr.emulti, hr.emap, hr.edbg, hr.etriv⟩
      · show ([] ++ (r.lookup.reverse ++ r.free)).Perm (items cap2)
        exact (List.Perm.append_right _ (List.reverse_perm _)).trans hr.perm
      · intro p _
        show (if p ∈ r.lookup then Cell.raw else if p ∈ r.lookup then Cell.moved else r.val p) = .raw
        by_cases hp : p ∈ r.lookup
        · rw [if_pos hp]
        · rw [if_neg hp, if_neg hp]; exact hr.dead p hp
end

/-! ## Examples and findings -/

def natLt (a b : Nat) : Bool := decide (a < b)
theorem natLt_weak : StrictWeak natLt where
  irrefl := by intro a; simp [natLt]
  trans := by intro a b c; simp [natLt]; omega
  incomp := by intro a b c; simp [natLt]; omega

/-- a map of capacity 3: out of order insertions, a duplicate, `operator []`, a full container, erasures -/
def demoOps : List (Op (Nat × Nat) Nat) := [.insert (5, 50), .insert (2, 20), .insert (5, 51), .index (9, 0), .write 2 (9, 90), .insert (7, 70), .insert (2, 21), .emplace (2, 22), .eraseKey 5, .insert (7, 70), .eraseKey 4]

example : LegalRun Prod.fst natLt 3 false true false [] demoOps := ⟨trivial, trivial, trivial, rfl, ⟨(9, 0), rfl, rfl⟩, trivial, trivial, trivial, trivial, trivial, trivial, trivial⟩
example : (specRun Prod.fst natLt 3 false true false [] demoOps) = ([(2, 20), (7, 70), (9, 90)],
    [.pair 0 true, .pair 0 true, .pair 1 false, .it 2, .ok, .err .full, .pair 0 false, .err .full, .num 1, .pair 1 true, .num 0]) := by decide +kernel
/-- a multiset keeps equal elements in the order of insertion and erases them together -/
example : (specRun Prod.fst natLt 4 true false false [] [.insert (5, 0), .insert (2, 0), .insert (5, 1), .insert (2, 1), .insert (3, 0), .eraseKey 2]) =
    ([(5, 0), (5, 1)], [.pair 0 true, .pair 0 true, .pair 2 true, .pair 1 true, .err .full, .num 2]) := by decide +kernel

example : (match insertRange Prod.fst natLt (init 9 true false false false) [(2, 0), (1, 0), (2, 1), (1, 1), (2, 2)] with | .ok (s, _) => view s | .error u => .error u) = .ok [(1, 0), (1, 1), (2, 0), (2, 1), (2, 2)] := by decide +kernel

/-- what the calls of a run return, and the elements at its end -/
def shown (key : α → κ) (lt : κ → κ → Bool) (cap : Nat) (multi map dbg : Bool) (os : List (Op α κ)) : Option (List Out × List α) := match run key lt (init cap multi map dbg false) os with
  | .error _ => none
  | .ok (s, r) => match view s with
    | .error _ => none
    | .ok l => some (r, l)

example : shown Prod.fst natLt 3 false true false demoOps = some ([.pair 0 true, .pair 0 true, .pair 1 false, .it 2, .ok, .err .full, .pair 0 false, .err .full, .num 1, .pair 1 true, .num 0], [(2, 20), (7, 70), (9, 90)]) := by decide +kernel

/-- Finding: `emplace` of an existing key into a full `flat_set` reports "full" where `insert` reports the existing element; with room, `emplace` into a `flat_set` returns `end()` and not the existing element. -/
theorem emplace_existing_differs : shown id natLt 1 false false false [.insert 4, .emplace 4] = some ([.pair 0 true, .err .full], [4]) ∧ shown id natLt 1 false false false [.insert 4, .insert 4] = some ([.pair 0 true, .pair 0 false], [4]) ∧
    shown id natLt 2 false false false [.insert 4, .emplace 4] = some ([.pair 0 true, .pair 1 false], [4]) := by decide +kernel

/-- Finding: in a debug build `assign` refuses a range that is longer than the capacity even if its distinct elements fit. -/
theorem assign_duplicates_refused : shown id natLt 2 false false true [.insert 7, .assign [1, 1, 1]] = some ([.pair 0 true, .err .full], [7]) ∧ shown id natLt 2 false false false [.insert 7, .assign [1, 1, 1]] = some ([.pair 0 true, .ok], [1]) := by decide +kernel

end Etl.Flat
