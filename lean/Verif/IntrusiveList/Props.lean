import Verif.IntrusiveList.Two

/-!
# Properties of `etl::intrusive_list` (C14)

The user owns the nodes; a list is named by its terminal link.  The specification keeps, for every list, the sequence of nodes it holds.
-/
namespace Etl.IList
open Links

/-! ## Specification -/

/-- The lists that exist, and the build options. -/
structure Cfg where
  ts : List Nat
  lim : Nat
  check : Bool
  dbg : Bool

/-- Element `j` moved in front of element `i` of the same list. -/
def movedTo (l : List Nat) (i j : Nat) : List Nat :=
  if i ≤ j then l.take i ++ (l.drop j).take 1 ++ (l.drop i).take (j - i) ++ l.drop (j + 1)
  else l.take j ++ (l.drop (j + 1)).take (i - (j + 1)) ++ (l.drop j).take 1 ++ l.drop i

/-- `unique`: of each run, keep the first. -/
def uniqueOf (eq : Nat → Nat → Bool) : List Nat → List Nat
  | [] => []
  | a :: l => uniq eq a l

/-- Node `n` is in some list. -/
def InSome (c : Cfg) (L : Nat → List Nat) (n : Nat) : Prop := ∃ t ∈ c.ts, n ∈ L t
instance (c : Cfg) (L : Nat → List Nat) (n : Nat) : Decidable (InSome c L n) := inferInstanceAs (Decidable (∃ t ∈ c.ts, n ∈ L t))
instance (lt : Nat → Nat → Bool) (l : List Nat) : Decidable (SortedBy lt l) := inferInstanceAs (Decidable (l.Pairwise _))
/-- Effect of each operation on the contents of the lists, and what is reported. -/
def specStep (c : Cfg) (L : Nat → List Nat) : Op → (Nat → List Nat) × Out
  | .assign t ns => (upd L t ns, .ok)
  | .pushFront t n => if InSome c L n then (L, .err .linked) else (upd L t (n :: L t), .ok)
  | .pushBack t n => if InSome c L n then (L, .err .linked) else (upd L t (L t ++ [n]), .ok)
  | .popFront t => if L t = [] then (L, .err .empty) else (upd L t (L t).tail, .ok)
  | .popBack t => if L t = [] then (L, .err .empty) else (upd L t (L t).dropLast, .ok)
  | .clear t => (upd L t [], .ok)
  | .reverse t => (upd L t (L t).reverse, .ok)
  | .insert t i n => (upd L t ((L t).take i ++ n :: (L t).drop i), .at n)
  | .insertRange t i ns => (upd L t ((L t).take i ++ ns ++ (L t).drop i), .ok)
  | .erase t i => (upd L t ((L t).eraseIdx i), .at ((L t)[i + 1]?.getD t))
  | .eraseRange t i j => (upd L t ((L t).take i ++ (L t).drop j), .at ((L t)[j]?.getD t))
  | .eraseNode t n => if n ∈ L t then (upd L t ((L t).erase n), .at ((L t)[(L t).idxOf n + 1]?.getD 0)) else (L, .at 0)
  | .removeIf t f => (upd L t ((L t).filter (fun x => !f x)), .ok)
  | .unique t eq => (upd L t (uniqueOf eq (L t)), .ok)
  | .sort t lt => (upd L t (isort lt (L t)), .ok)
  | .splice t i u => if u = t then (L, .ok) else (upd (upd L t ((L t).take i ++ L u ++ (L t).drop i)) u [], .ok)
  | .spliceOne t i u j => if u = t then (upd L t (movedTo (L t) i j), .ok)
      else (upd (upd L t ((L t).take i ++ ((L u).drop j).take 1 ++ (L t).drop i)) u ((L u).eraseIdx j), .ok)
  | .spliceRange t i u j k => if u = t then (upd L t (movedTo (L t) i j), .ok)
      else (upd (upd L t ((L t).take i ++ ((L u).drop j).take (k - j) ++ (L t).drop i)) u ((L u).take j ++ (L u).drop k), .ok)
  | .merge t u lt => if t = u ∨ L u = [] then (L, .ok)
      else if c.dbg = true ∧ ¬ (SortedBy lt (L u) ∧ SortedBy lt (L t)) then (L, .err .unsorted)
      else (upd (upd L t (isort lt (L t ++ L u))) u [], .ok)

/-- A node the user may hand over: it exists and is in no list. -/
def Fresh (c : Cfg) (L : Nat → List Nat) (n : Nat) : Prop := 0 < n ∧ n ≤ c.lim ∧ n ∉ c.ts ∧ ∀ t ∈ c.ts, n ∉ L t

/-- Preconditions.  Iterators are valid; inserted nodes are in no list (`insert` and `assign` do not check); `assign` is to an empty list (it forgets the
old elements without unlinking them); `pop` of an empty list only with `ETL_CHECK_PUSH_POP`; comparisons are strict weak orders.
`splice` of one element not directly before the target of the same list (`spliceOne_before_self_broken`); `splice` of a range only of one element and not
onto itself (`spliceRange_broken`). -/
def Legal (c : Cfg) (L : Nat → List Nat) : Op → Prop
  | .assign t ns => t ∈ c.ts ∧ L t = [] ∧ ns.Nodup ∧ ∀ n ∈ ns, Fresh c L n
  | .pushFront t n | .pushBack t n => t ∈ c.ts ∧ 0 < n ∧ n ≤ c.lim ∧ n ∉ c.ts
  | .popFront t | .popBack t => t ∈ c.ts ∧ (c.check = true ∨ L t ≠ [])
  | .clear t | .reverse t | .removeIf t _ | .unique t _ => t ∈ c.ts
  | .insert t i n => t ∈ c.ts ∧ i ≤ (L t).length ∧ Fresh c L n
  | .insertRange t i ns => t ∈ c.ts ∧ i ≤ (L t).length ∧ ns.Nodup ∧ ∀ n ∈ ns, Fresh c L n
  | .erase t i => t ∈ c.ts ∧ i < (L t).length
  | .eraseRange t i j => t ∈ c.ts ∧ i ≤ j ∧ j ≤ (L t).length
  | .eraseNode t _ => t ∈ c.ts
  | .sort t lt => t ∈ c.ts ∧ StrictWeak lt
  | .splice t i u => t ∈ c.ts ∧ u ∈ c.ts ∧ i ≤ (L t).length
  | .spliceOne t i u j => t ∈ c.ts ∧ u ∈ c.ts ∧ i ≤ (L t).length ∧ j < (L u).length ∧ ¬ (t = u ∧ i = j + 1)
  | .spliceRange t i u j k => t ∈ c.ts ∧ u ∈ c.ts ∧ i ≤ (L t).length ∧ j < (L u).length ∧ k = j + 1 ∧ ¬ (t = u ∧ i = j)
  | .merge t u lt => t ∈ c.ts ∧ u ∈ c.ts ∧ StrictWeak lt ∧ (c.dbg = true ∨ SortedBy lt (L t) ∧ SortedBy lt (L u))

def specRun (c : Cfg) (L : Nat → List Nat) : List Op → (Nat → List Nat) × List Out
  | [] => (L, [])
  | o :: os => ((specRun c (specStep c L o).1 os).1, (specStep c L o).2 :: (specRun c (specStep c L o).1 os).2)

def LegalRun (c : Cfg) (L : Nat → List Nat) : List Op → Prop
  | [] => True
  | o :: os => Legal c L o ∧ LegalRun c (specStep c L o).1 os

/-! ## What a user sees -/

/-- The nodes by forward iteration from `begin()` to `end()`. -/
def forward (s : St) (t : Nat) : Res (List Nat) := do s.h.walk t (← s.h.next t) (s.h.lim + 1)
/-- The nodes by backward iteration from `end()`. -/
def backward (s : St) (t : Nat) : Res (List Nat) := do s.h.walkBack t (← s.h.prev t) (s.h.lim + 1)

/-- Every observation agrees with the sequences `L`, and a node is linked exactly if it is in a list. -/
structure Shows (c : Cfg) (s : St) (L : Nat → List Nat) : Prop where
  fwd : ∀ t ∈ c.ts, forward s t = .ok (L t)
  bwd : ∀ t ∈ c.ts, backward s t = .ok (L t).reverse
  size : ∀ t ∈ c.ts, s.sz t = (L t).length
  empty : ∀ t ∈ c.ts, empty s.h t = .ok (decide (L t = []))
  nodup : ∀ t ∈ c.ts, (L t).Nodup
  apart : ∀ t ∈ c.ts, ∀ u ∈ c.ts, t ≠ u → ∀ n ∈ L t, n ∉ L u
  linked : ∀ n, 0 < n → n ≤ c.lim → n ∉ c.ts → (isLinked s.h n = true ↔ InSome c L n)

/-- Freshly constructed lists `ts` (`initialise()`), every node unlinked. -/
def fresh (c : Cfg) : St := { h := { lim := c.lim, nx := fun x => if x ∈ c.ts then x else 0, pv := fun x => if x ∈ c.ts then x else 0 }, sz := fun _ => 0, check := c.check, dbg := c.dbg }

/-! ## Proof -/

def Good (c : Cfg) (s : St) (L : Nat → List Nat) : Prop := s.check = c.check ∧ s.dbg = c.dbg ∧ s.h.lim = c.lim ∧ SysOf s c.ts L

theorem Good.shows {c : Cfg} {s : St} {L : Nat → List Nat} (g : Good c s L) : Shows c s L := by
  obtain ⟨_, _, hl, g⟩ := g
  refine ⟨fun t ht => ?_, fun t ht => ?_, g.size, fun t ht => empty_ok (g.circ t ht), fun t ht => (List.nodup_cons.1 (g.circ t ht).nd).2, fun t ht u hu htu n hn hm => g.dis t ht u hu htu n (by simp [hn]) (by simp [hm]), fun n h1 h2 h3 => ?_⟩
  · have c := g.circ t ht
    have := c.walk (s.h.lim + 1) 0 (by omega) (by have := Circle.len c; omega)
    simp only [forward, next_ok c.tv, c.first, bind, Except.bind, this, List.drop_zero]
  · have c := g.circ t ht
    have h1 := c.walkBack (s.h.lim + 1) (L t).length (by omega) (by have := Circle.len c; omega)
    have h2 : s.h.pv t = if (L t).length = 0 then t else nodeAt t (L t) ((L t).length - 1) := by
      have := c.pv_at (i := (L t).length) (by omega)
      rw [nodeAt_len (by omega)] at this; exact this
    simp only [backward, prev_ok c.tv, h2, bind, Except.bind, h1, List.take_length]
  · constructor
    · intro h
      apply Classical.byContradiction
      intro hno
      have hf : Free s.h c.ts L n := ⟨⟨h1, by omega⟩, fun t ht z => by
        rcases List.mem_cons.1 z with z | z
        · exact h3 (z ▸ ht)
        · exact hno ⟨t, ht, z⟩⟩
      rw [isLinked_free g hf] at h; exact absurd h (by simp)
    · rintro ⟨t, ht, hn⟩; exact isLinked_mem g ht hn

section
variable {c : Cfg} {s : St} {L : Nat → List Nat} {t u : Nat}

theorem Fresh.free (g : Good c s L) {n : Nat} (h : Fresh c L n) : Free s.h c.ts L n :=
  ⟨⟨h.1, by rw [g.2.2.1]; exact h.2.1⟩, fun t ht z => by
    rcases List.mem_cons.1 z with z | z
    · exact h.2.2.1 (z ▸ ht)
    · exact h.2.2.2 t ht z⟩

theorem Good.iter (g : Good c s L) (ht : t ∈ c.ts) {i : Nat} (hi : i ≤ (L t).length) : iter s t i = .ok (nodeAt t ((L t).drop i) 0) := by
  have := iter_ok (s := s) (t := t) (A := (L t).take i) (B := (L t).drop i) (by rw [List.take_append_drop]; exact g.2.2.2.circ t ht)
  rwa [List.length_take, Nat.min_eq_left hi] at this

/-- The form in which each operation is proved. -/
abbrev Does (c : Cfg) (r : Res (St × Out)) (L' : Nat → List Nat) (o : Out) : Prop := ∃ s', r = .ok (s', o) ∧ Good c s' L'

theorem Good.next (g : Good c s L) {s' : St} {L' : Nat → List Nat} (sm : Same s s') (g' : SysOf s' c.ts L') : Good c s' L' :=
  ⟨sm.1.trans g.1, sm.2.1.trans g.2.1, sm.2.2.trans g.2.2.1, g'⟩

theorem nodeAt_drop {l : List Nat} {i : Nat} : nodeAt t (l.drop i) 0 = l[i]?.getD t := by simp [nodeAt]

theorem split_at {l : List Nat} {j : Nat} (hj : j < l.length) : l = l.take j ++ l[j] :: l.drop (j + 1) := by
  rw [← List.drop_eq_getElem_cons hj, List.take_append_drop]

theorem linked_dec (g : Good c s L) {n : Nat} (h1 : 0 < n) (h2 : n ≤ c.lim) (h3 : n ∉ c.ts) : (isLinked s.h n = true ∧ InSome c L n) ∨ (isLinked s.h n = false ∧ ¬ InSome c L n ∧ Free s.h c.ts L n) := by
  have := g.shows.linked n h1 h2 h3
  by_cases h : InSome c L n
  · exact Or.inl ⟨this.2 h, h⟩
  · have hf : Free s.h c.ts L n := Fresh.free g ⟨h1, h2, h3, fun t ht z => h ⟨t, ht, z⟩⟩
    exact Or.inr ⟨isLinked_free g.2.2.2 hf, h, hf⟩

theorem step_ok (g : Good c s L) (o : Op) (hl : Legal c L o) : Does c (step s o) (specStep c L o).1 (specStep c L o).2 := by
  have gs := g.2.2.2
  cases o with
  | assign t ns =>
    obtain ⟨ht, he, nd, hf⟩ := hl
    obtain ⟨s', e, sm, g'⟩ := assign_ok gs ht he (fun n hn => (hf n hn).free g) nd
    exact ⟨s', by simp [step, e, bind, Except.bind, specStep], g.next sm g'⟩
  | pushFront t n =>
    obtain ⟨ht, h1, h2, h3⟩ := hl
    rcases linked_dec g h1 h2 h3 with ⟨hk, hs⟩ | ⟨hk, hs, hf⟩
    · exact ⟨s, by simp [step, pushFront, hk, specStep, hs], by simpa [specStep, hs] using g⟩
    · obtain ⟨s', e, sm, g', _⟩ := insertLink_ok (A := []) (B := L t) gs ht (by simp) hf
      refine ⟨s', ?_, by simp only [specStep, hs, if_false]; exact g.next sm g'⟩
      have e2 : insertLink s t t n = .ok s' := e
      simp [step, pushFront, hk, e2, specStep, hs, bind, Except.bind]
  | pushBack t n =>
    obtain ⟨ht, h1, h2, h3⟩ := hl
    rcases linked_dec g h1 h2 h3 with ⟨hk, hs⟩ | ⟨hk, hs, hf⟩
    · exact ⟨s, by simp [step, pushBack, hk, specStep, hs], by simpa [specStep, hs] using g⟩
    · obtain ⟨s', e, sm, g', _⟩ := insertLink_ok (A := L t) (B := []) gs ht (by simp) hf
      have c' := gs.circ t ht
      refine ⟨s', ?_, by simp only [specStep, hs, if_false]; exact g.next sm g'⟩
      simp [step, pushBack, hk, prev_ok c'.tv, c'.last, e, specStep, hs, bind, Except.bind]
  | popFront t =>
    obtain ⟨ht, hc⟩ := hl
    have c' := gs.circ t ht
    by_cases h0 : L t = []
    · have hck : s.check = true := by rw [g.1]; tauto
      exact ⟨s, by simp [step, popFront, hck, empty_ok c', h0, specStep, bind, Except.bind], by simpa [specStep, h0] using g⟩
    · obtain ⟨a, l, e⟩ := List.exists_cons_of_ne_nil h0
      obtain ⟨s', e1, sm, g', _⟩ := disconnect_ok (A := []) gs ht e
      have hfst : s.h.nx t = a := by rw [c'.first, e]; rfl
      refine ⟨s', ?_, by simp only [specStep, h0, if_false, e, List.tail_cons]; exact g.next sm g'⟩
      simp [step, popFront, empty_ok c', h0, next_ok c'.tv, hfst, e1, specStep, bind, Except.bind]
  | popBack t =>
    obtain ⟨ht, hc⟩ := hl
    have c' := gs.circ t ht
    by_cases h0 : L t = []
    · have hck : s.check = true := by rw [g.1]; tauto
      exact ⟨s, by simp [step, popBack, hck, empty_ok c', h0, specStep, bind, Except.bind], by simpa [specStep, h0] using g⟩
    · have e : L t = (L t).dropLast ++ (L t).getLast h0 :: [] := (List.dropLast_concat_getLast h0).symm
      obtain ⟨s', e1, sm, g', _⟩ := disconnect_ok (A := (L t).dropLast) (B := []) gs ht e
      have hlst : s.h.pv t = (L t).getLast h0 := by rw [c'.last, List.getLast_cons h0]
      refine ⟨s', ?_, by simp only [specStep, h0, if_false]; rw [List.append_nil] at g'; exact g.next sm g'⟩
      simp [step, popBack, empty_ok c', h0, prev_ok c'.tv, hlst, e1, specStep, bind, Except.bind]
  | clear t =>
    obtain ⟨s', e, sm, g'⟩ := clear_ok gs hl
    exact ⟨s', by simp [step, e, specStep], g.next sm g'⟩
  | reverse t =>
    obtain ⟨s', e, sm, g'⟩ := reverse_ok gs hl
    exact ⟨s', by simp [step, e, specStep], g.next sm g'⟩
  | insert t i n =>
    obtain ⟨ht, hi, hf⟩ := hl
    have c' := gs.circ t ht
    have c'' := c'; rw [← List.take_append_drop i (L t)] at c''
    obtain ⟨s', e, sm, g', _⟩ := insertLink_ok gs ht (List.take_append_drop i (L t)).symm (hf.free g)
    refine ⟨s', ?_, g.next sm g'⟩
    simp [step, g.iter ht hi, insert, prev_ok (Circle.valid_at c''), Circle.pv_mid c'', e, bind, Except.bind, specStep]
  | insertRange t i ns =>
    obtain ⟨ht, hi, nd, hf⟩ := hl
    obtain ⟨s', e, sm, g'⟩ := insertRange_ok ht ns gs (List.take_append_drop i (L t)).symm (fun n hn => (hf n hn).free g) nd
    exact ⟨s', by simp [step, g.iter ht hi, e, bind, Except.bind, specStep], g.next sm g'⟩
  | erase t i =>
    obtain ⟨ht, hi⟩ := hl
    have e0 := split_at hi
    have c' := gs.circ t ht
    have c'' := c'; rw [e0] at c''
    obtain ⟨s', e, sm, g', _⟩ := disconnect_ok gs ht e0
    have hit := g.iter ht (Nat.le_of_lt hi)
    have h1 : nodeAt t ((L t).drop i) 0 = (L t)[i] := by rw [nodeAt_drop]; simp [hi]
    have h2 := Circle.nx_mid c''
    rw [nodeAt_drop] at h2
    refine ⟨s', ?_, by simp only [specStep]; rw [List.eraseIdx_eq_take_drop_succ]; exact g.next sm g'⟩
    simp only [step, hit, h1, erase, next_ok (c'.ok (L t)[i] (by simp)), h2, e, bind, Except.bind, specStep]
  | eraseRange t i j =>
    obtain ⟨ht, hij, hj⟩ := hl
    have e0 : L t = (L t).take i ++ ((L t).drop i).take (j - i) ++ (L t).drop j := by
      rw [List.append_assoc]
      have : (L t).drop j = ((L t).drop i).drop (j - i) := by rw [List.drop_drop]; congr 1; omega
      rw [this, List.take_append_drop, List.take_append_drop]
    obtain ⟨s', e, sm, g'⟩ := eraseRange_ok gs ht e0
    have h1 : ((L t).drop i).take (j - i) ++ (L t).drop j = (L t).drop i := by
      have : (L t).drop j = ((L t).drop i).drop (j - i) := by rw [List.drop_drop]; congr 1; omega
      rw [this, List.take_append_drop]
    rw [h1] at e
    refine ⟨s', ?_, g.next sm g'⟩
    simp only [step, g.iter ht (show i ≤ (L t).length by omega), g.iter ht hj, e, bind, Except.bind, specStep]
    rw [nodeAt_drop]
  | eraseNode t n =>
    have ht : t ∈ c.ts := hl
    have c' := gs.circ t ht
    have hin := inList_ok (n := n) (s.h.lim + 1) (A := []) (B := L t) c' (by have := Circle.len c'; omega)
    by_cases hn : n ∈ L t
    · have hi : (L t).idxOf n < (L t).length := List.idxOf_lt_length_of_mem hn
      have hget : (L t)[(L t).idxOf n] = n := List.getElem_idxOf hi
      have e0 := split_at hi
      rw [hget] at e0
      have c'' := c'; rw [e0] at c''
      obtain ⟨s', e, sm, g', _⟩ := disconnect_ok gs ht e0
      have h2 := Circle.nx_mid c''
      rw [nodeAt_drop] at h2
      have h3 : (if (L t)[(L t).idxOf n + 1]?.getD t ≠ t then (L t)[(L t).idxOf n + 1]?.getD t else 0) = (L t)[(L t).idxOf n + 1]?.getD 0 := by
        by_cases hb : (L t).idxOf n + 1 < (L t).length
        · have := Circle.ne c' (x := (L t)[(L t).idxOf n + 1]) (by simp)
          simp [hb, this]
        · simp [List.getElem?_eq_none (Nat.not_lt.1 hb)]
      have h4 : (L t).erase n = (L t).take ((L t).idxOf n) ++ (L t).drop ((L t).idxOf n + 1) := by
        rw [List.erase_eq_eraseIdx_of_idxOf rfl, List.eraseIdx_eq_take_drop_succ]
      refine ⟨s', ?_, by simp only [specStep, hn, if_true]; rw [h4]; exact g.next sm g'⟩
      simp only [step, eraseNode, next_ok c'.tv, c'.first, hin, hn, decide_true, if_true, next_ok (c'.ok n (by simp [hn])), h2, e, bind, Except.bind, specStep, h3]
    · exact ⟨s, by simp [step, eraseNode, next_ok c'.tv, c'.first, hin, hn, bind, Except.bind, specStep], by simpa [specStep, hn] using g⟩
  | removeIf t f =>
    have ht : t ∈ c.ts := hl
    have c' := gs.circ t ht
    obtain ⟨s', e, sm, g'⟩ := removeLoop_ok (f := f) ht (s.h.lim + 1) (A := []) (B := L t) gs (by simp) (by have := Circle.len c'; omega)
    exact ⟨s', by simp [step, removeIf, next_ok c'.tv, c'.first, e, bind, Except.bind, specStep], g.next sm (by simpa [specStep] using g')⟩
  | unique t eq =>
    have ht : t ∈ c.ts := hl
    have c' := gs.circ t ht
    cases h0 : L t with
    | nil =>
      refine ⟨s, by simp [step, unique, empty_ok c', h0, bind, Except.bind, specStep], ?_⟩
      have : (specStep c L (.unique t eq)).1 = L := by funext v; by_cases hv : v = t <;> simp [specStep, upd, hv, h0, uniqueOf]
      rw [this]; exact g
    | cons a l =>
      have c'' := c'; rw [h0] at c''
      obtain ⟨s', e, sm, g'⟩ := uniqueLoop_ok (eq := eq) ht (s.h.lim + 1) (A := []) (B := l) (p := a) gs (by simpa using h0) (by have := Circle.len c''; simp at this; omega)
      have h1 : s.h.nx t = a := by rw [c'.first, h0]; rfl
      have h2 : s.h.nx a = nodeAt t l 0 := Circle.nx_mid (A := []) c''
      refine ⟨s', by simp [step, unique, empty_ok c', h0, next_ok c'.tv, h1, next_ok (c''.ok a (by simp)), h2, e, bind, Except.bind, specStep], g.next sm (by simpa [specStep, h0, uniqueOf] using g')⟩
  | sort t lt =>
    obtain ⟨ht, ho⟩ := hl
    obtain ⟨s', e, sm, g'⟩ := sort_ok ho gs ht
    exact ⟨s', by simp [step, e, specStep], g.next sm g'⟩
  | splice t i u =>
    obtain ⟨ht, hu, hi⟩ := hl
    by_cases htu : u = t
    · subst htu
      exact ⟨s, by simp [step, g.iter ht hi, splice, bind, Except.bind, specStep], by simpa [specStep] using g⟩
    · obtain ⟨s', e, sm, g'⟩ := splice_ok gs ht hu htu (List.take_append_drop i (L t)).symm
      exact ⟨s', by simp [step, g.iter ht hi, e, bind, Except.bind, specStep, htu], g.next sm (by simpa [specStep, htu] using g')⟩
  | spliceOne t i u j =>
    obtain ⟨ht, hu, hi, hj, hno⟩ := hl
    have ct := gs.circ t ht
    have hst : nodeAt u ((L u).drop j) 0 = (L u)[j] := by rw [nodeAt_drop]; simp [hj]
    have ct' := ct; rw [← List.take_append_drop i (L t)] at ct'
    have hpv := Circle.pv_mid ct'
    have hit := g.iter ht hi
    have hjt := g.iter hu (Nat.le_of_lt hj)
    by_cases htu : u = t
    · subst htu
      by_cases hij : i ≤ j
      · have e0 : (L u) = ((L u).take i ++ ((L u).drop i).take (j - i)) ++ (L u)[j] :: (L u).drop (j + 1) := by
          have h1 := split_at hj
          have h2 : (L u).take j = (L u).take i ++ ((L u).drop i).take (j - i) := by
            rw [← List.take_append_drop i ((L u).take j), List.take_take, Nat.min_eq_left hij, List.drop_take]
          rw [← h2]; exact h1
        obtain ⟨h1, h2, e1, _, e2, hlim, g'⟩ := moveSelf gs hu e0 (A := (L u).take i) (B := ((L u).drop i).take (j - i) ++ (L u).drop (j + 1)) (by simp)
        refine ⟨{ s with h := h2 }, ?_, ⟨g.1, g.2.1, hlim.trans g.2.2.1, ?_⟩⟩
        · simp only [step, hit, hjt, hst, spliceOne, prev_ok (Circle.valid_at ct'), hpv, e1, e2, bind, Except.bind, specStep, ne_eq, not_true, if_false, if_true]
        · simp only [specStep, if_true, movedTo, if_pos hij]
          have : ((L u).drop j).take 1 = [(L u)[j]] := by rw [List.drop_eq_getElem_cons hj]; rfl
          rw [this]; simpa using g'
      · have hj2 : j + 1 < i := by
          have : ¬ (i = j + 1) := fun z => hno ⟨rfl, z⟩
          omega
        have e0 : (L u) = (L u).take j ++ (L u)[j] :: (((L u).drop (j + 1)).take (i - (j + 1)) ++ (L u).drop i) := by
          have : (L u).drop i = ((L u).drop (j + 1)).drop (i - (j + 1)) := by rw [List.drop_drop]; congr 1; omega
          rw [this, List.take_append_drop]; exact split_at hj
        obtain ⟨h1, h2, e1, _, e2, hlim, g'⟩ := moveSelf gs hu e0 (A := (L u).take j ++ ((L u).drop (j + 1)).take (i - (j + 1))) (B := (L u).drop i) (by simp)
        have hlast : (u :: (L u).take i).getLast (by simp) = (u :: ((L u).take j ++ ((L u).drop (j + 1)).take (i - (j + 1)))).getLast (by simp) := by
          have h3 : (L u).take i = (L u).take j ++ [(L u)[j]] ++ ((L u).drop (j + 1)).take (i - (j + 1)) := by
            have h4 : (L u).take i = (L u).take (j + 1) ++ ((L u).drop (j + 1)).take (i - (j + 1)) := by
              conv => lhs; rw [← List.take_append_drop (j + 1) ((L u).take i)]
              rw [List.take_take, Nat.min_eq_left (by omega), List.drop_take]
            rw [h4, List.take_append_getElem]
          have h5 : ((L u).drop (j + 1)).take (i - (j + 1)) ≠ [] := by
            intro z; have := congrArg List.length z; rw [List.length_take, List.length_drop, List.length_nil] at this; omega
          rw [List.getLast_cons (by rw [h3]; intro z; rw [List.append_assoc] at z; exact absurd (List.append_eq_nil_iff.1 z).2 (by simp)), List.getLast_cons (by simp only [ne_eq, List.append_eq_nil_iff]; tauto)]
          simp only [h3]
          rw [List.getLast_append_of_ne_nil _ h5, List.getLast_append_of_ne_nil _ h5]
        refine ⟨{ s with h := h2 }, ?_, ⟨g.1, g.2.1, hlim.trans g.2.2.1, ?_⟩⟩
        · simp only [step, hit, hjt, hst, spliceOne, prev_ok (Circle.valid_at ct'), hpv, hlast, e1, e2, bind, Except.bind, specStep, ne_eq, not_true, if_false, if_true]
        · simp only [specStep, if_true, movedTo, if_neg hij]
          have : ((L u).drop j).take 1 = [(L u)[j]] := by rw [List.drop_eq_getElem_cons hj]; rfl
          rw [this]; simpa using g'
    · obtain ⟨h1, h2, e1, _, e2, hlim, g'⟩ := moveNode gs ht hu htu (List.take_append_drop i (L t)).symm (split_at hj)
      refine ⟨{ s with h := h2, sz := upd (upd s.sz t (s.sz t + 1)) u (upd s.sz t (s.sz t + 1) u - 1) }, ?_, ⟨g.1, g.2.1, hlim.trans g.2.2.1, ?_⟩⟩
      · simp only [step, hit, hjt, hst, spliceOne, prev_ok (Circle.valid_at ct'), hpv, e1, e2, bind, Except.bind, specStep, ne_eq, htu, not_false_eq_true, if_false, if_true]
      · have : ((L u).drop j).take 1 = [(L u)[j]] := by rw [List.drop_eq_getElem_cons hj]; rfl
        simp only [specStep, htu, if_false, this]
        rw [List.eraseIdx_eq_take_drop_succ]
        rw [List.append_assoc, List.singleton_append]
        refine g' _ ?_ ?_ ?_
        · show upd _ _ _ _ = _; rw [upd_other _ _ (Ne.symm htu), upd_same]
        · show upd _ _ _ _ = _; rw [upd_same, upd_other _ _ htu]
        · intro v h3 h4; show upd _ _ _ _ = _; rw [upd_other _ _ h4, upd_other _ _ h3]
  | spliceRange t i u j k =>
    obtain ⟨ht, hu, hi, hj, rfl, hno⟩ := hl
    have ct := gs.circ t ht
    have cu := gs.circ u hu
    have hst : nodeAt u ((L u).drop j) 0 = (L u)[j] := by rw [nodeAt_drop]; simp [hj]
    have hit := g.iter ht hi
    have hjt := g.iter hu (Nat.le_of_lt hj)
    have hkt := g.iter hu (show j + 1 ≤ (L u).length from hj)
    have hne : L u ≠ [] := by intro z; rw [z] at hj; simp at hj
    have eu := split_at hj
    have cu' : Circle s.h u (((L u).take j ++ [(L u)[j]]) ++ (L u).drop (j + 1)) := by
      rw [List.append_assoc, List.singleton_append, ← eu]; exact cu
    have hlst : s.h.pv (nodeAt u ((L u).drop (j + 1)) 0) = (L u)[j] := by
      rw [Circle.pv_mid cu']; exact getLast_cons_concat _ _ _ _
    have hkv := Circle.valid_at cu'
    have hone : ((L u).drop j).take 1 = [(L u)[j]] := by rw [List.drop_eq_getElem_cons hj]; rfl
    by_cases htu : u = t
    · subst htu
      have fin : ∀ (P Q A B : List Nat) (x : Nat), L u = P ++ x :: Q → P ++ Q = A ++ B → x = (L u)[j] → nodeAt u ((L u).drop i) 0 = nodeAt u B 0 → movedTo (L u) i j = A ++ x :: B →
          Does c (step s (.spliceRange u i u j (j + 1))) (specStep c L (.spliceRange u i u j (j + 1))).1 (specStep c L (.spliceRange u i u j (j + 1))).2 := by
        intro P Q A B x e0 e0' hx hb hm
        obtain ⟨h1, h2, e1, c1, e2, hlim, g'⟩ := moveSelf gs hu e0 e0'
        have hxn : (u :: A).getLast (by simp) ≠ x := by
          have hx2 : x ∉ u :: (A ++ B) := by
            have := gs.circ u hu
            rw [e0] at this
            intro z
            have h5 := List.nodup_cons.1 ((List.perm_middle (a := x) (l₁ := P) (l₂ := Q)).nodup_iff.1 (List.nodup_cons.1 this.nd).2)
            rcases List.mem_cons.1 z with y | y
            · exact Circle.ne this (x := x) (by simp) y
            · exact h5.1 (by rw [e0']; exact y)
          intro z
          have := last_mem u A
          rw [z] at this
          exact hx2 (by rcases List.mem_cons.1 this with y | y <;> simp [y])
        refine ⟨{ s with h := h2 }, ?_, ⟨g.1, g.2.1, hlim.trans g.2.2.1, ?_⟩⟩
        · simp only [step, hit, hjt, hkt, hst, hb, spliceRange, empty_ok cu, hne, decide_false, Bool.false_eq_true, prev_ok hkv, hlst, ← hx, unlinkRange, e1,
            prev_ok (Circle.valid_at c1), Circle.pv_mid c1, linkSplice3_one hxn, e2, bind, Except.bind, specStep, ne_eq, not_true, if_false, if_true]
        · simp only [specStep, if_true, hm]; exact g'
      by_cases hij : i ≤ j
      · have hij' : i < j := by
          have : ¬ (i = j) := fun z => hno ⟨rfl, z⟩
          omega
        have e0 : (L u) = ((L u).take i ++ ((L u).drop i).take (j - i)) ++ (L u)[j] :: (L u).drop (j + 1) := by
          have h2 : (L u).take j = (L u).take i ++ ((L u).drop i).take (j - i) := by
            rw [← List.take_append_drop i ((L u).take j), List.take_take, Nat.min_eq_left hij, List.drop_take]
          rw [← h2]; exact eu
        refine fin _ _ ((L u).take i) (((L u).drop i).take (j - i) ++ (L u).drop (j + 1)) _ e0 (by simp) rfl ?_ ?_
        · rw [List.drop_eq_getElem_cons (show i < (L u).length by omega)]
          obtain ⟨d, hd⟩ : ∃ d, j - i = d + 1 := ⟨j - i - 1, by omega⟩
          rw [hd, List.take_succ_cons]; rfl
        · rw [movedTo, if_pos hij, hone]; simp
      · have e0 : (L u) = (L u).take j ++ (L u)[j] :: (((L u).drop (j + 1)).take (i - (j + 1)) ++ (L u).drop i) := by
          have : (L u).drop i = ((L u).drop (j + 1)).drop (i - (j + 1)) := by rw [List.drop_drop]; congr 1; omega
          rw [this, List.take_append_drop]; exact eu
        refine fin _ _ ((L u).take j ++ ((L u).drop (j + 1)).take (i - (j + 1))) ((L u).drop i) _ e0 (by simp) rfl rfl ?_
        rw [movedTo, if_neg hij, hone]; simp
    · obtain ⟨h1, h2, e1, c1, e2, hlim, g'⟩ := moveNode gs ht hu htu (List.take_append_drop i (L t)).symm eu
      have hd : distance s.h (L u)[j] (nodeAt u ((L u).drop (j + 1)) 0) (s.h.lim + 1) = .ok 1 := by
        have := distance_ok (s.h.lim + 1) (A := (L u).take j) (M := [(L u)[j]]) (B := (L u).drop (j + 1)) cu' (by have := Circle.len cu; simp; omega)
        have h0 : nodeAt u ([(L u)[j]] ++ (L u).drop (j + 1)) 0 = (L u)[j] := rfl
        rw [h0] at this; exact this
      have hxn : (t :: (L t).take i).getLast (by simp) ≠ (L u)[j] := by
        intro z
        have hm := last_mem t ((L t).take i)
        rw [z] at hm
        refine gs.dis t ht u hu (Ne.symm htu) _ ?_ (List.mem_cons_of_mem _ (List.getElem_mem hj))
        rcases List.mem_cons.1 hm with y | y
        · simp [y]
        · exact List.mem_cons_of_mem _ (List.take_subset _ _ y)
      refine ⟨{ s with h := h2, sz := upd (upd s.sz t (s.sz t + 1)) u (upd s.sz t (s.sz t + 1) u - 1) }, ?_, ⟨g.1, g.2.1, hlim.trans g.2.2.1, ?_⟩⟩
      · simp only [step, hit, hjt, hkt, hst, spliceRange, empty_ok cu, hne, decide_false, Bool.false_eq_true, hd, prev_ok hkv, hlst, unlinkRange, e1,
            prev_ok (Circle.valid_at c1), Circle.pv_mid c1, linkSplice3_one hxn, e2, bind, Except.bind, specStep, ne_eq, htu, not_false_eq_true, if_false, if_true]
      · have hk1 : j + 1 - j = 1 := by omega
        simp only [specStep, htu, if_false, hk1, hone]
        rw [List.append_assoc, List.singleton_append]
        refine g' _ ?_ ?_ ?_
        · show upd _ _ _ _ = _; rw [upd_other _ _ (Ne.symm htu), upd_same]
        · show upd _ _ _ _ = _; rw [upd_same, upd_other _ _ htu]
        · intro v h3 h4; show upd _ _ _ _ = _; rw [upd_other _ _ h4, upd_other _ _ h3]
  | merge t u lt =>
    obtain ⟨ht, hu, ho, hso⟩ := hl
    have c1 := gs.circ t ht
    have c2 := gs.circ u hu
    by_cases htu : t = u
    · subst htu
      exact ⟨s, by simp [step, merge, specStep], by simpa [specStep] using g⟩
    · by_cases h0 : L u = []
      · exact ⟨s, by simp [step, merge, htu, empty_ok c2, h0, specStep, bind, Except.bind], by simpa [specStep, h0] using g⟩
      · by_cases hs : SortedBy lt (L u) ∧ SortedBy lt (L t)
        · obtain ⟨s', e, sm, g'⟩ := merge_ok ho gs ht hu htu h0 hs.2 hs.1
          have hsp : specStep c L (.merge t u lt) = (upd (upd L t (isort lt (L t ++ L u))) u [], .ok) := by simp [specStep, htu, h0, hs]
          rw [hsp]
          exact ⟨s', by simp [step, e], g.next sm g'⟩
        · have hd : c.dbg = true := by tauto
          have hsp : specStep c L (.merge t u lt) = (L, .err .unsorted) := by simp [specStep, htu, h0, hs, hd]
          rw [hsp]
          refine ⟨s, ?_, g⟩
          have w1 := c1.walk (s.h.lim + 1) 0 (by omega) (by have := Circle.len c1; omega)
          have w2 := c2.walk (s.h.lim + 1) 0 (by omega) (by have := Circle.len c2; omega)
          rw [List.drop_zero] at w1 w2
          have hb : (isSorted lt (L u) && isSorted lt (L t)) = false := by
            cases hx : isSorted lt (L u) with
            | false => rfl
            | true =>
              cases hy : isSorted lt (L t) with
              | false => rfl
              | true => exact absurd ⟨(isSorted_iff ho _).1 hx, (isSorted_iff ho _).1 hy⟩ hs
          simp [step, merge, htu, empty_ok c2, h0, next_ok c1.tv, next_ok c2.tv, c1.first, c2.first, w1, w2, hb, g.2.1, hd, bind, Except.bind]

theorem run_ok (os : List Op) : ∀ {s : St} {L : Nat → List Nat}, Good c s L → LegalRun c L os →
    ∃ s', run s os = .ok (s', (specRun c L os).2) ∧ Good c s' (specRun c L os).1 := by
  induction os with
  | nil => intro s L g _; exact ⟨s, rfl, g⟩
  | cons o os ih =>
    intro s L g hl
    obtain ⟨s1, e1, g1⟩ := step_ok g o hl.1
    obtain ⟨s2, e2, g2⟩ := ih g1 hl.2
    refine ⟨s2, ?_, g2⟩
    rw [run, e1]
    simp only [bind, Except.bind]
    rw [e2]; rfl
end

theorem fresh_good (c : Cfg) (nd : ∀ t ∈ c.ts, 0 < t ∧ t ≤ c.lim) : Good c (fresh c) (fun _ => []) := by
  refine ⟨rfl, rfl, rfl, fun t ht => ⟨⟨by simp [fresh, ht], by simp [fresh, ht], trivial⟩, by simp, ?_⟩, ?_, ?_, fun _ _ => rfl⟩
  · intro x hx; have : x = t := by simpa using hx
    subst this; exact nd x ht
  · intro t _ u _ htu x hx; have : x = t := by simpa using hx
    subst this; simpa using htu
  · intro x hx _
    have : x ∉ c.ts := fun z => by simpa using hx x z
    simp [fresh, this]

/-- **C14.** Starting from any number of freshly constructed lists and unlinked nodes, after any legal history of operations on any of the lists no invalid
link was followed, each operation reported what the specification says, forward and backward traversal of every list give the specified sequence and its
reverse, `size()` matches, lists share no node, and a node is linked exactly if it is in one of the lists. -/
theorem C14_intrusive_list_refines (c : Cfg) (ht : ∀ t ∈ c.ts, 0 < t ∧ t ≤ c.lim) (os : List Op) (hl : LegalRun c (fun _ => []) os) :
    ∃ s', run (fresh c) os = .ok (s', (specRun c (fun _ => []) os).2) ∧ Shows c s' (specRun c (fun _ => []) os).1 := by
  obtain ⟨s', e, g⟩ := run_ok os (fresh_good c ht) hl
  exact ⟨s', e, g.shows⟩

/-- A node that was removed from its list by any operation and is in no other list reports itself as unlinked and occurs in no traversal. -/
theorem C14_removed_nodes_unreachable (c : Cfg) (ht : ∀ t ∈ c.ts, 0 < t ∧ t ≤ c.lim) (os : List Op) (hl : LegalRun c (fun _ => []) os) (n : Nat) (h0 : 0 < n) (h1 : n ≤ c.lim)
    (h2 : n ∉ c.ts) (h3 : ¬ InSome c (specRun c (fun _ => []) os).1 n) :
    ∃ s' rs, run (fresh c) os = .ok (s', rs) ∧ isLinked s'.h n = false ∧ ∀ t ∈ c.ts, ∀ l, (forward s' t = .ok l ∨ backward s' t = .ok l) → n ∉ l := by
  obtain ⟨s', e, g⟩ := C14_intrusive_list_refines c ht os hl
  refine ⟨s', _, e, ?_, ?_⟩
  · cases hb : isLinked s'.h n with
    | false => rfl
    | true => exact absurd ((g.linked n h0 h1 h2).1 hb) h3
  · intro t htt l hf hn
    rcases hf with hf | hf
    · rw [g.fwd t htt] at hf; cases hf; exact h3 ⟨t, htt, hn⟩
    · rw [g.bwd t htt] at hf; cases hf; exact h3 ⟨t, htt, by simpa using hn⟩

/-! ## Cases outside `Legal` that corrupt the list -/

def exCfg : Cfg := ⟨[1, 2], 10, true, true⟩

/-- Splicing two elements `5 6` of list 2 into list 1: forward traversal sees them, backward traversal runs into a null link. -/
theorem spliceRange_broken : ∃ s rs, run (fresh exCfg) [.assign 1 [3, 4], .assign 2 [5, 6, 7], .spliceRange 1 1 2 0 2] = .ok (s, rs) ∧
    forward s 1 = .ok [3, 5, 6, 4] ∧ backward s 1 = .error .nullDeref := by
  refine ⟨_, _, rfl, ?_, ?_⟩ <;> rfl

/-- Splicing the element directly before the target in the same list makes the element its own successor: the list loses it and never ends. -/
theorem spliceOne_before_self_broken : ∃ s rs, run (fresh exCfg) [.assign 1 [3, 4, 5], .spliceOne 1 1 1 0] = .ok (s, rs) ∧ forward s 1 = .ok [4, 5] ∧ s.sz 1 = 3 ∧ s.h.nx 3 = 3 := by
  refine ⟨_, _, rfl, ?_, ?_, ?_⟩ <;> rfl

/-- `assign` to a non-empty list leaves the old elements linked although they are in no list. -/
theorem assign_leaves_old_linked : ∃ s rs, run (fresh exCfg) [.assign 1 [3, 4], .assign 1 [5]] = .ok (s, rs) ∧ forward s 1 = .ok [5] ∧ isLinked s.h 3 = true := by
  refine ⟨_, _, rfl, ?_, ?_⟩ <;> rfl

/-! ## The hypotheses are met by non-trivial runs -/

def exOps : List Op :=
  [.assign 1 [5, 3, 4], .pushBack 2 7, .pushFront 2 6, .pushBack 2 5, .sort 1 (fun a b => decide (a < b)), .spliceOne 1 3 2 0, .merge 1 2 (fun a b => decide (a < b)), .reverse 1,
   .erase 1 1, .insert 1 0 8, .spliceOne 1 0 1 2, .eraseNode 1 4, .spliceRange 2 0 1 1 2, .splice 1 1 2, .removeIf 1 (fun n => n == 8), .popBack 1]

example : (run (fresh exCfg) exOps).map (fun r => (forward r.1 1, backward r.1 1, r.2)) =
    .ok (.ok [5, 7], .ok [7, 5], [.ok, .ok, .ok, .err .linked, .ok, .ok, .ok, .ok, .at 5, .at 8, .ok, .at 3, .ok, .ok, .ok, .ok]) := by rfl

example : ∀ t ∈ exCfg.ts, 0 < t ∧ t ≤ exCfg.lim := by decide

example : LegalRun exCfg (fun _ => []) [.assign 1 [5, 3], .pushBack 2 7, .merge 1 2 (fun a b => decide (a < b)), .sort 1 (fun a b => decide (a < b)), .merge 1 2 (fun a b => decide (a < b)),
    .spliceOne 2 0 1 1, .spliceRange 2 1 1 0 1, .popFront 1] := by
  have ho : StrictWeak (fun a b : Nat => decide (a < b)) := ⟨fun a => by simp, fun a b c h1 h2 => by simp at *; omega, fun a b c h1 h2 h3 h4 => by simp at *; omega⟩
  refine ⟨?_, ?_, ⟨by decide, by decide, ho, Or.inl rfl⟩, ⟨by decide, ho⟩, ⟨by decide, by decide, ho, Or.inl rfl⟩, ?_, ?_, ?_, trivial⟩ <;> (try unfold Legal Fresh) <;> (try unfold Legal) <;> decide
end Etl.IList
