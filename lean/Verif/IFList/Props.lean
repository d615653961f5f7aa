import Verif.IFList.Two

/-!
# Properties of `etl::intrusive_forward_list` (C63)

The user owns the nodes; a list is named by its start link.  The specification keeps, for every list, the sequence of nodes it holds.
-/
namespace Etl.IFList
open Etl.FLinks

/-! ## Specification -/

/-- The lists that exist, the number of link objects and the build options. -/
structure Cfg where
  ts : List Nat
  lim : Nat
  check : Bool
  dbg : Bool

/-- The node at position `i`: 0 is `before_begin()`, `size()+1` is `end()`. -/
def nodeOf (t : Nat) (l : List Nat) (i : Nat) : Nat := (t :: l)[i]?.getD E

/-- `unique`: of each run, keep the first. -/
def uniqueOf (eq : Nat → Nat → Bool) : List Nat → List Nat
  | [] => []
  | a :: l => uniq eq a l

/-- The elements at indices `j .. j+m-1` taken out and put back behind the first `i` remaining elements. -/
def moved (l : List Nat) (i j m : Nat) : List Nat :=
  (l.take j ++ l.drop (j + m)).take i ++ (l.drop j).take m ++ (l.take j ++ l.drop (j + m)).drop i

instance (lt : Nat → Nat → Bool) (l : List Nat) : Decidable (SortedBy lt l) := inferInstanceAs (Decidable (l.Pairwise _))

/-- Effect of each operation on the contents of the lists, and what is reported. -/
def specStep (c : Cfg) (L : Nat → List Nat) : Op → (Nat → List Nat) × Out
  | .assign t ns => addAll c.ts t (upd L t []) 0 ns
  | .pushFront t n => if InSome c.ts L n then (L, .err .linked) else (upd L t (n :: L t), .ok)
  | .popFront t => if L t = [] then (L, if c.check then .err .empty else .ok) else (upd L t (L t).tail, .ok)
  | .clear t => (upd L t [], .ok)
  | .reverse t => (upd L t (L t).reverse, .ok)
  | .insertAfter t i n => if InSome c.ts L n then (L, .err .linked) else (upd L t ((L t).take i ++ n :: (L t).drop i), .at n)
  | .insertRange t i ns => addAll c.ts t L i ns
  | .eraseAfter t i => (upd L t ((L t).eraseIdx i), .at (nodeOf t (L t) (i + 2)))
  | .eraseRange t i j => if i = j then (L, .at (nodeOf t (L t) j)) else (upd L t ((L t).take i ++ (L t).drop (j - 1)), .at (nodeOf t (L t) j))
  | .eraseNode t n => if n ∈ L t then (upd L t ((L t).erase n), .at ((L t)[(L t).idxOf n + 1]?.getD 0)) else (L, .at 0)
  | .removeIf t f => (upd L t ((L t).filter (fun x => !f x)), .ok)
  | .removePtr t n => (upd L t ((L t).erase n), .ok)
  | .unique t eq => (upd L t (uniqueOf eq (L t)), .ok)
  | .sort t lt => (upd L t (isort lt (L t)), .ok)
  | .splice t i u => if u = t then (L, .ok) else (upd (upd L t ((L t).take i ++ L u ++ (L t).drop i)) u [], .ok)
  | .spliceRange t i u j k => if u = t then (upd L t (moved (L t) (if i ≤ j then i else i - (k - 1 - j)) j (k - 1 - j)), .ok)
      else (upd (upd L t ((L t).take i ++ ((L u).drop j).take (k - 1 - j) ++ (L t).drop i)) u ((L u).take j ++ (L u).drop (k - 1)), .ok)
  | .merge t u lt => if t = u ∨ L u = [] then (L, .ok)
      else if c.dbg = true ∧ ¬ (SortedBy lt (L u) ∧ SortedBy lt (L t)) then (L, .err .unsorted)
      else (upd (upd L t (isort lt (L t ++ L u))) u [], .ok)

/-- Preconditions.  Positions are valid; nodes are user nodes; comparisons are strict weak orders.  `splice_after` of a range moves at least one element
(`spliceRange_empty_broken`) and the target is not among the moved elements. -/
def Legal (c : Cfg) (L : Nat → List Nat) : Op → Prop
  | .assign t ns => t ∈ c.ts ∧ ∀ n ∈ ns, Node c.lim c.ts n
  | .pushFront t n => t ∈ c.ts ∧ Node c.lim c.ts n
  | .popFront t => t ∈ c.ts
  | .clear t | .reverse t | .removeIf t _ | .unique t _ | .removePtr t _ => t ∈ c.ts
  | .insertAfter t i n => t ∈ c.ts ∧ i ≤ (L t).length ∧ Node c.lim c.ts n
  | .insertRange t i ns => t ∈ c.ts ∧ i ≤ (L t).length ∧ ∀ n ∈ ns, Node c.lim c.ts n
  | .eraseAfter t i => t ∈ c.ts ∧ i ≤ (L t).length + 1
  | .eraseRange t i j => t ∈ c.ts ∧ i ≤ j ∧ j ≤ (L t).length + 1
  | .eraseNode t n => t ∈ c.ts ∧ n ≠ E
  | .sort t lt => t ∈ c.ts ∧ StrictWeak lt
  | .splice t i u => t ∈ c.ts ∧ u ∈ c.ts ∧ i ≤ (L t).length
  | .spliceRange t i u j k => t ∈ c.ts ∧ u ∈ c.ts ∧ i ≤ (L t).length ∧ j + 2 ≤ k ∧ k ≤ (L u).length + 1 ∧ (t = u → i ≤ j ∨ k ≤ i)
  | .merge t u lt => t ∈ c.ts ∧ u ∈ c.ts ∧ StrictWeak lt ∧ (c.dbg = true ∨ SortedBy lt (L t) ∧ SortedBy lt (L u))

def specRun (c : Cfg) (L : Nat → List Nat) : List Op → (Nat → List Nat) × List Out
  | [] => (L, [])
  | o :: os => ((specRun c (specStep c L o).1 os).1, (specStep c L o).2 :: (specRun c (specStep c L o).1 os).2)

def LegalRun (c : Cfg) (L : Nat → List Nat) : List Op → Prop
  | [] => True
  | o :: os => Legal c L o ∧ LegalRun c (specStep c L o).1 os

/-! ## What a user sees -/

/-- The nodes by iteration from `begin()` to `end()`. -/
def forward (s : St) (t : Nat) : Res (List Nat) := do s.h.walk E (← s.h.next t) (s.h.lim + 1)

/-- Every observation agrees with the sequences `L`, and a node is linked exactly if it is in a list. -/
structure Shows (c : Cfg) (s : St) (L : Nat → List Nat) : Prop where
  fwd : ∀ t ∈ c.ts, forward s t = .ok (L t)
  size : ∀ t ∈ c.ts, s.sz t = (L t).length
  empty : ∀ t ∈ c.ts, empty s t = decide (L t = [])
  nodup : ∀ t ∈ c.ts, (L t).Nodup
  apart : ∀ t ∈ c.ts, ∀ u ∈ c.ts, t ≠ u → ∀ n ∈ L t, n ∉ L u
  linked : ∀ n, Node c.lim c.ts n → (isLinked s.h n = true ↔ InSome c.ts L n)

/-- Freshly constructed lists `ts` (`initialise()`), every node unlinked. -/
def fresh (c : Cfg) : St := { h := { lim := c.lim, nx := fun x => if x ∈ c.ts then E else 0 }, sz := fun _ => 0, check := c.check, dbg := c.dbg }

/-! ## Proof -/

def Good (c : Cfg) (s : St) (L : Nat → List Nat) : Prop := s.check = c.check ∧ s.dbg = c.dbg ∧ s.h.lim = c.lim ∧ SysOf s c.ts L

theorem Good.shows {c : Cfg} {s : St} {L : Nat → List Nat} (g : Good c s L) : Shows c s L := by
  obtain ⟨_, _, hl, g⟩ := g
  refine ⟨fun t ht => ?_, g.size, fun t ht => empty_ok g ht, fun t ht => (List.nodup_cons.1 (g.line t ht).nd).2, fun t ht u hu htu n hn hm => g.dis t ht u hu htu n (by simp [hn]) (by simp [hm]), fun n hn => ?_⟩
  · have c := g.line t ht
    have := c.walk (k := s.h.lim + 1) (by have := Line.len c; omega)
    simp only [forward, next_ok (c.ok t (by simp)), bind, Except.bind, this]
  · rcases linked_dec g (n := n) (by rw [hl]; exact hn) with ⟨h1, h2⟩ | ⟨h1, h2, _⟩
    · exact ⟨fun _ => h2, fun _ => h1⟩
    · rw [h1]; exact ⟨fun z => absurd z (by simp), fun z => absurd z h2⟩

section
variable {c : Cfg} {s : St} {L : Nat → List Nat} {t u : Nat}

theorem lst_take {t : Nat} : ∀ {l : List Nat} {i : Nat}, i ≤ l.length → lst t (l.take i) = nodeOf t l i := by
  intro l i hi
  cases i with
  | zero => rfl
  | succ i =>
    have : i < l.length := hi
    rw [List.take_succ_eq_append_getElem this, lst_concat]
    simp [nodeOf, this]

theorem hd_drop {t : Nat} (l : List Nat) (i : Nat) : hd E (l.drop i) = nodeOf t l (i + 1) := by
  by_cases hi : i < l.length
  · rw [List.drop_eq_getElem_cons hi, hd_cons]; simp [nodeOf, hi]
  · rw [List.drop_eq_nil_of_le (Nat.le_of_not_lt hi)]; simp [nodeOf, List.getElem?_eq_none (show l.length ≤ i by omega)]

theorem Good.iter (g : Good c s L) (ht : t ∈ c.ts) {i : Nat} (hi : i ≤ (L t).length + 1) : iter s t i = .ok (nodeOf t (L t) i) := by
  have c' := g.2.2.2.line t ht
  have key : ∀ A B, t :: L t = A ++ B → s.h.fwd t A.length = .ok (hd E B) := by
    intro A B e
    have hv : ∀ x ∈ A, s.h.valid x := fun x hx => c'.ok x (by rw [e]; simp [hx])
    have hs : Seg s.h.nx t (t :: L t) E := ⟨rfl, c'.first⟩
    rw [e] at hs
    obtain ⟨q, h1, h2⟩ := seg_append.1 hs
    have := h2.hd
    subst this
    exact h1.fwd hv
  have := key ((t :: L t).take i) ((t :: L t).drop i) (List.take_append_drop _ _).symm
  rw [List.length_take, Nat.min_eq_left (by simpa using hi)] at this
  rw [IFList.iter, this]
  congr 1
  by_cases h : i < (t :: L t).length
  · rw [List.drop_eq_getElem_cons h, hd_cons]; rw [nodeOf, List.getElem?_eq_getElem h]; rfl
  · rw [List.drop_eq_nil_of_le (Nat.le_of_not_lt h)]; simp [nodeOf, List.getElem?_eq_none (show (t :: L t).length ≤ i by omega)]

theorem Good.iter' (g : Good c s L) (ht : t ∈ c.ts) {i : Nat} (hi : i ≤ (L t).length) : IFList.iter s t i = .ok (lst t ((L t).take i)) := by
  rw [g.iter ht (by omega), lst_take hi]

/-- The form in which each operation is proved. -/
abbrev Does (c : Cfg) (r : Res (St × Out)) (L' : Nat → List Nat) (o : Out) : Prop := ∃ s', r = .ok (s', o) ∧ Good c s' L'

theorem Good.next (g : Good c s L) {s' : St} {L' : Nat → List Nat} (sm : Same s s') (g' : SysOf s' c.ts L') : Good c s' L' :=
  ⟨sm.1.trans g.1, sm.2.1.trans g.2.1, sm.2.2.trans g.2.2.1, g'⟩

theorem split_at {l : List Nat} {j : Nat} (hj : j < l.length) : l = l.take j ++ l[j] :: l.drop (j + 1) := by
  rw [← List.drop_eq_getElem_cons hj, List.take_append_drop]

theorem split3 (l : List Nat) (j m : Nat) : l = l.take j ++ (l.drop j).take m ++ l.drop (j + m) := by
  rw [List.append_assoc]
  have : l.drop (j + m) = (l.drop j).drop m := by rw [List.drop_drop]
  rw [this, List.take_append_drop, List.take_append_drop]

theorem takeWhile_idx {n : Nat} : ∀ {l : List Nat}, n ∈ l → l.takeWhile (· ≠ n) = l.take (l.idxOf n)
  | a :: l, h => by
    by_cases ha : a = n
    · simp [ha]
    · have : n ∈ l := by simpa [Ne.symm ha] using h
      rw [List.takeWhile_cons_of_pos (by simpa using ha), takeWhile_idx this, show (a :: l).idxOf n = l.idxOf n + 1 by rw [List.idxOf_cons, show (a == n) = false by simpa using ha]; rfl, List.take_succ_cons]

theorem step_ok (g : Good c s L) (o : Op) (hl : Legal c L o) : Does c (step s o) (specStep c L o).1 (specStep c L o).2 := by
  have gs := g.2.2.2
  have hlim := g.2.2.1
  cases o with
  | assign t ns =>
    obtain ⟨ht, hf⟩ := hl
    obtain ⟨s', e, sm, g'⟩ := assign_ok gs ht (fun n hn => by rw [hlim]; exact hf n hn)
    exact ⟨s', e, g.next sm g'⟩
  | pushFront t n =>
    obtain ⟨ht, hn⟩ := hl
    rcases linked_dec gs (n := n) (by rw [hlim]; exact hn) with ⟨hk, hs⟩ | ⟨hk, hs, hf⟩
    · exact ⟨s, by simp [step, pushFront, hk, specStep, hs], by simpa [specStep, hs] using g⟩
    · obtain ⟨s', e, sm, g', _⟩ := insertLink_ok (A := []) (B := L t) gs ht (by simp) hf
      refine ⟨s', ?_, by simp only [specStep, hs, if_false]; exact g.next sm g'⟩
      have e2 : insertLink s t t n = .ok s' := e
      simp [step, pushFront, hk, e2, specStep, hs, bind, Except.bind]
  | popFront t =>
    have ht : t ∈ c.ts := hl
    by_cases h0 : L t = []
    · cases hck : c.check with
      | true => exact ⟨s, by simp [step, popFront, g.1, hck, empty_ok gs ht, h0, specStep], by simpa [specStep, h0] using g⟩
      | false =>
        have := disconnect_end gs ht
        rw [h0] at this
        have h2 : disconnect s t t = .ok s := this
        exact ⟨s, by simp [step, popFront, g.1, hck, h0, h2, specStep, bind, Except.bind], by simpa [specStep, h0] using g⟩
    · obtain ⟨a, l, e⟩ := List.exists_cons_of_ne_nil h0
      obtain ⟨s', e1, sm, g', _⟩ := disconnect_ok (A := []) gs ht e
      have e2 : disconnect s t t = .ok s' := e1
      refine ⟨s', ?_, by simp only [specStep, h0, if_false, e, List.tail_cons]; exact g.next sm g'⟩
      simp [step, popFront, empty_ok gs ht, h0, e2, specStep, bind, Except.bind]
  | clear t =>
    obtain ⟨s', e, sm, g'⟩ := clear_ok gs hl
    exact ⟨s', by simp [step, e, bind, Except.bind, specStep], g.next sm g'⟩
  | reverse t =>
    obtain ⟨s', e, sm, g'⟩ := reverse_ok gs hl
    exact ⟨s', by simp [step, e, bind, Except.bind, specStep], g.next sm g'⟩
  | insertAfter t i n =>
    obtain ⟨ht, hi, hn⟩ := hl
    rcases linked_dec gs (n := n) (by rw [hlim]; exact hn) with ⟨hk, hs⟩ | ⟨hk, hs, hf⟩
    · exact ⟨s, by simp [step, g.iter' ht hi, insertAfter, hk, specStep, hs, bind, Except.bind], by simpa [specStep, hs] using g⟩
    · obtain ⟨s', e, sm, g', _⟩ := insertLink_ok gs ht (List.take_append_drop i (L t)).symm hf
      refine ⟨s', ?_, by simp only [specStep, hs, if_false]; exact g.next sm g'⟩
      simp [step, g.iter' ht hi, insertAfter, hk, e, specStep, hs, bind, Except.bind]
  | insertRange t i ns =>
    obtain ⟨ht, hi, hf⟩ := hl
    obtain ⟨s', e, sm, g'⟩ := insertRange_ok ht ns gs (List.take_append_drop i (L t)).symm (fun n hn => by rw [hlim]; exact hf n hn)
    rw [List.length_take, Nat.min_eq_left hi] at e g'
    exact ⟨s', by simp only [step, g.iter' ht hi, e, bind, Except.bind, specStep], g.next sm g'⟩
  | eraseAfter t i =>
    obtain ⟨ht, hi⟩ := hl
    by_cases h1 : i < (L t).length
    · obtain ⟨s', e, sm, g'⟩ := eraseAfter_ok gs ht (split_at h1)
      refine ⟨s', ?_, by simp only [specStep]; rw [List.eraseIdx_eq_take_drop_succ]; exact g.next sm g'⟩
      simp only [step, g.iter' ht (Nat.le_of_lt h1), e, bind, Except.bind, specStep, hd_drop (t := t)]
    · have h2 : (specStep c L (.eraseAfter t i)).1 = L := by
        simp only [specStep]; rw [List.eraseIdx_of_length_le (by omega), upd_self rfl]
      have h3 : (specStep c L (.eraseAfter t i)).2 = .at E := by
        simp [specStep, nodeOf, List.getElem?_eq_none (show (L t).length ≤ i + 1 by omega)]
      rw [h2, h3]
      refine ⟨s, ?_, g⟩
      obtain ⟨k1, k2⟩ := eraseAfter_end gs ht
      rcases Nat.lt_or_ge (L t).length i with h4 | h4
      · have : nodeOf t (L t) i = E := by
          obtain rfl : i = (L t).length + 1 := by omega
          simp [nodeOf]
        simp only [step, g.iter ht hi, this, k2, bind, Except.bind]
      · simp only [step, g.iter' ht h4, List.take_of_length_le (show (L t).length ≤ i by omega), k1, bind, Except.bind]
  | eraseRange t i j =>
    obtain ⟨ht, hij, hj⟩ := hl
    by_cases he : i = j
    · subst he
      refine ⟨s, ?_, by simpa [specStep] using g⟩
      simp only [step, g.iter ht hj, eraseRange, bind, Except.bind, specStep, ne_eq, not_true, and_false, if_false, if_true]
    · have hi : i ≤ (L t).length := by omega
      have e0 := split3 (L t) i (j - 1 - i)
      rw [show i + (j - 1 - i) = j - 1 by omega] at e0
      obtain ⟨s', e, sm, g'⟩ := eraseRange_ok gs ht e0
      have hjn : hd E ((L t).drop (j - 1)) = nodeOf t (L t) j := by rw [hd_drop (t := t), show j - 1 + 1 = j by omega]
      rw [hjn] at e
      refine ⟨s', ?_, by simp only [specStep, he, if_false]; exact g.next sm g'⟩
      simp only [step, g.iter' ht hi, g.iter ht hj, e, bind, Except.bind, specStep, he, if_false]
  | eraseNode t n =>
    obtain ⟨ht, hn⟩ := hl
    have c' := gs.line t ht
    have hE : s.h.nx E = 0 := gs.free E (fun u hu => (gs.line u hu).ne) gs.term
    have hin := inList_ok (n := n) gs.term hE hn (s.h.lim + 2) (A := []) (B := L t) c' (by have := Line.len c'; omega) (by simp)
    have hin' : inList s.h n (hd E (L t)) t (s.h.lim + 2) = .ok (if n ∈ L t then lst t ((L t).takeWhile (· ≠ n)) else 0) := hin
    have hf : s.h.nx t = hd E (L t) := c'.nx_lst (X := [])
    by_cases hm : n ∈ L t
    · have hi : (L t).idxOf n < (L t).length := List.idxOf_lt_length_of_mem hm
      have hget : (L t)[(L t).idxOf n] = n := List.getElem_idxOf hi
      have e0 := split_at hi
      rw [hget] at e0
      have c'' := c'; rw [e0] at c''
      obtain ⟨s', e, sm, g', _⟩ := disconnect_ok gs ht e0
      have h2 := Line.nx_mem c''
      rw [if_pos hm, takeWhile_idx hm] at hin'
      have hp0 : lst t ((L t).take ((L t).idxOf n)) ≠ 0 := valid_ne c''.mid.1
      have h3 : (if hd E ((L t).drop ((L t).idxOf n + 1)) ≠ E then hd E ((L t).drop ((L t).idxOf n + 1)) else 0) = (L t)[(L t).idxOf n + 1]?.getD 0 := by
        by_cases hb : (L t).idxOf n + 1 < (L t).length
        · have := Line.neE c' (x := (L t)[(L t).idxOf n + 1]) (by simp)
          rw [List.drop_eq_getElem_cons hb, hd_cons, if_pos this]; simp [hb]
        · rw [List.drop_eq_nil_of_le (by omega)]; simp [List.getElem?_eq_none (Nat.not_lt.1 hb)]
      have h4 : (L t).erase n = (L t).take ((L t).idxOf n) ++ (L t).drop ((L t).idxOf n + 1) := by
        rw [List.erase_eq_eraseIdx_of_idxOf rfl, List.eraseIdx_eq_take_drop_succ]
      refine ⟨s', ?_, by simp only [specStep, hm, if_true]; rw [h4]; exact g.next sm g'⟩
      simp only [step, eraseNode, next_ok (c'.ok t (by simp)), hf, hin', bind, Except.bind]
      rw [if_pos hp0]
      simp only [next_ok (c'.ok n (by simp [hm])), h2, e, specStep, hm, if_true, h3]
    · rw [if_neg hm] at hin'
      exact ⟨s, by simp [step, eraseNode, next_ok (c'.ok t (by simp)), hf, hin', hm, bind, Except.bind, specStep], by simpa [specStep, hm] using g⟩
  | removeIf t f =>
    have ht : t ∈ c.ts := hl
    have c' := gs.line t ht
    have hf : s.h.nx t = hd E (L t) := c'.nx_lst (X := [])
    obtain ⟨s', e, sm, g'⟩ := removeLoop_ok (f := f) ht (s.h.lim + 1) (A := []) (B := L t) gs (by simp) (by have := Line.len c'; omega)
    have e2 : removeLoop f t s (hd E (L t)) t (s.h.lim + 1) = .ok s' := e
    exact ⟨s', by simp [step, removeIf, next_ok (c'.ok t (by simp)), hf, e2, bind, Except.bind, specStep], g.next sm (by simpa [specStep] using g')⟩
  | removePtr t n =>
    have ht : t ∈ c.ts := hl
    have c' := gs.line t ht
    have hf : s.h.nx t = hd E (L t) := c'.nx_lst (X := [])
    obtain ⟨s', e, sm, g'⟩ := removePtrLoop_ok (n := n) ht (s.h.lim + 1) (A := []) (B := L t) gs (by simp) (by have := Line.len c'; omega)
    have e2 : removePtrLoop n t s (hd E (L t)) t (s.h.lim + 1) = .ok s' := e
    exact ⟨s', by simp [step, removePtr, next_ok (c'.ok t (by simp)), hf, e2, bind, Except.bind, specStep], g.next sm (by simpa [specStep] using g')⟩
  | unique t eq =>
    have ht : t ∈ c.ts := hl
    have c' := gs.line t ht
    cases h0 : L t with
    | nil =>
      refine ⟨s, by simp [step, unique, empty_ok gs ht, h0, bind, Except.bind, specStep], ?_⟩
      have : (specStep c L (.unique t eq)).1 = L := by simp only [specStep, h0, uniqueOf]; exact upd_self h0
      rw [this]; exact g
    | cons a l =>
      have c'' := c'; rw [h0] at c''
      obtain ⟨s', e, sm, g'⟩ := uniqueLoop_ok (eq := eq) ht (s.h.lim + 1) (A := []) (B := l) (p := a) gs (by simpa using h0) (by have := Line.len c''; simp at this; omega)
      have h1 : s.h.nx t = a := c''.nx_lst (X := [])
      have h2 : s.h.nx a = hd E l := Line.nx_mem (A := []) c''
      refine ⟨s', by simp [step, unique, empty_ok gs ht, h0, next_ok (c'.ok t (by simp)), h1, next_ok (c''.ok a (by simp)), h2, e, bind, Except.bind, specStep], g.next sm (by simpa [specStep, h0, uniqueOf] using g')⟩
  | sort t lt =>
    obtain ⟨ht, ho⟩ := hl
    obtain ⟨s', e, sm, g'⟩ := sort_ok ho gs ht
    exact ⟨s', by simp [step, e, bind, Except.bind, specStep], g.next sm g'⟩
  | splice t i u =>
    obtain ⟨ht, hu, hi⟩ := hl
    by_cases htu : u = t
    · subst htu
      exact ⟨s, by simp [step, g.iter' ht hi, splice, bind, Except.bind, specStep], by simpa [specStep] using g⟩
    · obtain ⟨s', e, sm, g'⟩ := splice_ok gs ht hu htu (List.take_append_drop i (L t)).symm
      exact ⟨s', by simp only [step, g.iter' ht hi, e, bind, Except.bind, specStep, htu, if_false], g.next sm (by simpa [specStep, htu] using g')⟩
  | spliceRange t i u j k =>
    obtain ⟨ht, hu, hi, hjk, hk, hno⟩ := hl
    have e3 := split3 (L u) j (k - 1 - j)
    rw [show j + (k - 1 - j) = k - 1 by omega] at e3
    have hM : ((L u).drop j).take (k - 1 - j) ≠ [] := by
      intro z; have := congrArg List.length z; rw [List.length_take, List.length_drop, List.length_nil] at this; omega
    have hjt := g.iter' hu (show j ≤ (L u).length by omega)
    have hkt := g.iter hu hk
    have hkn : nodeOf u (L u) k = hd E ((L u).drop (k - 1)) := by rw [hd_drop (t := u), show k - 1 + 1 = k by omega]
    rw [hkn] at hkt
    by_cases htu : u = t
    · subst htu
      obtain ⟨i', hi'⟩ : ∃ i', i' = (if i ≤ j then i else i - (k - 1 - j)) := ⟨_, rfl⟩
      have hpos : lst u ((L u).take i) = lst u (((L u).take j ++ (L u).drop (k - 1)).take i') := by
        rw [lst_take hi, lst_take (by rw [List.length_append, List.length_take, List.length_drop, hi']; split_ifs <;> omega)]
        rw [hi']
        cases i with
        | zero => simp [nodeOf]
        | succ i =>
          split_ifs with hij
          · simp only [nodeOf, List.getElem?_cons_succ]
            rw [List.getElem?_append_left (by rw [List.length_take]; omega), List.getElem?_take, if_pos (by omega)]
          · have h1 : k ≤ i + 1 := by have := hno rfl; omega
            rw [show i + 1 - (k - 1 - j) = (i - (k - 1 - j)) + 1 by omega]
            simp only [nodeOf, List.getElem?_cons_succ]
            rw [List.getElem?_append_right (by rw [List.length_take]; omega), List.length_take, Nat.min_eq_left (by omega), List.getElem?_drop]
            congr 2; omega
      obtain ⟨s', e, sm, g'⟩ := spliceRange_self gs hu e3 hM (List.take_append_drop i' ((L u).take j ++ (L u).drop (k - 1))).symm
      refine ⟨s', ?_, ?_⟩
      · simp only [step, g.iter' ht hi, hpos, hjt, hkt, e, bind, Except.bind, specStep, if_true]
      · simp only [specStep, if_true, moved, ← hi', show j + (k - 1 - j) = k - 1 by omega]; exact g.next sm g'
    · obtain ⟨s', e, sm, g'⟩ := spliceRange_two gs ht hu htu (List.take_append_drop i (L t)).symm e3 hM
      refine ⟨s', ?_, ?_⟩
      · simp only [step, g.iter' ht hi, hjt, hkt, e, bind, Except.bind, specStep, htu, if_false]
      · simp only [specStep, htu, if_false]; exact g.next sm g'
  | merge t u lt =>
    obtain ⟨ht, hu, ho, hso⟩ := hl
    have c1 := gs.line t ht
    have c2 := gs.line u hu
    by_cases htu : t = u
    · subst htu
      exact ⟨s, by simp [step, merge, specStep], by simpa [specStep] using g⟩
    · by_cases h0 : L u = []
      · exact ⟨s, by simp [step, merge, htu, empty_ok gs hu, h0, specStep], by simpa [specStep, h0] using g⟩
      · by_cases hs : SortedBy lt (L u) ∧ SortedBy lt (L t)
        · obtain ⟨s', e, sm, g'⟩ := merge_ok ho gs ht hu htu h0 hs.2 hs.1
          have hsp : specStep c L (.merge t u lt) = (upd (upd L t (isort lt (L t ++ L u))) u [], .ok) := by simp [specStep, htu, h0, hs]
          rw [hsp]
          exact ⟨s', by simp [step, e], g.next sm g'⟩
        · have hd : c.dbg = true := by tauto
          have hsp : specStep c L (.merge t u lt) = (L, .err .unsorted) := by simp [specStep, htu, h0, hs, hd]
          rw [hsp]
          refine ⟨s, ?_, g⟩
          have w1 := c1.walk (k := s.h.lim + 1) (by have := Line.len c1; omega)
          have w2 := c2.walk (k := s.h.lim + 1) (by have := Line.len c2; omega)
          have hb : (isSorted lt (L u) && isSorted lt (L t)) = false := by
            cases hx : isSorted lt (L u) with
            | false => rfl
            | true =>
              cases hy : isSorted lt (L t) with
              | false => rfl
              | true => exact absurd ⟨(isSorted_iff ho _).1 hx, (isSorted_iff ho _).1 hy⟩ hs
          simp [step, merge, htu, empty_ok gs hu, h0, next_ok (c1.ok t (by simp)), next_ok (c2.ok u (by simp)), w1, w2, hb, g.2.1, hd, bind, Except.bind]

theorem run_ok (os : List Op) : ∀ {s : St} {L : Nat → List Nat}, Good c s L → LegalRun c L os →
    ∃ s', run s os = .ok (s', (specRun c L os).2) ∧ Good c s' (specRun c L os).1 := by
  induction os with
  | nil => intro s L g _; exact ⟨s, rfl, g⟩
  | cons o os ih =>
    intro s L g hl
    obtain ⟨s1, e1, g1⟩ := step_ok g o hl.1
    obtain ⟨s2, e2, g2⟩ := ih g1 hl.2
    refine ⟨s2, ?_, g2⟩
    rw [run, e1]
    simp only [bind, Except.bind]
    rw [e2]; rfl
end

/-- The lists are distinct objects, none is the terminator, the heap holds them all. -/
def Cfg.Ok (c : Cfg) : Prop := 1 ≤ c.lim ∧ ∀ t ∈ c.ts, 1 < t ∧ t ≤ c.lim

theorem fresh_good (c : Cfg) (nd : c.Ok) : Good c (fresh c) (fun _ => []) := by
  refine ⟨rfl, rfl, rfl, fun t ht => ⟨?_, ?_, ?_, ?_⟩, ?_, ?_, fun _ _ => rfl, ⟨by decide, nd.1⟩⟩
  · refine ⟨rfl, ?_⟩; show _ = _; simp [fresh, ht]
  · simp
  · intro x hx; have : x = t := by simpa using hx
    subst this; have := nd.2 x ht; exact ⟨by omega, this.2⟩
  · have := nd.2 t ht; simp [E]; omega
  · intro t _ u _ htu x hx; have : x = t := by simpa using hx
    subst this; simpa using htu
  · intro x hx _
    have : x ∉ c.ts := fun z => by simpa using hx x z
    simp [fresh, this]

/-- **C63.** Starting from any number of freshly constructed lists and unlinked nodes, after any legal history of operations on any of the lists no invalid
link was followed and no loop ran forever, each operation reported what the specification says, traversal of every list gives the specified sequence, `size()` and
`empty()` match, lists share no node, and a node is linked exactly if it is in one of the lists. -/
theorem C63_intrusive_forward_list_refines (c : Cfg) (ht : c.Ok) (os : List Op) (hl : LegalRun c (fun _ => []) os) :
    ∃ s', run (fresh c) os = .ok (s', (specRun c (fun _ => []) os).2) ∧ Shows c s' (specRun c (fun _ => []) os).1 := by
  obtain ⟨s', e, g⟩ := run_ok os (fresh_good c ht) hl
  exact ⟨s', e, g.shows⟩

/-- A node that is in no list after the history reports itself as unlinked and occurs in no traversal, so it can be inserted again or destroyed. -/
theorem C63_removed_nodes_unreachable (c : Cfg) (ht : c.Ok) (os : List Op) (hl : LegalRun c (fun _ => []) os) (n : Nat) (h0 : Node c.lim c.ts n) (h3 : ¬ InSome c.ts (specRun c (fun _ => []) os).1 n) :
    ∃ s' rs, run (fresh c) os = .ok (s', rs) ∧ isLinked s'.h n = false ∧ ∀ t ∈ c.ts, ∀ l, forward s' t = .ok l → n ∉ l := by
  obtain ⟨s', e, g⟩ := C63_intrusive_forward_list_refines c ht os hl
  refine ⟨s', _, e, ?_, ?_⟩
  · cases hb : isLinked s'.h n with
    | false => rfl
    | true => exact absurd ((g.linked n h0).1 hb) h3
  · intro t htt l hf hn
    rw [g.fwd t htt] at hf; cases hf; exact h3 ⟨t, htt, hn⟩

/-- `sort` keeps elements that compare equal in their order: for every `a`, the elements equivalent to `a` appear in the same order as before, and nothing is lost. -/
theorem C63_sort_stable (c : Cfg) (ht : c.Ok) (os : List Op) (hl : LegalRun c (fun _ => []) os) (t : Nat) (htt : t ∈ c.ts) (lt : Nat → Nat → Bool) (ho : StrictWeak lt) :
    ∃ s1 r1 s2 r2 l1 l2, run (fresh c) os = .ok (s1, r1) ∧ run (fresh c) (os ++ [.sort t lt]) = .ok (s2, r2) ∧ forward s1 t = .ok l1 ∧ forward s2 t = .ok l2 ∧
      IsStableSort lt l1 l2 := by
  obtain ⟨s', e, g⟩ := run_ok os (fresh_good c ht) hl
  obtain ⟨s2, e2, g2⟩ := step_ok g (.sort t lt) ⟨htt, ho⟩
  have e3 : ∀ (os : List Op) (s0 s1 s2 : St) (r1 : List Out) (o : Op) (r : Out), run s0 os = .ok (s1, r1) → step s1 o = .ok (s2, r) → run s0 (os ++ [o]) = .ok (s2, r1 ++ [r]) := by
    intro os
    induction os with
    | nil => intro s0 s1 s2 r1 o r h1 h2; simp only [run, Except.ok.injEq, Prod.mk.injEq] at h1; obtain ⟨rfl, rfl⟩ := h1; simp [run, h2, bind, Except.bind]
    | cons p os ih =>
      intro s0 s1 s2 r1 o r h1 h2
      simp only [run, bind, Except.bind] at h1
      rw [List.cons_append, run]
      simp only [bind, Except.bind]
      cases hp : step s0 p with
      | error _ => rw [hp] at h1; simp at h1
      | ok v =>
        rw [hp] at h1; simp only at h1 ⊢
        cases hq : run v.1 os with
        | error _ => rw [hq] at h1; simp at h1
        | ok w =>
          rw [hq] at h1; simp only [Except.ok.injEq, Prod.mk.injEq] at h1
          rw [ih v.1 w.1 s2 w.2 o r hq (by rw [h1.1]; exact h2)]
          simp [← h1.2]
  have f1 := g.shows.fwd t htt
  have f2 := g2.shows.fwd t htt
  have hsp : (specStep c (specRun c (fun _ => []) os).1 (.sort t lt)).1 t = isort lt ((specRun c (fun _ => []) os).1 t) := by simp [specStep]
  rw [hsp] at f2
  exact ⟨_, _, _, _, _, _, e, e3 _ _ _ _ _ _ _ e e2, f1, f2, isort_stable ho _⟩

/-! ## Cases outside `Legal` -/

def exCfg : Cfg := ⟨[2, 3], 12, true, true⟩

/-- `splice_after` of an empty open range (`end_` directly behind `begin_`) is not a no-op: the target element is lost from its list, and the element given as
`begin_` is re-linked although nothing was to be moved. -/
theorem spliceRange_empty_broken : ∃ s rs, run (fresh exCfg) [.assign 2 [4, 5], .assign 3 [6, 7], .spliceRange 2 1 3 1 2] = .ok (s, rs) ∧
    forward s 2 = .ok [4, 7] ∧ s.sz 2 = 2 ∧ forward s 3 = .ok [6, 5] := by
  refine ⟨_, _, rfl, ?_, ?_, ?_⟩ <;> rfl

/-! ## The hypotheses are met by non-trivial runs -/

theorem exLt : StrictWeak (fun a b : Nat => decide (a < b)) := ⟨fun a => by simp, fun a b c h1 h2 => by simp at *; omega, fun a b c h1 h2 h3 h4 => by simp at *; omega⟩

def exOps : List Op :=
  [.assign 2 [6, 4, 5], .pushFront 3 8, .pushFront 3 7, .pushFront 3 6, .sort 2 (fun a b => decide (a < b)), .spliceRange 2 3 3 0 2, .merge 2 3 (fun a b => decide (a < b)), .reverse 2,
   .eraseAfter 2 1, .insertAfter 2 0 9, .spliceRange 2 0 2 1 3, .eraseNode 2 5, .insertRange 3 0 [10, 11], .splice 2 1 3, .removeIf 2 (fun n => n == 8), .removePtr 2 4, .eraseRange 2 1 3, .popFront 2]

example : exCfg.Ok := ⟨by decide, by decide⟩
example : (run (fresh exCfg) exOps).map (fun r => (forward r.1 2, forward r.1 3, r.2)) =
    .ok (.ok [9, 6], .ok [], [.ok, .ok, .ok, .err .linked, .ok, .ok, .ok, .ok, .at 6, .at 9, .ok, .at 4, .ok, .ok, .ok, .ok, .at 9, .ok]) := by rfl

example : LegalRun exCfg (fun _ => []) exOps := by
  refine ⟨?_, ?_, ?_, ?_, ⟨by decide, exLt⟩, ?_, ⟨by decide, by decide, exLt, Or.inl rfl⟩, ?_, ?_, ?_, ?_, ?_, ?_, ?_, ?_, ?_, ?_, ?_, trivial⟩ <;> (try unfold Legal Node) <;> (try unfold Legal) <;> decide

end Etl.IFList
