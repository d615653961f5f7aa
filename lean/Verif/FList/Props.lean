import Verif.FList.Ops

/-!
# Properties of `etl::forward_list` (C13)
-/
namespace Etl.FList
open FLinks
variable {α : Type}

/-! ## Specification: a list of at most `cap` elements

Positions are counted from `before_begin()`: position 0 is `before_begin()`, position `i+1` is element `i`, position `size()+1` is `end()`. -/

/-- What is fixed for a list object: capacity, compile-time options, `is_trivially_destructible<T>`. -/
structure Cfg where
  cap : Nat
  check : Bool
  dbg : Bool
  triv : Bool

/-- The elements `[j, k)` moved in front of element `i`. -/
def moved (l : List α) (i j k : Nat) : List α :=
  if i ≤ j then l.take i ++ (l.drop j).take (k - j) ++ (l.drop i).take (j - i) ++ l.drop k
  else l.take j ++ (l.drop k).take (i - k) ++ (l.drop j).take (k - j) ++ l.drop i

/-- `unique` of a list: of each run, keep the first. -/
def uniqueOf (eq : α → α → Bool) : List α → List α
  | [] => []
  | a :: l => uniq eq a l

/-- Effect of an operation on the contents, and what it reports. -/
def specStep (c : Cfg) (l : List α) : Op α → List α × Out
  | .assign vs => if vs.length ≤ c.cap then (vs, .ok) else (vs.take c.cap, .err .full)
  | .assignN n v => if n ≤ c.cap then (List.replicate n v, .ok) else (l, .err .full)
  | .clear => ([], .ok)
  | .resize n v => if n ≤ c.cap then (l.take n ++ List.replicate (n - l.length) v, .ok) else (l, .err .full)
  | .pushFront v => if l.length < c.cap then (v :: l, .ok) else (l, .err (if c.check then .full else .noAlloc))
  | .popFront => if l = [] ∧ c.check = true then (l, .err .empty) else (l.tail, .ok)
  | .insertAfter i v => if l.length < c.cap then (l.take i ++ v :: l.drop i, .at (i + 1)) else (l, .err .full)
  | .insertN i n v => if l.length < c.cap then (l.take i ++ List.replicate (min n (c.cap - l.length)) v ++ l.drop i, .at (if n = 0 then i else i + 1)) else (l, .err .full)
  | .insertRange i vs => if l.length + vs.length ≤ c.cap then (l.take i ++ vs ++ l.drop i, .at (i + vs.length))
      else if c.dbg then (l, .err .full) else (l.take i ++ vs.take (c.cap - l.length) ++ l.drop i, .err .noAlloc)
  | .eraseAfter i => if i < l.length then (l.eraseIdx i, .at (i + 1)) else (l, .at (l.length + 1))
  | .eraseRange i j => if i < j then (l.take i ++ l.drop (j - 1), .at (i + 1)) else (l, .at (l.length + 1))
  | .moveAfter i j => if i = j then (l, .ok) else (moved l j i (i + 1), .ok)
  | .moveRange i j k => if k = i ∨ k = j then (l, .ok) else if i < k ∧ k < j then (l, .err .iterator) else (moved l k i (j - 1), .ok)
  | .removeIf f => (l.filter (fun x => !f x), .ok)
  | .unique eq => (uniqueOf eq l, .ok)
  | .reverse => (l.reverse, .ok)
  | .sort lt => (isort lt l, .ok)

/-- Preconditions: iterators are valid (for `insert_after` dereferenceable or `before_begin()`), the comparison is a strict weak order.
`move_after` of one element: there is an element after `from_before`, and it is not the element `to_before` itself (see `move_after_itself_loses`).
`move_after` of a range: unless it is a no-op the range is not empty (see `move_empty_range_broken`). -/
def Legal (_ : Cfg) (l : List α) : Op α → Prop
  | .assign _ | .assignN _ _ | .clear | .resize _ _ | .pushFront _ | .popFront | .removeIf _ | .unique _ | .reverse => True
  | .insertAfter i _ | .insertN i _ _ | .insertRange i _ => i ≤ l.length
  | .eraseAfter i => i ≤ l.length + 1
  | .eraseRange i j => i ≤ j ∧ j ≤ l.length + 1
  | .moveAfter i j => i = j ∧ i ≤ l.length + 1 ∨ i < l.length ∧ j ≤ l.length ∧ j ≠ i + 1
  | .moveRange i j k => i ≤ l.length + 1 ∧ j ≤ l.length + 1 ∧ k ≤ l.length + 1 ∧ (k = i ∨ k = j ∨ i + 2 ≤ j ∧ k ≤ l.length)
  | .sort lt => StrictWeak lt

/-- Effect of an operation on a pair of lists. -/
def specStep2 (ca cb : Cfg) (l : List α × List α) : Op2 α → (List α × List α) × Out
  | .fst o => (((specStep ca l.1 o).1, l.2), (specStep ca l.1 o).2)
  | .snd o => ((l.1, (specStep cb l.2 o).1), (specStep cb l.2 o).2)
  | .copy => (((specStep ca l.1 (.assign l.2)).1, l.2), (specStep ca l.1 (.assign l.2)).2)
  | .moveAssign => ((l.2, []), .ok)

/-- Preconditions of the operations on two lists: a move fits. -/
def Legal2 (ca cb : Cfg) (l : List α × List α) : Op2 α → Prop
  | .fst o => Legal ca l.1 o
  | .snd o => Legal cb l.2 o
  | .copy => True
  | .moveAssign => l.2.length ≤ ca.cap

def specRun (ca cb : Cfg) (l : List α × List α) : List (Op2 α) → (List α × List α) × List Out
  | [] => (l, [])
  | o :: os =>
    let (l', e) := specStep2 ca cb l o
    let (l'', es) := specRun ca cb l' os
    (l'', e :: es)

def LegalRun (ca cb : Cfg) (l : List α × List α) : List (Op2 α) → Prop
  | [] => True
  | o :: os => Legal2 ca cb l o ∧ LegalRun ca cb (specStep2 ca cb l o).1 os

/-! ## What a user sees -/

/-- `front()`, l.559-567 (the list is not empty). -/
def front (s : St α) : Res α := do read s (← s.h.next S)

/-- Every observation of the list agrees with `l`; the nodes taken from the pool are exactly `size()` many and exactly these hold live values. -/
structure Shows (c : Cfg) (s : St α) (l : List α) : Prop where
  fwd : values s = .ok l
  size : size s = l.length
  le : l.length ≤ c.cap
  empty : empty s = .ok (decide (l = []))
  full : full s = decide (l.length = c.cap)
  avail : available s = c.cap - l.length
  front : ∀ v, l.head? = some v → front s = .ok v
  nodes : c.cap - s.free.length = l.length
  live : ((items c.cap).map s.val).Perm (l.map Cell.live ++ List.replicate (c.cap - l.length) .raw)

/-! ## Refinement -/

@[reducible] def cfgOf (s : St α) : Cfg := ⟨s.cap, s.check, s.dbg, s.triv⟩

abbrev Has (s : St α) (l : List α) : Prop := ∃ ns, Inv s ns ∧ Vals s ns l

def Good (c : Cfg) (s : St α) (l : List α) : Prop := cfgOf s = c ∧ Has s l

theorem Same.cfg {s s' : St α} (h : Same s s') : cfgOf s' = cfgOf s := by
  obtain ⟨h1, h2, h3, h4⟩ := h; simp [cfgOf, h1, h2, h3, h4]

section Steps
variable {s : St α} {l : List α}

/-- Splitting at a valid position. -/
theorem Has.at (h : Has s l) {i : Nat} (hi : i ≤ l.length) :
    ∃ X B, Inv s (X ++ B) ∧ Vals s X (l.take i) ∧ Vals s B (l.drop i) ∧ X.length = i ∧ B.length = l.length - i ∧ iter s i = .ok (lst S X) ∧ iter s (i + 1) = .ok (hd 0 B) := by
  obtain ⟨ns, inv, hv⟩ := h
  rw [← List.take_append_drop i l] at hv
  obtain ⟨A, B, rfl, h1, h2⟩ := hv.split
  have hA : A.length = i := by rw [h1.len, List.length_take]; omega
  have hB : B.length = l.length - i := by rw [h2.len, List.length_drop]
  refine ⟨A, B, inv, h1, h2, hA, hB, ?_, ?_⟩
  · rw [← hA]; exact iter_ok inv
  · rw [← hA]; exact iter_hd inv

/-- Splitting at two valid positions. -/
theorem Has.at2 (h : Has s l) {i j : Nat} (hij : i ≤ j) (hj : j ≤ l.length) :
    ∃ X M B, Inv s (X ++ M ++ B) ∧ Vals s X (l.take i) ∧ Vals s M ((l.drop i).take (j - i)) ∧ Vals s B (l.drop j) ∧ X.length = i ∧ M.length = j - i ∧ B.length = l.length - j ∧
      iter s i = .ok (lst S X) ∧ iter s (j + 1) = .ok (hd 0 B) := by
  obtain ⟨X, R, inv, hX, hR, lX, lR, e1, _⟩ := h.at (Nat.le_trans hij hj)
  rw [← List.take_append_drop (j - i) (l.drop i)] at hR
  obtain ⟨M, B, rfl, hM, hB⟩ := hR.split
  rw [List.drop_drop, show i + (j - i) = j by omega] at hB
  have lM : M.length = j - i := by rw [hM.len, List.length_take, List.length_drop]; omega
  have i' : Inv s (X ++ M ++ B) := by simpa using inv
  refine ⟨X, M, B, i', hX, hM, hB, lX, lM, by simp at lR; omega, e1, ?_⟩
  have := iter_hd (X := X ++ M) i'
  rw [List.length_append, lX, lM, show i + (j - i) = j by omega] at this; exact this

theorem Has.le (h : Has s l) : l.length ≤ s.cap := by
  obtain ⟨ns, inv, hv⟩ := h; rw [← hv.len]; exact inv.len
theorem Has.sz (h : Has s l) : FList.size s = l.length := by
  obtain ⟨ns, inv, hv⟩ := h; rw [inv.pl.size, hv.len]
theorem Has.fullb (h : Has s l) : FList.full s = decide (l.length = s.cap) := by
  obtain ⟨ns, inv, hv⟩ := h; rw [inv.pl.full_len, hv.len]
theorem Has.emptyb (h : Has s l) : FList.empty s = .ok (decide (l = [])) := by
  obtain ⟨ns, inv, hv⟩ := h
  rw [empty_ok inv]
  have : ns = [] ↔ l = [] := by rw [← List.length_eq_zero_iff, hv.len, List.length_eq_zero_iff]
  simp only [this]

/-- The form in which each operation is proved. -/
abbrev Does (s : St α) (r : Res (St α × Out)) (p : List α × Out) : Prop :=
  ∃ s', r = .ok (s', p.2) ∧ Same s s' ∧ Has s' p.1

theorem Has.cast {l' : List α} (h : Has s l) (e : l = l') : Has s l' := e ▸ h

theorem initialise_has (h : Has s l) : ∃ s', initialise s = .ok s' ∧ Inv s' [] ∧ Same s s' := by
  obtain ⟨ns, inv, hv⟩ := h; exact initialise_ok inv

theorem assign_ok (h : Has s l) (vs : List α) : Does s (assign s vs) (specStep (cfgOf s) l (.assign vs)) := by
  obtain ⟨s1, e1, i1, sm1⟩ := initialise_has h
  obtain ⟨s2, N, e2, i2, sm2, v2, _⟩ := assignLoop_ok vs i1
  simp only [lst_nil, List.length_nil, Nat.zero_add, sm1.1, Nat.sub_zero, List.nil_append] at e2 i2 v2
  refine ⟨s2, ?_, sm1.trans sm2, N, i2, ?_⟩
  · simp only [assign, e1, e2, bind, Except.bind, specStep, cfgOf]
    split_ifs <;> rfl
  · simp only [specStep, cfgOf]
    split_ifs with hc
    · rw [List.take_of_length_le hc] at v2; exact v2
    · exact v2

theorem assignN_ok (h : Has s l) (n : Nat) (v : α) : Does s (assignN s n v) (specStep (cfgOf s) l (.assignN n v)) := by
  simp only [specStep, cfgOf, assignN]
  by_cases hc : n ≤ s.cap
  · obtain ⟨s1, e1, i1, sm1⟩ := initialise_has h
    obtain ⟨s2, N, e2, i2, sm2, v2, _⟩ := fillLoop_ok v n n i1 (by rw [sm1.1]; exact hc) (by simp)
    rw [if_pos hc, if_pos hc]
    exact ⟨s2, by simp only [lst_nil] at e2; simp only [e1, e2, bind, Except.bind], sm1.trans sm2, N, by simpa using i2, by simpa using v2⟩
  · rw [if_neg hc, if_neg hc]; exact ⟨s, rfl, Same.refl s, h⟩

theorem clear_ok (h : Has s l) : Does s (clear s) ([], .ok) := by
  obtain ⟨s1, e1, i1, sm1⟩ := initialise_has h
  exact ⟨s1, by simp only [clear, e1, bind, Except.bind], sm1, [], i1, by simp [Vals]⟩

theorem resize_ok (h : Has s l) (n : Nat) (v : α) : Does s (resize s n v) (specStep (cfgOf s) l (.resize n v)) := by
  simp only [specStep, cfgOf, resize]
  by_cases hc : n ≤ s.cap
  · rw [if_pos hc, if_pos hc]
    by_cases hn : n = 0
    · subst hn
      rw [if_pos rfl]
      have := clear_ok h
      simpa using this
    · rw [if_neg hn]
      by_cases hl : l = []
      · subst hl
        obtain ⟨s', e, sm, g⟩ := assignN_ok h n v
        simp only [specStep, cfgOf, hc, if_true] at e g
        exact ⟨s', by simp [h.emptyb, e, bind, Except.bind], sm, by simpa using g⟩
      · have hem := h.emptyb
        obtain ⟨ns, inv, hv⟩ := h
        have hns : ns ≠ [] := by rintro rfl; have := hv.len; simp at this; exact hl (List.length_eq_zero_iff.1 this.symm)
        have hfl := findLoop_ok (n := n) ns (s.cap + 1) 0 (s.h.nx S) 0 inv.line.first (fun x => inv.line.ne (by simp [x])) (fun x hx => inv.valid hx) (by have := inv.len; omega)
        simp only [Nat.sub_zero, Nat.zero_add] at hfl
        have hlst : lst 0 (ns.take n) = lst S (ns.take n) := by
          obtain ⟨a, N, rfl⟩ := List.exists_cons_of_ne_nil hns
          obtain ⟨m, rfl⟩ : ∃ m, n = m + 1 := ⟨n - 1, by omega⟩
          rfl
        rw [hlst] at hfl
        have hbase : ∀ r, (if hd 0 (ns.drop n) ≠ 0 then (do
              let (s, _) ← eraseRange s (lst S (ns.take n)) 0
              .ok (s, .ok)) else growLoop s v (lst S (ns.take n)) (n - min n ns.length)) = r →
            (do if ← FList.empty s then assignN s n v else do
              let (i, node, last) ← findLoop s.h n (s.cap + 1) 0 (← s.h.next S) 0
              if node ≠ 0 then do
                let (s, _) ← eraseRange s last 0
                .ok (s, .ok)
              else growLoop s v last (n - i)) = r := by
          intro r hr
          rw [← hr]
          simp only [hem, hl, next_ok inv.line.tv, hfl, bind, Except.bind]; simp
        have hsp : ns = ns.take n ++ ns.drop n ++ [] := by simp
        have invs : Inv s (ns.take n ++ ns.drop n ++ []) := by simpa using inv
        have hvt : Vals s (ns.take n) (l.take n) := by rw [Vals, List.map_take, hv, List.map_take]
        by_cases hd0 : ns.drop n = []
        · have hle : ns.length ≤ n := by have := List.drop_eq_nil_iff.1 hd0; exact this
          have htk : ns.take n = ns := List.take_of_length_le hle
          have hll := hv.len
          have hmin : n - min n ns.length = n - ns.length := by omega
          obtain ⟨s', N, e, i', sm, v', vo⟩ := growLoop_ok v (n - ns.length) inv (by omega)
          refine ⟨s', ?_, sm, ns ++ N, i', ?_⟩
          · refine hbase _ ?_
            rw [hd0, hd_nil, if_neg (by simp), htk, hmin]; exact e
          · rw [List.take_of_length_le (by omega), ← hv.len]
            exact (hv.congr vo).append v'
        · have hlt : n < ns.length := by
            by_contra hx; exact hd0 (List.drop_eq_nil_iff.2 (by omega))
          have hll := hv.len
          obtain ⟨s', e, i', sm, vo⟩ := eraseRange_ok invs
          rw [hd_nil] at e
          refine ⟨s', ?_, sm, ns.take n, by simpa using i', ?_⟩
          · refine hbase _ ?_
            rw [if_pos]
            · simp only [e, bind, Except.bind]
            · obtain ⟨b, B, hb⟩ := List.exists_cons_of_ne_nil hd0
              rw [hb, hd_cons]
              exact inv.ne0 (by have : b ∈ ns.drop n := by simp [hb]
                                exact List.mem_of_mem_drop this)
          · rw [show n - l.length = 0 by omega]
            simp only [List.replicate_zero, List.append_nil]
            exact hvt.congr (fun y hy => vo y (by simp [hy]))
  · rw [if_neg hc, if_neg hc]; exact ⟨s, rfl, Same.refl s, h⟩

theorem addAt_ok (h : Has s l) {i : Nat} (hi : i ≤ l.length) (v : α) (hc : l.length < s.cap) {p : Nat} (hp : iter s i = .ok p) :
    ∃ s' n, FList.full s = false ∧ addAfter s p v = .ok (s', some n) ∧ Same s s' ∧ Has s' (l.take i ++ v :: l.drop i) ∧ position s' n = .ok (i + 1) := by
  obtain ⟨X, B, inv, hX, hB, lX, lB, e1, _⟩ := h.at hi
  rw [hp] at e1; cases e1
  obtain ⟨hf, hfr⟩ := inv.not_full (by simp; omega)
  obtain ⟨s', n, e, i', sm, v1, v2⟩ := addAfter_ok inv hfr v
  refine ⟨s', n, hf, e, sm, ⟨X ++ [n] ++ B, i', ?_⟩, ?_⟩
  · rw [show l.take i ++ v :: l.drop i = l.take i ++ [v] ++ l.drop i by simp]
    exact ((hX.congr (fun y hy => v2 y (by simp [hy]))).append (Vals.one v1)).append (hB.congr (fun y hy => v2 y (by simp [hy])))
  · have := position_ok (X := X ++ [n]) i'
    simpa [lX] using this

theorem addAt_full (h : Has s l) (hc : ¬ l.length < s.cap) (p : Nat) (v : α) : FList.full s = true ∧ addAfter s p v = .ok (s, none) := by
  obtain ⟨ns, inv, hv⟩ := h
  obtain ⟨h1, h2⟩ := inv.is_full (by rw [hv.len]; exact hc)
  exact ⟨h1, addAfter_full h2 p v⟩

theorem pushFront_ok (h : Has s l) (v : α) : Does s (pushFront s v) (specStep (cfgOf s) l (.pushFront v)) := by
  simp only [specStep, cfgOf]
  by_cases hc : l.length < s.cap
  · obtain ⟨s', n, hf, e, sm, g, _⟩ := addAt_ok h (i := 0) (Nat.zero_le _) v hc (p := S) rfl
    rw [if_pos hc]
    exact ⟨s', by simp [pushFront, hf, e, bind, Except.bind], sm, by simpa using g⟩
  · obtain ⟨hf, e⟩ := addAt_full h hc S v
    rw [if_neg hc]
    refine ⟨s, ?_, Same.refl s, h⟩
    by_cases hk : s.check = true <;> simp [pushFront, hf, hk, e, bind, Except.bind]

theorem popFront_ok (h : Has s l) : Does s (popFront s) (specStep (cfgOf s) l .popFront) := by
  simp only [specStep, cfgOf]
  have hem := h.emptyb
  by_cases hl : l = []
  · subst hl
    by_cases hk : s.check = true
    · rw [if_pos ⟨rfl, hk⟩]
      exact ⟨s, by simp [popFront, hem, hk, bind, Except.bind], Same.refl s, h⟩
    · rw [if_neg (fun x => hk x.2)]
      obtain ⟨ns, inv, hv⟩ := h
      have := hv.nil_split; subst this
      have hr := removeNodeAfter_none inv
      rw [lst_nil] at hr
      exact ⟨s, by simp [popFront, hem, hk, hr, bind, Except.bind], Same.refl s, [], inv, hv⟩
  · rw [if_neg (fun x => hl x.1)]
    obtain ⟨ns, inv, hv⟩ := h
    obtain ⟨v, l0, rfl⟩ := List.exists_cons_of_ne_nil hl
    obtain ⟨x, N, rfl, hx, hN⟩ := hv.cons_split
    obtain ⟨s', e, i', sm, vo⟩ := removeNodeAfter_ok (X := []) inv
    rw [lst_nil] at e
    exact ⟨s', by simp [popFront, hem, e, bind, Except.bind], sm, N, i', by simpa using hN.congr (fun y hy => vo y (by simp [hy]))⟩

theorem insertAfter_ok (h : Has s l) {i : Nat} (hi : i ≤ l.length) (v : α) : Does s (step s (.insertAfter i v)) (specStep (cfgOf s) l (.insertAfter i v)) := by
  simp only [specStep, cfgOf]
  obtain ⟨X, B, inv, hX, hB, lX, lB, hit, _⟩ := h.at hi
  by_cases hc : l.length < s.cap
  · obtain ⟨s', n, hf, e, sm, g, hp⟩ := addAt_ok h hi v hc hit
    rw [if_pos hc]
    exact ⟨s', by simp [step, insertAfter, hit, hf, e, hp, bind, Except.bind], sm, g⟩
  · obtain ⟨hf, e⟩ := addAt_full h hc (lst S X) v
    rw [if_neg hc]
    exact ⟨s, by simp [step, insertAfter, hit, hf, bind, Except.bind], Same.refl s, h⟩

theorem insertN_ok (h : Has s l) {i : Nat} (hi : i ≤ l.length) (n : Nat) (v : α) : Does s (step s (.insertN i n v)) (specStep (cfgOf s) l (.insertN i n v)) := by
  simp only [specStep, cfgOf]
  obtain ⟨X, B, inv, hX, hB, lX, lB, hit, _⟩ := h.at hi
  by_cases hc : l.length < s.cap
  · obtain ⟨hf, _⟩ := inv.not_full (by simp; omega)
    obtain ⟨s', N, e, i', sm, v1, v2⟩ := insertNLoop_ok v n inv
    rw [show X.length + B.length = l.length by omega] at v1
    rw [if_pos hc]
    have i2 : Inv s' (X ++ (N ++ B)) := by simpa using i'
    have g : Has s' (l.take i ++ List.replicate (min n (s.cap - l.length)) v ++ l.drop i) :=
      ⟨_, i', ((hX.congr (fun y hy => v2 y (by simp [hy]))).append v1).append (hB.congr (fun y hy => v2 y (by simp [hy])))⟩
    refine ⟨s', ?_, sm, g⟩
    by_cases hn : n = 0
    · subst hn
      have hp := position_ok i2
      simp [step, insertN, hit, hf, e, hp, lX, bind, Except.bind]
    · have hnx := i2.nxl
      have hp := position_hd i2
      have : 0 < n := by omega
      simp [step, insertN, hit, hf, e, hnx, hp, lX, hn, this, bind, Except.bind]
  · obtain ⟨hf, _⟩ := inv.is_full (by simp; omega)
    rw [if_neg hc]
    exact ⟨s, by simp [step, insertN, hit, hf, bind, Except.bind], Same.refl s, h⟩

theorem insertRange_ok (h : Has s l) {i : Nat} (hi : i ≤ l.length) (vs : List α) : Does s (step s (.insertRange i vs)) (specStep (cfgOf s) l (.insertRange i vs)) := by
  simp only [specStep, cfgOf]
  have hsz := h.sz
  obtain ⟨X, B, inv, hX, hB, lX, lB, hit, _⟩ := h.at hi
  obtain ⟨s', N, e, i', sm, v1, v2⟩ := insertRangeLoop_ok vs inv
  rw [show X.length + B.length = l.length by omega] at e v1
  have g : Has s' (l.take i ++ vs.take (s.cap - l.length) ++ l.drop i) :=
    ⟨_, i', ((hX.congr (fun y hy => v2 y (by simp [hy]))).append v1).append (hB.congr (fun y hy => v2 y (by simp [hy])))⟩
  by_cases hc : l.length + vs.length ≤ s.cap
  · rw [if_pos hc] at e
    rw [if_pos hc]
    have hp := position_ok i'
    rw [List.length_append, v1.len, List.length_take, Nat.min_eq_right (show vs.length ≤ s.cap - l.length by omega), lX] at hp
    rw [List.take_of_length_le (l := vs) (by omega)] at g
    refine ⟨s', ?_, sm, g⟩
    have hg : ¬ (s.dbg && !decide (vs.length + FList.size s ≤ s.cap)) = true := by
      rw [hsz, decide_eq_true (by omega)]; simp
    simp only [step, insertRange, hit, bind, Except.bind]
    rw [if_neg hg]
    simp only [e, hp]
  · rw [if_neg hc] at e
    rw [if_neg hc]
    have hd' : decide (vs.length + l.length ≤ s.cap) = false := decide_eq_false (by omega)
    by_cases hk : s.dbg = true
    · rw [if_pos hk]
      exact ⟨s, by simp only [step, insertRange, hit, hsz, hk, hd', bind, Except.bind]; simp, Same.refl s, h⟩
    · rw [if_neg hk]
      have hk' : s.dbg = false := by simpa using hk
      exact ⟨s', by simp only [step, insertRange, hit, hsz, hk', e, bind, Except.bind]; simp [e], sm, g⟩

theorem iter_last (h : Has s l) : iter s (l.length + 1) = .ok 0 := by
  obtain ⟨ns, inv, hv⟩ := h; rw [← hv.len]; exact iter_end inv
theorem position_last (h : Has s l) : position s 0 = .ok (l.length + 1) := by
  obtain ⟨ns, inv, hv⟩ := h; rw [← hv.len]; exact position_end inv

theorem eraseAfterOp_ok (h : Has s l) {i : Nat} (hi : i ≤ l.length + 1) : Does s (step s (.eraseAfter i)) (specStep (cfgOf s) l (.eraseAfter i)) := by
  simp only [specStep]
  by_cases hc : i < l.length
  · rw [if_pos hc]
    obtain ⟨X, B, inv, hX, hB, lX, lB, hit, _⟩ := h.at (Nat.le_of_lt hc)
    rw [List.drop_eq_getElem_cons hc] at hB
    obtain ⟨x, N, rfl, hx, hN⟩ := hB.cons_split
    obtain ⟨s', e, i', sm, vo⟩ := eraseAfter_ok inv
    have hp := position_hd i'
    refine ⟨s', by simp [step, hit, e, hp, lX, bind, Except.bind], sm, X ++ N, i', ?_⟩
    rw [List.eraseIdx_eq_take_drop_succ]
    exact (hX.congr (fun y hy => vo y (by simp [hy]))).append (hN.congr (fun y hy => vo y (by simp [hy])))
  · rw [if_neg hc]
    refine ⟨s, ?_, Same.refl s, h⟩
    have hp := position_last h
    by_cases he : i = l.length
    · subst he
      obtain ⟨X, B, inv, hX, hB, lX, lB, hit, _⟩ := h.at (Nat.le_refl _)
      have : B = [] := List.eq_nil_of_length_eq_zero (by omega)
      subst this
      have e := eraseAfter_none (X := X) (by simpa using inv)
      simp [step, hit, e, hp, bind, Except.bind]
    · have : i = l.length + 1 := by omega
      subst this
      simp [step, iter_last h, eraseAfter, hp, bind, Except.bind]

theorem eraseRangeOp_ok (h : Has s l) {i j : Nat} (hij : i ≤ j) (hj : j ≤ l.length + 1) : Does s (step s (.eraseRange i j)) (specStep (cfgOf s) l (.eraseRange i j)) := by
  simp only [specStep]
  by_cases hc : i < j
  · rw [if_pos hc]
    obtain ⟨X, M, B, inv, hX, hM, hB, lX, lM, lB, e1, e2⟩ := h.at2 (i := i) (j := j - 1) (by omega) (by omega)
    rw [show j - 1 + 1 = j by omega] at e2
    obtain ⟨s', e, i', sm, vo⟩ := eraseRange_ok inv
    have hp := position_hd i'
    refine ⟨s', by simp [step, e1, e2, e, hp, lX, bind, Except.bind], sm, X ++ B, i', ?_⟩
    exact (hX.congr (fun y hy => vo y (by simp [hy]))).append (hB.congr (fun y hy => vo y (by simp [hy])))
  · have : i = j := by omega
    subst this
    rw [if_neg hc]
    refine ⟨s, ?_, Same.refl s, h⟩
    have hp := position_last h
    obtain ⟨p, hpi⟩ : ∃ p, iter s i = .ok p := by
      by_cases he : i ≤ l.length
      · obtain ⟨X, B, inv, _, _, _, _, hit, _⟩ := h.at he; exact ⟨_, hit⟩
      · have : i = l.length + 1 := by omega
        subst this; exact ⟨0, iter_last h⟩
    simp [step, hpi, eraseRange, hp, bind, Except.bind]

theorem removeIf_ok (h : Has s l) (f : α → Bool) : Does s (removeIf f s) (l.filter (fun x => !f x), .ok) := by
  have hle := h.le
  obtain ⟨ns, inv, hv⟩ := h
  obtain ⟨s', B', e, i', sm, v1, _⟩ := removeLoop_ok f (s.cap + 1) (X := []) inv hv (by omega)
  rw [lst_nil] at e
  exact ⟨s', by simp only [removeIf, inv.nxS, e, bind, Except.bind], sm, B', i', v1⟩

theorem unique_ok (h : Has s l) (eq : α → α → Bool) : Does s (unique eq s) (uniqueOf eq l, .ok) := by
  have hle := h.le
  have hem := h.emptyb
  cases l with
  | nil => exact ⟨s, by simp [unique, hem, bind, Except.bind], Same.refl s, h⟩
  | cons a l =>
    obtain ⟨ns, inv, hv⟩ := h
    obtain ⟨x, N, rfl, hx, hN⟩ := hv.cons_split
    have hnx := (show Inv s ([x] ++ N) from inv).nxl
    rw [show lst S [x] = x from rfl] at hnx
    obtain ⟨s', B', e, i', sm, v1, _⟩ := uniqueLoop_ok eq (s.cap + 1) (X := []) (p := x) inv hx hN (by simp at hle; omega)
    exact ⟨s', by simp [unique, hem, inv.nxS, hnx, e, bind, Except.bind], sm, B', i', v1⟩

theorem reverse_ok (h : Has s l) : Does s (reverse s) (l.reverse, .ok) := by
  have hsz := h.sz
  unfold reverse
  rw [hsz]
  by_cases h2 : l.length < 2
  · rw [if_pos h2]
    have : l.reverse = l := by
      rcases l with _ | ⟨a, _ | ⟨b, l⟩⟩
      · rfl
      · rfl
      · exact absurd h2 (by simp)
    exact ⟨s, rfl, Same.refl s, h.cast this.symm⟩
  · rw [if_neg h2]
    have hle := h.le
    obtain ⟨ns, inv, hv⟩ := h
    have hlen := hv.len
    obtain ⟨x, N, rfl⟩ : ∃ x N, ns = x :: N := by
      cases ns with
      | nil => simp at hlen; omega
      | cons x N => exact ⟨x, N, rfl⟩
    have hnx := (show Inv s ([x] ++ N) from inv).nxl
    rw [show lst S [x] = x from rfl] at hnx
    have hxv := inv.valid (x := x) (by simp)
    have hnxx : s.h.nx x = hd 0 N := by have := hnx; rw [next_ok hxv] at this; exact Except.ok.inj this
    have hnd := inv.line.nd
    have hxN : x ∉ N := (List.nodup_cons.1 inv.nodup).1
    have sg : Seg (s.h.linked x 0).nx (hd 0 N) N 0 := by
      have := inv.line.first.2
      rw [hnxx] at this
      exact this.upd hxN
    have sgx : Seg (s.h.linked x 0).nx x [x] 0 := by simp [Seg]
    obtain ⟨h', p, e1, l1, sg1, f1⟩ := revLoop_ok (s.cap + 1) sg sgx (by
      have := inv.nodup; exact (List.perm_append_singleton x N).nodup_iff.2 this) (fun y => inv.line.ne (by simp [y])) (fun y hy => inv.valid (x := y) (by simp [hy])) (by simp at hlen; omega)
    have hSv : h'.valid S := by have := inv.line.tv; unfold FLinks.valid at this ⊢; rw [l1]; exact this
    have hperm : (N.reverse ++ [x]).Perm (x :: N) := by
      rw [← List.reverse_cons]; exact List.reverse_perm _
    have hSn : S ∉ N.reverse ++ [x] := fun y => (List.nodup_cons.1 hnd).1 (hperm.mem_iff.1 y)
    have hc : Line (h'.linked S p) S 0 (N.reverse ++ [x]) := by
      refine ⟨⟨rfl, ?_⟩, ?_, ?_, ?_⟩
      · simp only [linked_nx, upd_same]; exact sg1.upd hSn
      · exact List.nodup_cons.2 ⟨hSn, hperm.nodup_iff.2 inv.nodup⟩
      · intro y hy
        have : y ∈ S :: x :: N := by
          rcases List.mem_cons.1 hy with h | h
          · simp [h]
          · exact List.mem_cons_of_mem _ (hperm.mem_iff.1 h)
        have := inv.line.ok y this
        unfold FLinks.valid at this ⊢; rw [linked_lim, l1]; exact this
      · intro y
        rcases List.mem_cons.1 y with h | h
        · cases h
        · exact inv.line.ne (List.mem_cons_of_mem _ (hperm.mem_iff.1 h))
    refine ⟨{ s with h := h'.linked S p }, ?_, ⟨rfl, rfl, rfl, rfl⟩, N.reverse ++ [x], ⟨hc, Pl.perm (U := x :: N) (inv.pl.links (by simpa using l1)) hperm.symm⟩, ?_⟩
    · simp only [inv.nxS, hd_cons, hnx, join_ok hxv, e1, join_ok hSv, bind, Except.bind]
    · show (N.reverse ++ [x]).map s.val = _
      rw [← List.reverse_cons, List.map_reverse, hv, List.map_reverse]

theorem sort_ok (h : Has s l) {lt : α → α → Bool} (ho : StrictWeak lt) : Does s (sort lt s) (isort lt l, .ok) := by
  have hsz := h.sz
  unfold sort
  rw [hsz]
  by_cases h2 : l.length < 2
  · rw [if_pos h2]
    have : isort lt l = l := by
      rcases l with _ | ⟨a, _ | ⟨b, l⟩⟩
      · rfl
      · rfl
      · exact absurd h2 (by simp)
    exact ⟨s, rfl, Same.refl s, h.cast this.symm⟩
  · rw [if_neg h2]
    obtain ⟨ns, inv, hv⟩ := h
    obtain ⟨d, l0, rfl⟩ : ∃ d l0, l = d :: l0 := by
      cases l with
      | nil => simp at h2
      | cons d l0 => exact ⟨d, l0, rfl⟩
    let vf : Nat → α := fun n => match s.val n with | .live v => v | _ => d
    have hvf : ∀ x ∈ ns, s.val x = .live (vf x) := by
      intro x hx
      have : s.val x ∈ ns.map s.val := List.mem_map_of_mem hx
      rw [hv] at this
      obtain ⟨v, _, e⟩ := List.mem_map.1 this
      simp only [vf, ← e]
    have hmap : ns.map vf = d :: l0 := by
      have : ns.map s.val = (ns.map vf).map Cell.live := by rw [List.map_map]; exact List.map_congr_left hvf
      rw [hv] at this
      exact ((List.map_inj_right (fun _ _ h => live_inj h)).1 this).symm
    have hne : ns ≠ [] := by rintro rfl; simp at hmap
    obtain ⟨h', l', e, hl, hc, hs, _⟩ := sortLinks_ok (cmp := fun a b => do .ok (lt (← read s a) (← read s b))) (ho.comap vf) inv.line hne (fun x hx y hy => by
      simp [inv.read hx (hvf x hx), inv.read hy (hvf y hy), bind, Except.bind]) (by have := inv.len; rw [inv.pl.lim]; omega)
    refine ⟨{ s with h := h' }, by rw [e]; rfl, ⟨rfl, rfl, rfl, rfl⟩, l', ⟨hc, (inv.pl.links hl).perm hs.perm.symm⟩, ?_⟩
    have h3 := (IsStableSort.map ho vf hs).eq_isort ho
    rw [hmap] at h3
    show l'.map s.val = (isort lt (d :: l0)).map Cell.live
    rw [← h3, List.map_map]
    exact List.map_congr_left (fun x hx => hvf x (hs.perm.mem_iff.1 hx))

/-- Positions have distinct iterators. -/
theorem iter_inj (h : Has s l) {i j p : Nat} (hi : i ≤ l.length + 1) (hj : j ≤ l.length + 1) (e1 : iter s i = .ok p) (e2 : iter s j = .ok p) : i = j := by
  have key : ∀ k, k ≤ l.length + 1 → iter s k = .ok p → position s p = .ok k := by
    intro k hk e
    by_cases he : k ≤ l.length
    · obtain ⟨X, B, inv, _, _, lX, _, hit, _⟩ := h.at he
      rw [e] at hit; cases hit
      rw [position_ok inv, lX]
    · have : k = l.length + 1 := by omega
      subst this
      rw [iter_last h] at e; cases e
      exact position_last h
  have := (key i hi e1).symm.trans (key j hj e2)
  exact Except.ok.inj this

theorem iter_ex (h : Has s l) {i : Nat} (hi : i ≤ l.length + 1) : ∃ p, iter s i = .ok p := by
  by_cases he : i ≤ l.length
  · obtain ⟨X, B, inv, _, _, _, _, hit, _⟩ := h.at he; exact ⟨_, hit⟩
  · have : i = l.length + 1 := by omega
    subst this; exact ⟨0, iter_last h⟩

/-- The nodes before and after the target, with the moved nodes `M` taken out. -/
theorem Has.move (h : Has s l) {i j k : Nat} (hij : i < j) (hj : j ≤ l.length) (hk : k ≤ l.length) (hkk : k ≤ i ∨ j ≤ k) {p : Nat} (hp : iter s k = .ok p) (hout : k < i ∨ j < k) :
    ∃ X M B P Q, Inv s (X ++ M ++ B) ∧ M ≠ [] ∧ M.length = j - i ∧ X ++ B = P ++ Q ∧ iter s i = .ok (lst S X) ∧ iter s (j + 1) = .ok (hd 0 B) ∧ p = lst S P ∧ Vals s (P ++ M ++ Q) (moved l k i j) := by
  obtain ⟨X, M, B, inv, hX, hM, hB, lX, lM, lB, e1, e2⟩ := h.at2 (Nat.le_of_lt hij) hj
  have hM0 : M ≠ [] := by rintro rfl; simp at lM; omega
  rcases hout with hlt | hgt
  · have hX' := hX
    rw [← List.take_append_drop k (l.take i)] at hX'
    obtain ⟨P, R, rfl, hP, hR⟩ := hX'.split
    rw [List.take_take, Nat.min_eq_left (by omega)] at hP
    have lP : P.length = k := by rw [hP.len, List.length_take]; omega
    refine ⟨P ++ R, M, B, P, R ++ B, inv, hM0, lM, by simp, e1, e2, ?_, ?_⟩
    · have := iter_ok (X := P) (B := R ++ M ++ B) (s := s) (by simpa using inv)
      rw [lP, hp] at this; cases this; rfl
    · unfold moved; rw [if_pos (by omega)]
      have : (l.take i).drop k = (l.drop k).take (i - k) := by rw [List.drop_take]
      rw [this] at hR
      have := (hP.append hM).append (hR.append hB)
      simpa using this
  · have hB' := hB
    rw [← List.take_append_drop (k - j) (l.drop j)] at hB'
    obtain ⟨R, Q, rfl, hR, hQ⟩ := hB'.split
    rw [List.drop_drop, show j + (k - j) = k by omega] at hQ
    have lR : R.length = k - j := by rw [hR.len, List.length_take, List.length_drop]; omega
    refine ⟨X, M, R ++ Q, X ++ R, Q, inv, hM0, lM, by simp, e1, e2, ?_, ?_⟩
    · have := iter_ok (X := X ++ M ++ R) (B := Q) (s := s) (by simpa using inv)
      rw [List.length_append, List.length_append, lX, lM, lR, show i + (j - i) + (k - j) = k by omega, hp] at this
      cases this
      have hR0 : R ≠ [] := by rintro rfl; simp at lR; omega
      rw [lst_append, lst_append]
      obtain ⟨R', r, rfl⟩ : ∃ R' r, R = R' ++ [r] := by
        rcases List.eq_nil_or_concat R with rfl | ⟨R', r, rfl⟩
        · exact absurd rfl hR0
        · exact ⟨R', r, by simp⟩
      rw [lst_concat, lst_append, lst_concat]
    · unfold moved; rw [if_neg (by omega)]
      have := ((hX.append hR).append hM).append hQ
      simpa using this

theorem moveAfterOp_ok (h : Has s l) {i j : Nat} (hl : i = j ∧ i ≤ l.length + 1 ∨ i < l.length ∧ j ≤ l.length ∧ j ≠ i + 1) :
    Does s (step s (.moveAfter i j)) (specStep (cfgOf s) l (.moveAfter i j)) := by
  simp only [specStep]
  by_cases hij : i = j
  · subst hij
    rw [if_pos rfl]
    obtain ⟨p, hp⟩ := iter_ex h (i := i) (by omega)
    exact ⟨s, by simp [step, hp, moveAfter, bind, Except.bind], Same.refl s, h⟩
  · rw [if_neg hij]
    have hl := hl.resolve_left (fun x => hij x.1)
    obtain ⟨p, hp⟩ := iter_ex h (i := j) (by omega)
    obtain ⟨X, M, B, P, Q, inv, hM, lM, hPQ, e1, _, rfl, hv⟩ := h.move (Nat.lt_succ_self i) hl.1 hl.2.1 (by omega) hp (by omega)
    obtain ⟨x, rfl⟩ : ∃ x, M = [x] := List.length_eq_one_iff.1 (by omega)
    obtain ⟨s', e, i', sm, vv⟩ := moveAfter_ok inv hPQ (fun e => hij (iter_inj h (by omega) (by omega) e1 (by rw [← e]; exact hp)))
    exact ⟨s', by simp [step, e1, hp, e, bind, Except.bind], sm, _, i', by rw [Vals, vv]; exact hv⟩

theorem moveRangeOp_ok (h : Has s l) {i j k : Nat} (hi : i ≤ l.length + 1) (hj : j ≤ l.length + 1) (hk : k ≤ l.length + 1) (hl : k = i ∨ k = j ∨ i + 2 ≤ j ∧ k ≤ l.length) :
    Does s (step s (.moveRange i j k)) (specStep (cfgOf s) l (.moveRange i j k)) := by
  simp only [specStep]
  obtain ⟨p, hp⟩ := iter_ex h hi
  obtain ⟨q, hq⟩ := iter_ex h hj
  obtain ⟨r, hr⟩ := iter_ex h hk
  by_cases h1 : k = i ∨ k = j
  · rw [if_pos h1]
    refine ⟨s, ?_, Same.refl s, h⟩
    have : p = r ∨ q = r := by
      rcases h1 with rfl | rfl
      · left; rw [hp] at hr; exact Except.ok.inj hr
      · right; rw [hq] at hr; exact Except.ok.inj hr
    simp [step, hp, hq, hr, moveRange, this, bind, Except.bind]
  · rw [if_neg h1]
    have h2 : i + 2 ≤ j ∧ k ≤ l.length := (hl.resolve_left (fun x => h1 (Or.inl x))).resolve_left (fun x => h1 (Or.inr x))
    by_cases h3 : i < k ∧ k < j
    · rw [if_pos h3]
      refine ⟨s, ?_, Same.refl s, h⟩
      obtain ⟨X, M, B, inv, hX, hM, hB, lX, lM, lB, e1, e2⟩ := h.at2 (i := i) (j := j - 1) (by omega) (by omega)
      rw [show j - 1 + 1 = j by omega] at e2
      have hr' := iter_ok (X := X ++ M.take (k - i)) (B := M.drop (k - i) ++ B) (s := s) (by
        rw [show X ++ M.take (k - i) ++ (M.drop (k - i) ++ B) = X ++ (M.take (k - i) ++ M.drop (k - i)) ++ B by simp only [List.append_assoc], List.take_append_drop]; exact inv)
      rw [List.length_append, List.length_take, lX, lM, Nat.min_eq_left (by omega), show i + (k - i) = k by omega] at hr'
      have hin : lst S (X ++ M.take (k - i)) ∈ M := by
        rw [lst_append]
        refine List.mem_of_mem_take (lst_mem_of_ne ?_)
        intro y
        have := congrArg List.length y
        rw [List.length_take, lM] at this; simp at this; omega
      have := moveRange_inside inv hin
      simp [step, e1, e2, hr', this, bind, Except.bind]
    · rw [if_neg h3]
      obtain ⟨X, M, B, P, Q, inv, hM, lM, hPQ, e1, e2, rfl, hv⟩ := h.move (i := i) (j := j - 1) (k := k) (by omega) (by omega) h2.2 (by omega) hr (by omega)
      rw [show j - 1 + 1 = j by omega] at e2
      obtain ⟨s', e, i', sm, vv⟩ := moveRange_ok inv hM hPQ (fun e => h1 (Or.inl (iter_inj h hk hi hr (by rw [e]; exact e1)))) (fun e => h1 (Or.inr (iter_inj h hk hj hr (by rw [e]; exact e2))))
      exact ⟨s', by simp [step, e1, e2, hr, e, bind, Except.bind], sm, _, i', by rw [Vals, vv]; exact hv⟩

theorem step_ok (h : Has s l) (o : Op α) (hl : Legal (cfgOf s) l o) : Does s (step s o) (specStep (cfgOf s) l o) := by
  cases o with
  | assign vs => exact assign_ok h vs
  | assignN n v => exact assignN_ok h n v
  | clear => exact clear_ok h
  | resize n v => exact resize_ok h n v
  | pushFront v => exact pushFront_ok h v
  | popFront => exact popFront_ok h
  | insertAfter i v => exact insertAfter_ok h hl v
  | insertN i n v => exact insertN_ok h hl n v
  | insertRange i vs => exact insertRange_ok h hl vs
  | eraseAfter i => exact eraseAfterOp_ok h hl
  | eraseRange i j => exact eraseRangeOp_ok h hl.1 hl.2
  | moveAfter i j => exact moveAfterOp_ok h hl
  | moveRange i j k => exact moveRangeOp_ok h hl.1 hl.2.1 hl.2.2.1 hl.2.2.2
  | removeIf f => exact removeIf_ok h f
  | unique eq => exact unique_ok h eq
  | reverse => exact reverse_ok h
  | sort lt => exact sort_ok h hl

theorem Good.step {c : Cfg} (h : Good c s l) (o : Op α) (hl : Legal c l o) :
    ∃ s', step s o = .ok (s', (specStep c l o).2) ∧ Good c s' (specStep c l o).1 := by
  obtain ⟨rfl, g⟩ := h
  obtain ⟨s', e, sm, g'⟩ := step_ok g o hl
  exact ⟨s', e, sm.cfg, g'⟩
end Steps

theorem moveAssign_ok {a b : St α} {la lb : List α} (ha : Has a la) (hb : Has b lb) (hc : lb.length ≤ a.cap) :
    ∃ a' b', moveAssign a b = .ok (a', b', .ok) ∧ Same a a' ∧ Same b b' ∧ Has a' lb ∧ Has b' [] := by
  have hemp := hb.emptyb
  have hleb := hb.le
  obtain ⟨a1, ea, ia1, sma⟩ := initialise_has ha
  by_cases h0 : lb = []
  · subst h0
    exact ⟨a1, b, by simp [moveAssign, ea, hemp, bind, Except.bind], sma, Same.refl b, ⟨[], ia1, rfl⟩, hb⟩
  · obtain ⟨ms, invb, hvb⟩ := hb
    obtain ⟨a2, b2, N, e, i2, sm2, v2, _, ib2, smb2⟩ := moveAll_ok (b.cap + 1) (A := []) (YA := []) (Y := ms) ia1 (by simpa using invb) hvb (by rw [sma.1]; simpa using hc) (by omega)
    rw [lst_nil] at e
    obtain ⟨b3, eb3, ib3, smb3⟩ := initialise_ok ib2
    refine ⟨a2, b3, ?_, sma.trans sm2, smb2.trans smb3, ⟨N, by simpa using i2, v2⟩, [], ib3, rfl⟩
    simp [moveAssign, ea, hemp, h0, invb.nxS, e, eb3, bind, Except.bind]

theorem Good2.step {ca cb : Cfg} {a b : St α} {l : List α × List α} (ha : Good ca a l.1) (hb : Good cb b l.2) (o : Op2 α) (hl : Legal2 ca cb l o) :
    ∃ a' b', step2 (a, b) o = .ok ((a', b'), (specStep2 ca cb l o).2) ∧ Good ca a' (specStep2 ca cb l o).1.1 ∧ Good cb b' (specStep2 ca cb l o).1.2 := by
  obtain ⟨la, lb⟩ := l
  cases o with
  | fst o =>
    obtain ⟨a', e, g⟩ := ha.step o hl
    exact ⟨a', b, by simp [step2, e, specStep2, bind, Except.bind], g, hb⟩
  | snd o =>
    obtain ⟨b', e, g⟩ := hb.step o hl
    exact ⟨a, b', by simp [step2, e, specStep2, bind, Except.bind], ha, g⟩
  | copy =>
    obtain ⟨a', e, g⟩ := ha.step (.assign lb) trivial
    have hv : values b = .ok lb := by obtain ⟨_, ns, i, v⟩ := hb; exact values_ok i v
    have e : assign a lb = _ := e
    exact ⟨a', b, by simp [step2, hv, e, specStep2, bind, Except.bind], g, hb⟩
  | moveAssign =>
    obtain ⟨rfl, ga⟩ := ha; obtain ⟨rfl, gb⟩ := hb
    obtain ⟨a', b', e, sma, smb, g1, g2⟩ := moveAssign_ok ga gb hl
    exact ⟨a', b', by simp [step2, e, specStep2, bind, Except.bind], ⟨sma.cfg, g1⟩, ⟨smb.cfg, g2⟩⟩

theorem Good.shows {c : Cfg} {s : St α} {l : List α} (h : Good c s l) : Shows c s l := by
  obtain ⟨rfl, g⟩ := h
  have hle := g.le
  have hsz := g.sz
  have hem := g.emptyb
  have hfu := g.fullb
  obtain ⟨ns, inv, hv⟩ := g
  have hlen := hv.len
  have hpl := inv.pl.len
  refine ⟨values_ok inv hv, hsz, hle, hem, hfu, by simp [available, hsz, cfgOf], ?_, by simp only [cfgOf]; omega, ?_⟩
  · intro v hv0
    obtain ⟨l0, rfl⟩ : ∃ l0, l = v :: l0 := by
      cases l with
      | nil => simp at hv0
      | cons x l0 => exact ⟨l0, by simpa using hv0⟩
    obtain ⟨x, N, rfl, hx, _⟩ := hv.cons_split
    simp only [front, inv.nxS, hd_cons, bind, Except.bind]
    exact inv.read (by simp) hx
  · simp only [cfgOf]
    have h1 := (inv.pl.part.map s.val).symm
    rw [List.map_append, hv] at h1
    have h2 : s.free.map s.val = List.replicate (s.cap - l.length) .raw := by
      rw [List.eq_replicate_iff]
      refine ⟨by simp; omega, ?_⟩
      intro x hx
      obtain ⟨n, hn, rfl⟩ := List.mem_map.1 hx
      exact inv.pl.raw n hn
    rw [h2] at h1; exact h1

theorem init_good (cap : Nat) (check dbg triv : Bool) (junk : Nat → Nat) : Good ⟨cap, check, dbg, triv⟩ (init (α := α) cap check dbg triv junk) [] := by
  refine ⟨rfl, [], ⟨⟨⟨rfl, by simp [init, Seg]⟩, by simp, ?_, by simp [S]⟩, ⟨rfl, by simp [init], by simp, by simp [init]⟩⟩, rfl⟩
  intro x hx
  have : x = S := by simpa using hx
  subst this; simp [init, FLinks.valid, S]

/-- **C13**: every legal history over two lists (each with any capacity and options) runs without undefined behaviour, reports what the ideal lists report, and every
observation of both lists - traversal, size, front, nodes in use - agrees with the ideal lists. -/
theorem C13_forward_list_refines {ca cb : Cfg} (ops : List (Op2 α)) : ∀ {a b : St α} {l : List α × List α}, Good ca a l.1 → Good cb b l.2 → LegalRun ca cb l ops →
    ∃ a' b', run2 (a, b) ops = .ok ((a', b'), (specRun ca cb l ops).2) ∧ Good ca a' (specRun ca cb l ops).1.1 ∧ Good cb b' (specRun ca cb l ops).1.2
      ∧ Shows ca a' (specRun ca cb l ops).1.1 ∧ Shows cb b' (specRun ca cb l ops).1.2 := by
  induction ops with
  | nil => intro a b l ha hb _; exact ⟨a, b, rfl, ha, hb, ha.shows, hb.shows⟩
  | cons o os ih =>
    intro a b l ha hb hl
    obtain ⟨a1, b1, e1, g1, g2⟩ := Good2.step ha hb o hl.1
    obtain ⟨a2, b2, e2, q1, q2, q3, q4⟩ := ih g1 g2 hl.2
    exact ⟨a2, b2, by simp only [run2, e1, e2, bind, Except.bind]; rfl, q1, q2, q3, q4⟩

/-- The same from fresh lists. -/
theorem C13_forward_list_from_fresh (ca cb : Cfg) (ja jb : Nat → Nat) (ops : List (Op2 α)) (hl : LegalRun ca cb ([], []) ops) :
    ∃ a b, run2 (init ca.cap ca.check ca.dbg ca.triv ja, init cb.cap cb.check cb.dbg cb.triv jb) ops = .ok ((a, b), (specRun ca cb ([], []) ops).2) ∧
      Shows ca a (specRun ca cb ([], []) ops).1.1 ∧ Shows cb b (specRun ca cb ([], []) ops).1.2 := by
  obtain ⟨a, b, e, _, _, h1, h2⟩ := C13_forward_list_refines (ca := ca) (cb := cb) (l := ([], [])) ops (init_good _ _ _ _ ja) (init_good _ _ _ _ jb) hl
  exact ⟨a, b, e, h1, h2⟩

/-- Sorting is specified by insertion sort; that it is *the* stable sort is `isort_stable` and `IsStableSort.unique`. -/
theorem C13_sort_is_stable {c : Cfg} {s : St α} {l : List α} (h : Good c s l) {lt : α → α → Bool} (ho : StrictWeak lt) :
    ∃ s' l', sort lt s = .ok (s', .ok) ∧ values s' = .ok l' ∧ IsStableSort lt l l' := by
  obtain ⟨s', e, g⟩ := h.step (.sort lt) ho
  exact ⟨s', _, e, g.shows.fwd, isort_stable ho l⟩

/-- `operator ==` of two lists compares the contents. -/
theorem C13_equal [DecidableEq α] {ca cb : Cfg} {a b : St α} {la lb : List α} (ha : Good ca a la) (hb : Good cb b lb) : equal a b = .ok (decide (la = lb)) := by
  have h1 := ha.shows; have h2 := hb.shows
  simp only [equal, h1.size, h2.size, h1.fwd, h2.fwd, bind, Except.bind]
  by_cases h : la.length = lb.length
  · rw [if_pos h]
    by_cases e : la = lb <;> simp [e]
  · rw [if_neg h, decide_eq_false (fun e => h (by rw [e]))]

/-! ## Cases outside the preconditions -/

/-- `move_after(p, next(p))` - move an element after itself, a no-op for `std::forward_list::splice_after` - loses the element (it becomes its own successor), with `size()` unchanged. -/
theorem move_after_itself_loses (a b c : Nat) :
    (do let (s, _) ← step (init 3 true true false fun _ => 0) (.assign [a, b, c])
        let (s, _) ← step s (.moveAfter 0 1)
        let l ← values s
        .ok (l, size s, s.h.nx 2, s.val 2)) = Except.ok ([b, c], 3, 2, Cell.live a) := by rfl

/-- `move_after` from the last element reads the null pointer. -/
theorem move_after_last_null (a b : Nat) :
    (do let (s, _) ← step (init 3 true true false fun _ => 0) (.assign [a, b])
        step s (.moveAfter 2 0)) = Except.error UB.nullDeref := by rfl

/-- `move_after(i, next(i), to)` - an empty range - loses the elements between the target and the range: of `[a, b, c]` only `c` is left, with `size()` 3. -/
theorem move_empty_range_broken (a b c : Nat) :
    (do let (s, _) ← step (init 3 true true false fun _ => 0) (.assign [a, b, c])
        let (s, _) ← step s (.moveRange 2 3 0)
        let l ← values s
        .ok (l, size s)) = Except.ok ([c], 3) := by rfl

/-- `insert_after(position, 0, value)` throws on a full list, and more copies than fit are dropped silently. -/
theorem insert_n_full (a b v : Nat) :
    (do let (s, _) ← step (init 2 true true false fun _ => 0) (.assign [a, b])
        let (_, o) ← step s (.insertN 0 0 v)
        let (s, _) ← step s .popFront
        let (s, o') ← step s (.insertN 0 5 v)
        let l ← values s
        .ok (o, o', l)) = Except.ok (Out.err .full, Out.at 1, [v, b]) := by rfl

/-- `remove(value)` with a reference to an element of the list itself reads the element after it was destroyed: `[5, 5]`, `l.remove(l.front())`. -/
theorem remove_own_element_dead :
    (do let (s, _) ← step (init (α := Nat) 3 true true false fun _ => 0) (.assign [5, 5])
        removeOwnLoop s 2 2 S 4) = Except.error UB.deadAccess := by rfl

/-! ## Non-vacuity -/

def exA : Cfg := ⟨5, true, true, false⟩
def exB : Cfg := ⟨3, false, false, true⟩
def exOps : List (Op2 Nat) :=
  [.fst (.assign [3, 1, 2]), .snd (.pushFront 7), .snd (.pushFront 5), .fst (.sort (fun x y => decide (x < y))), .fst (.insertAfter 3 9), .fst .reverse,
   .fst (.eraseAfter 1), .fst (.insertRange 0 [4, 4]), .fst (.insertN 0 3 6), .fst (.unique (· == ·)), .fst (.moveAfter 0 2), .fst (.moveRange 1 4 0), .fst (.moveRange 0 3 1), .fst (.resize 3 0),
   .fst (.eraseRange 1 3), .snd (.insertRange 2 [8, 8]), .moveAssign, .copy]

theorem ltNat : StrictWeak (fun x y : Nat => decide (x < y)) where
  irrefl a := by simp
  trans a b c h1 h2 := by simp at *; omega
  incomp a b c h1 h2 h3 h4 := by simp at *; omega

example : LegalRun exA exB ([], []) exOps := by
  refine ⟨trivial, trivial, trivial, ltNat, ?_⟩
  simp only [LegalRun, Legal2, Legal, and_true, true_and]
  decide

example : (specRun exA exB ([], []) (exOps.take 13)).1 = ([4, 2, 9, 1], [5, 7]) ∧ (specRun exA exB ([], []) exOps).2.drop 12 = [.err .iterator, .ok, .at 2, .err .noAlloc, .ok, .ok] := by decide
example : (do let (s, _) ← run2 (init 5 true true false (fun _ => 0), init 3 false false true fun _ => 9) (exOps.take 13); values s.1) = .ok [4, 2, 9, 1] := by rfl

end Etl.FList
