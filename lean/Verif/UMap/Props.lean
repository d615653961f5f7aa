import Verif.UMap.Ops

/-!
# C17, C57, C58, C59: the unordered containers

The specification is a list of elements `m`: the elements in the order in which an iteration meets them.  For the map and the set it never holds two elements with equal keys; for the multi containers elements with equal
keys stand together.  `Spec` says what each call does to it and what it returns, in terms of the key comparison only: neither the hash function nor the buckets occur in it.
-/
namespace Etl.UMap

variable {κ ε : Type}

inductive Kind where
  | map | set | multi
  deriving DecidableEq, Repr

/-- The calls.  `sub k d f` is `x[k]` with an assignment `f` through the reference; `d` is the element with the key `k` and a value-initialised mapped value.
`eraseAt i` is `erase(it)` for `it = begin()` advanced `i` times, `eraseRange i j` is `erase(first, last)` for such iterators, with `last = end()` when `j` is the size. -/
inductive Op (κ ε : Type) where
  | insert (v : ε) | sub (k : κ) (d : ε) (f : ε → ε) | at (k : κ) | erase (k : κ) | eraseAt (i : Nat) | eraseRange (i j : Nat) | find (k : κ) | count (k : κ) | equalRange (k : κ) | clear

/-- What a call returns.  An iterator is observed by the elements from it up to `end()`. -/
inductive Out (ε : Type) where
  | err (e : Err) | ins (rest : List ε) (inserted : Bool) | it (rest : List ε) | range (first last : List ε) | val (v : ε) | num (n : Nat) | done

/-! ### Specification -/

/-- Some element has a key equal to `k`. -/
def Has (eq : κ → κ → Bool) (key : ε → κ) (k : κ) (m : List ε) : Prop := ∃ v ∈ m, eq k (key v) = true

/-- What each call does to the elements `m` and what it returns. -/
def Spec (kind : Kind) (eq : κ → κ → Bool) (key : ε → κ) (cap : Nat) (m : List ε) : Op κ ε → List ε → Out ε → Prop
  | .insert v, m', out => match kind with
    | .map => (m.length = cap ∧ m' = m ∧ out = .err .full) ∨ (m.length < cap ∧ Has eq key (key v) m ∧ m' = m ∧ out = .ins [] false) ∨
        (m.length < cap ∧ ¬ Has eq key (key v) m ∧ ∃ M1 M2, m = M1 ++ M2 ∧ m' = M1 ++ v :: M2 ∧ out = .ins (v :: M2) true)
    | .set => (m.length = cap ∧ ¬ Has eq key (key v) m ∧ m' = m ∧ out = .err .full) ∨
        (m.length = cap ∧ m' = m ∧ ∃ M1 w M2, m = M1 ++ w :: M2 ∧ eq (key v) (key w) = true ∧ out = .ins (w :: M2) false) ∨ (m.length < cap ∧ Has eq key (key v) m ∧ m' = m ∧ out = .ins [] false) ∨
        (m.length < cap ∧ ¬ Has eq key (key v) m ∧ ∃ M1 M2, m = M1 ++ M2 ∧ m' = M1 ++ v :: M2 ∧ out = .ins (v :: M2) true)
    | .multi => (m.length = cap ∧ m' = m ∧ out = .err .full) ∨ (m.length < cap ∧ ∃ M1 M2, m = M1 ++ M2 ∧ m' = M1 ++ v :: M2 ∧ out = .ins (v :: M2) true)
  | .sub k d f, m', out => (m.length = cap ∧ ¬ Has eq key k m ∧ m' = m ∧ out = .err .noAlloc) ∨ (∃ M1 w M2, m = M1 ++ w :: M2 ∧ eq k (key w) = true ∧ m' = M1 ++ f w :: M2 ∧ out = .val w) ∨
      (m.length < cap ∧ ¬ Has eq key k m ∧ ∃ M1 M2, m = M1 ++ M2 ∧ m' = M1 ++ f d :: M2 ∧ out = .val d)
  | .at k, m', out => m' = m ∧ ((¬ Has eq key k m ∧ out = .err .range) ∨ ∃ v ∈ m, eq k (key v) = true ∧ out = .val v)
  | .erase k, m', out => m' = m.filter (fun v => !eq k (key v)) ∧ out = .num (m.filter (fun v => eq k (key v))).length
  | .eraseAt i, m', out => m' = m.take i ++ m.drop (i + 1) ∧ out = .it (m.drop (i + 1))
  | .eraseRange i j, m', out => m' = m.take i ++ m.drop j ∧ out = .it (m.drop j)
  | .find k, m', out => m' = m ∧ ((¬ Has eq key k m ∧ out = .it []) ∨ ∃ M1 v M2, m = M1 ++ v :: M2 ∧ eq k (key v) = true ∧ (∀ w ∈ M1, eq k (key w) = false) ∧ out = .it (v :: M2))
  | .count k, m', out => m' = m ∧ out = .num (m.filter (fun v => eq k (key v))).length
  | .equalRange k, m', out => m' = m ∧ ∃ M1 M2, m = M1 ++ (m.filter (fun v => eq k (key v)) ++ M2) ∧ (Has eq key k m → out = .range (m.filter (fun v => eq k (key v)) ++ M2) M2) ∧ (¬ Has eq key k m → out = .range [] [])
  | .clear, m', out => m' = [] ∧ out = .done

/-- No two elements have equal keys (map, set); equal keys stand together (multi). -/
def Keys (kind : Kind) (eq : κ → κ → Bool) (key : ε → κ) (m : List ε) : Prop := match kind with
  | .multi => ∀ x y z, [x, y, z].Sublist m → eq (key x) (key z) = true → eq (key x) (key y) = true
  | _ => m.Pairwise (fun a b => eq (key a) (key b) = false)

/-- The calls a program may make: the positions exist, `operator[]` and `at` belong to the map, an assignment through the reference does not change the key.
`erase(first, last)` is restricted here to a `last` that is an element, or to the whole container: see C59. -/
def Legal (kind : Kind) (key : ε → κ) (m : List ε) : Op κ ε → Prop
  | .sub k d f => kind = .map ∧ key d = k ∧ ∀ v, key (f v) = key v
  | .at _ => kind = .map
  | .eraseAt i => i < m.length
  | .eraseRange i j => (i ≤ j ∧ j < m.length) ∨ (i = 0 ∧ j = m.length)
  | _ => True

/-! ### The calls on the model -/

def observe (s : St ε) (it : It) (g : List ε → Out ε) : Res (St ε × Out ε) := match rest s it with
  | .error u => .error u
  | .ok r => .ok (s, g r)
def stepInsert : Res (St ε × Except Err (It × Bool)) → Res (St ε × Out ε)
  | .error u => .error u
  | .ok (s, .error e) => .ok (s, .err e)
  | .ok (s, .ok (it, b)) => observe s it (fun r => .ins r b)
def stepInsertM : Res (St ε × Except Err It) → Res (St ε × Out ε)
  | .error u => .error u
  | .ok (s, .error e) => .ok (s, .err e)
  | .ok (s, .ok it) => observe s it (fun r => .ins r true)
/-- `begin()` advanced `i` times; `end()` when that is the size -/
def iter (s : St ε) (i : Nat) : Res It := if i = size s then .ok (endIt s) else match beginIt s with
  | .error u => .error u
  | .ok it => advance s i it
def stepErase : Res (St ε × Nat) → Res (St ε × Out ε)
  | .error u => .error u
  | .ok (s, n) => .ok (s, .num n)
def stepEraseIt : Res (St ε × It) → Res (St ε × Out ε)
  | .error u => .error u
  | .ok (s, it) => observe s it .it
/-- `equal_range` of the map and the set, l.1492-1503 -/
def equalRange (c : Cfg κ ε) (s : St ε) (k : κ) : Res (It × It) := match find c s k with
  | .error u => .error u
  | .ok f => if eqIt f (endIt s) then .ok (f, f) else match next s f with
    | .error u => .error u
    | .ok l => .ok (f, l)
def observe2 (s : St ε) (f l : It) : Res (St ε × Out ε) := match rest s f with
  | .error u => .error u
  | .ok a => observe s l (fun b => .range a b)

def step (kind : Kind) (c : Cfg κ ε) (s : St ε) : Op κ ε → Res (St ε × Out ε)
  | .insert v => (match kind with
    | .map => stepInsert (insertMap c s v)
    | .set => stepInsert (insertSet c s v)
    | .multi => stepInsertM (insertMulti c s v))
  | .sub k d f => (match subscript c s k d f with
    | .error u => .error u
    | .ok (s, .error e) => .ok (s, .err e)
    | .ok (s, .ok v) => .ok (s, .val v))
  | .at k => (match at? c s k with
    | .error u => .error u
    | .ok (.error e) => .ok (s, .err e)
    | .ok (.ok v) => .ok (s, .val v))
  | .erase k => (match kind with
    | .multi => stepErase (eraseMulti c s k)
    | _ => stepErase (eraseKey c s k))
  | .eraseAt i => (match iter s i with
    | .error u => .error u
    | .ok it => stepEraseIt (eraseIt s it))
  | .eraseRange i j => (match iter s i with
    | .error u => .error u
    | .ok f => match iter s j with
      | .error u => .error u
      | .ok l => stepEraseIt (eraseRange s f l))
  | .find k => (match find c s k with
    | .error u => .error u
    | .ok it => observe s it .it)
  | .count k => (match kind with
    | .multi => (match equalRangeMulti c s k with
      | .error u => .error u
      | .ok (_, _, n) => .ok (s, .num n))
    | _ => match count c s k with
      | .error u => .error u
      | .ok n => .ok (s, .num n))
  | .equalRange k => (match kind with
    | .multi => (match equalRangeMulti c s k with
      | .error u => .error u
      | .ok (f, l, _) => observe2 s f l)
    | _ => match equalRange c s k with
      | .error u => .error u
      | .ok (f, l) => observe2 s f l)
  | .clear => (match clear s with
    | .error u => .error u
    | .ok s => .ok (s, .done))

/-- The states that a program can reach. -/
inductive Reach (kind : Kind) (c : Cfg κ ε) (nb cap : Nat) : St ε → Prop where
  | start : Reach kind c nb cap (init nb cap)
  | step {s s' : St ε} {m : List ε} {op : Op κ ε} {out : Out ε} : Reach kind c nb cap s → contents s = .ok m → Legal kind c.key m op → step kind c s op = .ok (s', out) → Reach kind c nb cap s'

/-! ### Proofs -/

variable {c : Cfg κ ε} {s : St ε} {m : List ε} {kind : Kind}

theorem absent_iff {k : κ} : Absent c k m ↔ ¬ Has c.eq c.key k m := by
  unfold Absent Has
  constructor
  · rintro h ⟨v, hv, he⟩
    rw [h v hv] at he; exact absurd he (by simp)
  · intro h w hw
    by_contra hne
    exact h ⟨w, hw, by simpa using hne⟩
theorem First.has {k : κ} {M1 M2 : List ε} {v : ε} (h : First c k m M1 v M2) : Has c.eq c.key k m := ⟨v, by rw [h.1]; simp, h.2.1⟩

theorem keys_sub {m' : List ε} (hk : Keys kind c.eq c.key m) (h : m'.Sublist m) : Keys kind c.eq c.key m' := by
  cases kind with
  | map => exact List.Pairwise.sublist h hk
  | set => exact List.Pairwise.sublist h hk
  | multi => intro x y z hs he; exact hk x y z (hs.trans h) he

theorem pairwise_ins (hc : Ok c) {M1 M2 : List ε} {v : ε} (h : (M1 ++ M2).Pairwise (fun a b => c.eq (c.key a) (c.key b) = false)) (ha : Absent c (c.key v) (M1 ++ M2)) :
    (M1 ++ v :: M2).Pairwise (fun a b => c.eq (c.key a) (c.key b) = false) := by
  refine (List.pairwise_middle (fun {x y} hxy => by rw [hc.symm]; exact hxy)).mpr ?_
  exact List.pairwise_cons.mpr ⟨ha, h⟩

theorem filter_first {p : ε → Bool} {M1 M2 : List ε} {v : ε} (h1 : ∀ w ∈ M1, p w = false) (hv : p v = true) (h2 : ∀ w ∈ M2, p w = false) :
    (M1 ++ v :: M2).filter p = [v] ∧ (M1 ++ v :: M2).filter (fun w => !p w) = M1 ++ M2 := by
  have e1 : M1.filter p = [] := List.filter_eq_nil_iff.mpr (fun a ha => by simp [h1 a ha])
  have e2 : M2.filter p = [] := List.filter_eq_nil_iff.mpr (fun a ha => by simp [h2 a ha])
  have e3 : M1.filter (fun w => !p w) = M1 := List.filter_eq_self.mpr (fun a ha => by simp [h1 a ha])
  have e4 : M2.filter (fun w => !p w) = M2 := List.filter_eq_self.mpr (fun a ha => by simp [h2 a ha])
  constructor
  · rw [List.filter_append, List.filter_cons_of_pos hv, e1, e2]; rfl
  · rw [List.filter_append, List.filter_cons_of_neg (by simp [hv]), e3, e4]

/-- In a map the element found is the only one with that key. -/
theorem unique_after (hc : Ok c) {k : κ} {M1 M2 : List ε} {v : ε} (hk : m.Pairwise (fun a b => c.eq (c.key a) (c.key b) = false)) (h : First c k m M1 v M2) : ∀ w ∈ M2, c.eq k (c.key w) = false := by
  intro w hw
  rw [h.1] at hk
  have h1 := (List.pairwise_append.mp hk).2.1
  have h2 := (List.pairwise_cons.mp h1).1 w hw
  by_contra hne
  have : c.eq (c.key v) (c.key w) = true := hc.trans _ k _ (by rw [hc.symm]; exact h.2.1) (by simpa using hne)
  rw [h2] at this; exact absurd this (by simp)

theorem iter_spec (h : Sim c s m) (i : Nat) (hi : i ≤ m.length) : ∃ it, iter s i = .ok it ∧ Points s it ((order s).drop i) := by
  unfold iter
  by_cases he : i = size s
  · rw [if_pos he]
    refine ⟨endIt s, rfl, ?_⟩
    rw [h.size] at he
    rw [List.drop_eq_nil_of_le (by rw [h.len]; omega)]
    rfl
  · rw [if_neg he]
    obtain ⟨it, hb, hp⟩ := begin_spec h
    obtain ⟨it', ha, hp'⟩ := advance_spec h i (order s) it hp (by rw [h.len]; exact hi)
    exact ⟨it', by simp [hb, ha], hp'⟩

theorem filter_absent {k : κ} (h : Absent c k m) : m.filter (fun v => c.eq k (c.key v)) = [] ∧ m.filter (fun v => !c.eq k (c.key v)) = m :=
  ⟨List.filter_eq_nil_iff.mpr (fun a ha => by simp [h a ha]), List.filter_eq_self.mpr (fun a ha => by simp [h a ha])⟩

theorem symm_fun (hc : Ok c) (k : κ) : (fun v => c.eq (c.key v) k) = (fun v => c.eq k (c.key v)) := by funext v; exact hc.symm _ _
theorem symm_fun' (hc : Ok c) (k : κ) : (fun v => !c.eq (c.key v) k) = (fun v => !c.eq k (c.key v)) := by funext v; rw [hc.symm]

/-- Equal keys stand together: behind the first element with a key follow all of the others. -/
theorem grouped_after (hc : Ok c) {k : κ} {M1 M2 : List ε} {v : ε} (hk : Keys .multi c.eq c.key m) (h : First c k m M1 v M2) :
    ∀ w ∈ M2.dropWhile (fun v => c.eq k (c.key v)), c.eq k (c.key w) = false := by
  intro w hw
  by_contra hne
  have hne' : c.eq k (c.key w) = true := by simpa using hne
  have key2 : ∀ (L : List ε), w ∈ L.dropWhile (fun v => c.eq k (c.key v)) → ∃ y, c.eq k (c.key y) = false ∧ [y, w].Sublist L := by
    intro L
    induction L with
    | nil => intro hw; simp at hw
    | cons a L ih =>
      intro hw
      cases ha : c.eq k (c.key a) with
      | true =>
        rw [List.dropWhile_cons_of_pos (by simp [ha])] at hw
        obtain ⟨y, hy, hs⟩ := ih hw
        exact ⟨y, hy, hs.cons a⟩
      | false =>
        rw [List.dropWhile_cons_of_neg (by simp [ha])] at hw
        rcases List.mem_cons.mp hw with e | e
        · rw [e, ha] at hne'; exact absurd hne' (by simp)
        · exact ⟨a, ha, List.Sublist.cons₂ a (List.singleton_sublist.mpr e)⟩
  obtain ⟨y, hy, hs⟩ := key2 M2 hw
  have hsub : [v, y, w].Sublist m := by
    rw [h.1]
    exact (List.Sublist.cons₂ v hs).trans (List.sublist_append_right _ _)
  have := hk v y w hsub (hc.trans _ k _ (by rw [hc.symm]; exact h.2.1) hne')
  have : c.eq k (c.key y) = true := hc.trans _ _ _ h.2.1 this
  rw [hy] at this; exact absurd this (by simp)

theorem filter_grouped (hc : Ok c) {k : κ} {M1 M2 : List ε} {v : ε} (hk : Keys .multi c.eq c.key m) (h : First c k m M1 v M2) :
    m.filter (fun v => c.eq k (c.key v)) = v :: M2.takeWhile (fun v => c.eq k (c.key v)) := by
  have h0 := grouped_after hc hk h
  rw [h.1, List.filter_append, List.filter_eq_nil_iff.mpr (fun a ha => by simp [h.2.2 a ha]), List.filter_cons_of_pos (by simpa using h.2.1), List.nil_append]
  congr 1
  have e2 : (M2.dropWhile (fun v => c.eq k (c.key v))).filter (fun v => c.eq k (c.key v)) = [] := List.filter_eq_nil_iff.mpr (fun a ha => by simp [h0 a ha])
  have e3 : (M2.takeWhile (fun v => c.eq k (c.key v))).filter (fun v => c.eq k (c.key v)) = M2.takeWhile (fun v => c.eq k (c.key v)) := by
    refine List.filter_eq_self.mpr ?_
    intro a ha
    exact (List.all_eq_true.mp List.all_takeWhile) a ha
  conv => lhs; rw [← List.takeWhile_append_dropWhile (p := fun v => c.eq k (c.key v)) (l := M2)]
  rw [List.filter_append, e2, e3, List.append_nil]

theorem sublist3_append {x y z : ε} {P Q : List ε} (h : [x, y, z].Sublist (P ++ Q)) :
    [x, y, z].Sublist P ∨ ([x, y].Sublist P ∧ z ∈ Q) ∨ (x ∈ P ∧ [y, z].Sublist Q) ∨ [x, y, z].Sublist Q := by
  obtain ⟨l1, l2, e, h1, h2⟩ := List.sublist_append_iff.mp h
  match l1, l2, e with
  | [], _, e => simp at e; rw [← e] at h2; exact Or.inr (Or.inr (Or.inr h2))
  | [a], l2, e =>
    simp at e; obtain ⟨e1, e2⟩ := e
    rw [← e2] at h2; rw [← e1] at h1
    exact Or.inr (Or.inr (Or.inl ⟨List.singleton_sublist.mp h1, h2⟩))
  | [a, b], l2, e =>
    simp at e; obtain ⟨e1, e2, e3⟩ := e
    rw [← e3] at h2; rw [← e1, ← e2] at h1
    exact Or.inr (Or.inl ⟨h1, List.singleton_sublist.mp h2⟩)
  | [a, b, d], l2, e =>
    simp at e; obtain ⟨e1, e2, e3, e4⟩ := e
    rw [← e1, ← e2, ← e3] at h1
    exact Or.inl h1
  | _ :: _ :: _ :: _ :: _, _, e => simp at e

theorem grouped_ins (hc : Ok c) {M1 M2 : List ε} {v : ε} (hm : m = M1 ++ M2) (hk : Keys .multi c.eq c.key m)
    (h1 : Absent c (c.key v) m ∨ ∃ w M3, M2 = w :: M3 ∧ First c (c.key v) m M1 w M3) (h2 : Absent c (c.key v) m → ∀ w ∈ M1, ∀ x ∈ M2, c.eq (c.key w) (c.key x) = false) :
    Keys .multi c.eq c.key (M1 ++ v :: M2) := by
  intro x y z hs he
  have neM1 : ∀ w ∈ M1, c.eq (c.key v) (c.key w) = false := by
    rcases h1 with h1 | ⟨w, M3, _, h1⟩
    · intro w hw; exact h1 w (by rw [hm]; simp [hw])
    · exact h1.2.2
  have inM : ∀ {l : List ε}, l.Sublist M1 → l.Sublist m := fun h => by rw [hm]; exact h.trans (List.sublist_append_left _ _)
  have inM2 : ∀ {l : List ε}, l.Sublist M2 → l.Sublist m := fun h => by rw [hm]; exact h.trans (List.sublist_append_right _ _)
  rcases sublist3_append hs with h | ⟨ha, hb⟩ | ⟨ha, hb⟩ | h
  · exact hk x y z (inM h) he
  · rcases List.mem_cons.mp hb with e | e
    · subst e
      have : x ∈ M1 := ha.subset (by simp)
      have := neM1 x this
      rw [hc.symm, this] at he; exact absurd he (by simp)
    · refine hk x y z ?_ he
      rw [hm]
      exact List.Sublist.append ha (List.singleton_sublist.mpr e)
  · -- x before, y and z from `v :: M2`
    have hx := neM1 x ha
    rcases List.sublist_cons_iff.mp hb with h | ⟨r, e, h⟩
    · refine hk x y z ?_ he
      rw [hm]
      exact List.Sublist.append (List.singleton_sublist.mpr ha) h
    · simp at e; obtain ⟨e1, e2⟩ := e
      subst e1
      rw [← e2] at h
      have hz : z ∈ M2 := List.singleton_sublist.mp h
      rcases h1 with h1 | ⟨w, M3, hw, h1⟩
      · have := h2 h1 x ha z hz
        rw [this] at he; exact absurd he (by simp)
      · -- the first element with the key is `w`
        rcases List.mem_cons.mp (hw ▸ hz) with e | e
        · rw [e] at he
          have : c.eq (c.key y) (c.key x) = true := hc.trans _ (c.key w) _ h1.2.1 (by rw [hc.symm]; exact he)
          rw [hx] at this; exact absurd this (by simp)
        · have hs3 : [x, w, z].Sublist m := by
            rw [hm, hw]
            exact List.Sublist.append (List.singleton_sublist.mpr ha) (List.Sublist.cons₂ w (List.singleton_sublist.mpr e))
          have := hk x w z hs3 he
          have : c.eq (c.key y) (c.key x) = true := hc.trans _ (c.key w) _ h1.2.1 (by rw [hc.symm]; exact this)
          rw [hx] at this; exact absurd this (by simp)
  · rcases List.sublist_cons_iff.mp h with h | ⟨r, e, hr⟩
    · exact hk x y z (inM2 h) he
    · simp at e; obtain ⟨e1, e2⟩ := e
      rw [← e2] at hr
      clear h
      have h := hr
      subst e1
      rcases h1 with h1 | ⟨w, M3, hw, h1⟩
      · have hz : z ∈ m := by rw [hm]; simp [h.subset (show z ∈ [y, z] by simp)]
        rw [h1 z hz] at he; exact absurd he (by simp)
      · rw [hw] at h
        rcases List.sublist_cons_iff.mp h with h | ⟨r, e, h⟩
        · have hs3 : [w, y, z].Sublist m := by
            rw [hm, hw]
            exact (List.Sublist.cons₂ w h).trans (List.sublist_append_right _ _)
          have := hk w y z hs3 (hc.trans _ (c.key x) _ (by rw [hc.symm]; exact h1.2.1) he)
          exact hc.trans _ (c.key w) _ h1.2.1 this
        · simp at e
          rw [e.1]; exact h1.2.1

/-- One call. -/
theorem step_spec (hc : Ok c) (h : Sim c s m) (hk : Keys kind c.eq c.key m) (op : Op κ ε) (hl : Legal kind c.key m op) :
    ∃ s' out m', step kind c s op = .ok (s', out) ∧ Sim c s' m' ∧ s'.nb = s.nb ∧ s'.cap = s.cap ∧ Keys kind c.eq c.key m' ∧ Spec kind c.eq c.key s.cap m op m' out := by
  have htot := h.total
  have hcut : ∀ i, (m.take i ++ m.drop (i + 1)).Sublist m := by
    intro i
    conv => rhs; rw [← List.take_append_drop i m]
    refine List.Sublist.append (List.Sublist.refl _) ?_
    rw [← List.drop_drop]
    exact List.drop_sublist 1 _
  cases op with
  | insert v =>
    by_cases hf : m.length = s.cap
    · have hfull : full s = true := h.full.mpr hf
      cases kind with
      | map => exact ⟨s, .err .full, m, by simp [step, insertMap, hfull, stepInsert], h, rfl, rfl, hk, Or.inl ⟨hf, rfl, rfl⟩⟩
      | multi => exact ⟨s, .err .full, m, by simp [step, insertMulti, hfull, stepInsertM], h, rfl, rfl, hk, Or.inl ⟨hf, rfl, rfl⟩⟩
      | set =>
        rcases find_spec hc h (c.key v) with ⟨h1, h2⟩ | ⟨M1, w, M2, it, h1, h2, h3, h4, _⟩
        · exact ⟨s, .err .full, m, by simp [step, insertSet, hfull, stepInsert, h2, eqIt], h, rfl, rfl, hk, Or.inl ⟨hf, absent_iff.mp h1, rfl, rfl⟩⟩
        · exact ⟨s, .ins (w :: M2) false, m, by simp [step, insertSet, hfull, stepInsert, h2, h4, observe, h3], h, rfl, rfl, hk, Or.inr (Or.inl ⟨hf, rfl, M1, w, M2, h1.1, h1.2.1, rfl⟩)⟩
    · have hfull : full s = false := by
        cases e : full s with
        | false => rfl
        | true => exact absurd (h.full.mp e) hf
      have hlt : m.length < s.cap := by omega
      cases kind with
      | multi =>
        obtain ⟨M1, M2, s', it, e, g1, g2, g3, g4, g5, g6, g7⟩ := insertMulti_spec hc h v hf
        exact ⟨s', .ins (v :: M2) true, M1 ++ v :: M2, by simp [step, g1, stepInsertM, observe, g5], g2, g3, g4, grouped_ins hc e hk g6 g7, Or.inr ⟨hlt, M1, M2, e, rfl, rfl⟩⟩
      | map =>
        rcases insertBody_spec hc h v with ⟨⟨M1, w, M2, h1⟩, h2⟩ | ⟨h1, _, h3⟩
        · exact ⟨s, .ins [] false, m, by simp [step, insertMap, hfull, h2, stepInsert, observe, h.rest_end], h, rfl, rfl, hk, Or.inr (Or.inl ⟨hlt, h1.has, rfl, rfl⟩)⟩
        · obtain ⟨M1, M2, s', it, e, g1, g2, g3, g4, g5⟩ := h3 hf
          exact ⟨s', .ins (v :: M2) true, M1 ++ v :: M2, by simp [step, insertMap, hfull, g1, stepInsert, observe, g5], g2, g3, g4, pairwise_ins hc (e ▸ hk) (e ▸ h1),
            Or.inr (Or.inr ⟨hlt, absent_iff.mp h1, M1, M2, e, rfl, rfl⟩)⟩
      | set =>
        rcases insertBody_spec hc h v with ⟨⟨M1, w, M2, h1⟩, h2⟩ | ⟨h1, _, h3⟩
        · exact ⟨s, .ins [] false, m, by simp [step, insertSet, hfull, h2, stepInsert, observe, h.rest_end], h, rfl, rfl, hk, Or.inr (Or.inr (Or.inl ⟨hlt, h1.has, rfl, rfl⟩))⟩
        · obtain ⟨M1, M2, s', it, e, g1, g2, g3, g4, g5⟩ := h3 hf
          exact ⟨s', .ins (v :: M2) true, M1 ++ v :: M2, by simp [step, insertSet, hfull, g1, stepInsert, observe, g5], g2, g3, g4, pairwise_ins hc (e ▸ hk) (e ▸ h1),
            Or.inr (Or.inr (Or.inr ⟨hlt, absent_iff.mp h1, M1, M2, e, rfl, rfl⟩))⟩
  | sub k d f =>
    obtain ⟨rfl, hd, hf⟩ := hl
    have hk' : m.Pairwise (fun a b => c.eq (c.key a) (c.key b) = false) := hk
    rcases subscript_spec hc h k d f hd hf with ⟨M1, v, M2, s', h1, h2, h3, h4, h5⟩ | ⟨h1, h2, h3⟩
    · refine ⟨s', .val v, _, by simp [step, h2], h3, h4, h5, ?_, Or.inr (Or.inl ⟨M1, v, M2, h1.1, h1.2.1, rfl, rfl⟩)⟩
      show (M1 ++ f v :: M2).Pairwise _
      rw [h1.1] at hk'
      have := List.pairwise_append.mp hk'
      refine List.pairwise_append.mpr ⟨this.1, ?_, ?_⟩
      · have h0 := List.pairwise_cons.mp this.2.1
        refine List.pairwise_cons.mpr ⟨?_, h0.2⟩
        intro a ha; rw [hf]; exact h0.1 a ha
      · intro a ha b hb
        rcases List.mem_cons.mp hb with e | e
        · rw [e, hf]; exact this.2.2 a ha v (by simp)
        · exact this.2.2 a ha b (by simp [e])
    · by_cases hfl : m.length = s.cap
      · exact ⟨s, .err .noAlloc, m, by simp [step, h2 hfl], h, rfl, rfl, hk, Or.inl ⟨hfl, absent_iff.mp h1, rfl, rfl⟩⟩
      · obtain ⟨M1, M2, s', e, g1, g2, g3, g4⟩ := h3 hfl
        refine ⟨s', .val d, _, by simp [step, g1], g2, g3, g4, pairwise_ins hc (e ▸ hk') ?_, Or.inr (Or.inr ⟨by omega, absent_iff.mp h1, M1, M2, e, rfl, rfl⟩)⟩
        rw [hf, hd, ← e]; exact h1
  | «at» k =>
    rcases at_spec hc h k with ⟨h1, h2⟩ | ⟨M1, v, M2, h1, h2⟩
    · exact ⟨s, .err .range, m, by simp [step, h2], h, rfl, rfl, hk, rfl, Or.inl ⟨absent_iff.mp h1, rfl⟩⟩
    · exact ⟨s, .val v, m, by simp [step, h2], h, rfl, rfl, hk, rfl, Or.inr ⟨v, by rw [h1.1]; simp, h1.2.1, rfl⟩⟩
  | erase k =>
    have single : kind ≠ .multi → ∃ s' out m', step kind c s (.erase k) = .ok (s', out) ∧ Sim c s' m' ∧ s'.nb = s.nb ∧ s'.cap = s.cap ∧ Keys kind c.eq c.key m' ∧ Spec kind c.eq c.key s.cap m (.erase k) m' out := by
      intro hne
      have hstep : step kind c s (.erase k) = stepErase (eraseKey c s k) := by cases kind <;> first | rfl | exact absurd rfl hne
      have hk' : m.Pairwise (fun a b => c.eq (c.key a) (c.key b) = false) := by cases kind <;> first | exact hk | exact absurd rfl hne
      rcases eraseKey_spec hc h k with ⟨h1, h2⟩ | ⟨M1, v, M2, s', h1, h2, h3, h4, h5⟩
      · obtain ⟨f1, f2⟩ := filter_absent h1
        exact ⟨s, .num 0, m, by rw [hstep, h2]; rfl, h, rfl, rfl, hk, f2.symm, by rw [f1]; rfl⟩
      · obtain ⟨f1, f2⟩ := filter_first (p := fun v => c.eq k (c.key v)) h1.2.2 h1.2.1 (unique_after hc hk' h1)
        refine ⟨s', .num 1, M1 ++ M2, by rw [hstep, h2]; rfl, h3, h4, h5, keys_sub hk ?_, ?_, ?_⟩
        · rw [h1.1]; exact List.Sublist.append (List.Sublist.refl _) (List.sublist_cons_self _ _)
        · rw [h1.1]; exact f2.symm
        · rw [h1.1, f1]; rfl
    cases kind with
    | map => exact single (by simp)
    | set => exact single (by simp)
    | multi =>
      obtain ⟨s', g1, g2, g3, g4⟩ := eraseMulti_spec hc h k
      rw [symm_fun hc] at g1
      rw [symm_fun' hc] at g2
      exact ⟨s', _, _, by simp only [step, g1, stepErase], g2, g3, g4, keys_sub hk List.filter_sublist, rfl, rfl⟩
  | eraseAt i =>
    have hi : i < m.length := hl
    obtain ⟨it, h1, h2⟩ := iter_spec h i (by omega)
    have hlen := h.len
    have hd : (order s).drop i = (order s)[i]'(by omega) :: (order s).drop (i + 1) := List.drop_eq_getElem_cons (by omega)
    rw [hd] at h2
    obtain ⟨M1, v, M2, s', it', e, e1, e2, e3, e4, e5, e6, e7⟩ := eraseIt_spec h h2
    have hM1 : M1.length = i := by
      have := congrArg List.length e
      simp only [List.length_append, List.length_cons, List.length_drop] at this e2
      omega
    have t1 : m.take i = M1 := by rw [e, ← hM1]; simp
    have t2 : m.drop (i + 1) = M2 := by rw [e, ← hM1]; simp
    refine ⟨s', .it M2, M1 ++ M2, by simp [step, h1, e3, stepEraseIt, observe, e7], e4, e5, e6, keys_sub hk ?_, by rw [t1, t2], by rw [t2]⟩
    have := hcut i
    rw [t1, t2] at this; exact this
  | eraseRange i j =>
    have hsub : i ≤ j → (m.take i ++ m.drop j).Sublist m := by
      intro hij
      conv => rhs; rw [← List.take_append_drop i m]
      refine List.Sublist.append (List.Sublist.refl _) ?_
      obtain ⟨d, rfl⟩ : ∃ d, j = i + d := ⟨j - i, by omega⟩
      rw [← List.drop_drop]
      exact List.drop_sublist _ _
    rcases hl with ⟨hij, hj⟩ | ⟨rfl, hj⟩
    · obtain ⟨f, f1, f2⟩ := iter_spec h i (by omega)
      obtain ⟨l, l1, l2⟩ := iter_spec h j (by omega)
      have hlen := h.len
      have hsp : (order s).drop i = ((order s).drop i).take (j - i) ++ (order s).drop j := by
        conv => lhs; rw [← List.take_append_drop (j - i) ((order s).drop i)]
        rw [List.drop_drop, show i + (j - i) = j by omega]
      rw [hsp] at f2
      obtain ⟨M1, VR, M2, s', it, e, e1, e2, e3, e4, e5, e6, e7⟩ := eraseRange_spec h f2 l2 (by
        intro hh
        have := congrArg List.length hh
        simp only [List.length_drop, List.length_nil] at this
        omega)
      have hVR : VR.length = j - i := by rw [e1, List.length_take, List.length_drop]; omega
      have hM2 : M2.length = m.length - j := by rw [e2, List.length_drop, hlen]
      have hM1 : M1.length = i := by
        have := congrArg List.length e
        simp only [List.length_append] at this
        omega
      have t1 : m.take i = M1 := by rw [e, ← hM1]; simp
      have t2 : m.drop j = M2 := by
        rw [e, ← List.append_assoc, show j = (M1 ++ VR).length by rw [List.length_append]; omega, List.drop_left]
      refine ⟨s', .it M2, M1 ++ M2, by simp [step, f1, l1, e3, stepEraseIt, observe, e7], e4, e5, e6, keys_sub hk ?_, by rw [t1, t2], by rw [t2]⟩
      have := hsub hij
      rw [t1, t2] at this; exact this
    · obtain ⟨f, f1, f2⟩ := iter_spec h 0 (by omega)
      obtain ⟨l, l1, l2⟩ := iter_spec h j (by omega)
      rw [List.drop_eq_nil_of_le (by rw [h.len]; omega)] at l2
      obtain ⟨s', e1, e2, e3, e4⟩ := eraseRange_all h f2 l2
      have t2 : m.drop j = [] := List.drop_eq_nil_of_le (by omega)
      refine ⟨s', .it [], [], by simp [step, f1, l1, e1, stepEraseIt, observe, e2.rest_end], e2, e3, e4, keys_sub hk (List.nil_sublist _), by rw [t2]; rfl, by rw [t2]⟩
  | find k =>
    rcases find_spec hc h k with ⟨h1, h2⟩ | ⟨M1, v, M2, it, h1, h2, h3, _⟩
    · exact ⟨s, .it [], m, by simp [step, h2, observe, h.rest_end], h, rfl, rfl, hk, rfl, Or.inl ⟨absent_iff.mp h1, rfl⟩⟩
    · exact ⟨s, .it (v :: M2), m, by simp [step, h2, observe, h3], h, rfl, rfl, hk, rfl, Or.inr ⟨M1, v, M2, h1.1, h1.2.1, h1.2.2, rfl⟩⟩
  | count k =>
    have single : kind ≠ .multi → ∃ s' out m', step kind c s (.count k) = .ok (s', out) ∧ Sim c s' m' ∧ s'.nb = s.nb ∧ s'.cap = s.cap ∧ Keys kind c.eq c.key m' ∧ Spec kind c.eq c.key s.cap m (.count k) m' out := by
      intro hne
      have hk' : m.Pairwise (fun a b => c.eq (c.key a) (c.key b) = false) := by cases kind <;> first | exact hk | exact absurd rfl hne
      rcases count_spec hc h k with ⟨h1, h2⟩ | ⟨M1, v, M2, h1, h2⟩
      · obtain ⟨f1, _⟩ := filter_absent h1
        exact ⟨s, .num 0, m, by cases kind <;> first | exact absurd rfl hne | simp [step, h2], h, rfl, rfl, hk, rfl, by rw [f1]; rfl⟩
      · obtain ⟨f1, _⟩ := filter_first (p := fun v => c.eq k (c.key v)) h1.2.2 h1.2.1 (unique_after hc hk' h1)
        exact ⟨s, .num 1, m, by cases kind <;> first | exact absurd rfl hne | simp [step, h2], h, rfl, rfl, hk, rfl, by rw [h1.1, f1]; rfl⟩
    cases kind with
    | map => exact single (by simp)
    | set => exact single (by simp)
    | multi =>
      rcases equalRangeMulti_spec hc h k with ⟨h1, h2⟩ | ⟨M1, v, M2, f, l, h1, h2, h3, h4⟩
      · obtain ⟨f1, _⟩ := filter_absent h1
        exact ⟨s, .num 0, m, by simp [step, h2], h, rfl, rfl, hk, rfl, by rw [f1]; rfl⟩
      · refine ⟨s, .num (1 + (M2.takeWhile (fun v => c.eq k (c.key v))).length), m, by simp [step, h2], h, rfl, rfl, hk, rfl, ?_⟩
        rw [filter_grouped hc hk h1, List.length_cons, Nat.add_comm]
  | equalRange k =>
    have single : kind ≠ .multi → ∃ s' out m', step kind c s (.equalRange k) = .ok (s', out) ∧ Sim c s' m' ∧ s'.nb = s.nb ∧ s'.cap = s.cap ∧ Keys kind c.eq c.key m' ∧ Spec kind c.eq c.key s.cap m (.equalRange k) m' out := by
      intro hne
      have hk' : m.Pairwise (fun a b => c.eq (c.key a) (c.key b) = false) := by cases kind <;> first | exact hk | exact absurd rfl hne
      rcases find_spec hc h k with ⟨h1, h2⟩ | ⟨M1, v, M2, it, h1, h2, h3, h4, A, i, B, h5, h6, h7, h8, h9, h10⟩
      · obtain ⟨f1, _⟩ := filter_absent h1
        have he : equalRange c s k = .ok (endIt s, endIt s) := by simp [equalRange, h2, eqIt]
        refine ⟨s, .range [] [], m, by cases kind <;> first | exact absurd rfl hne | simp [step, he, observe2, observe, h.rest_end], h, rfl, rfl, hk, rfl, m, [], by rw [f1]; simp, ?_, fun _ => rfl⟩
        intro hh; exact absurd hh (absent_iff.mp h1)
      · obtain ⟨it', hn, hp'⟩ := next_spec h (h.pointsNode h6 h7)
        have hit : it = ⟨it.bkt, .node i⟩ := by rw [h5]
        rw [← hit] at hn
        have hr := h.rest hp' h10
        have he : equalRange c s k = .ok (it, it') := by simp [equalRange, h2, h4, hn]
        obtain ⟨f1, _⟩ := filter_first (p := fun v => c.eq k (c.key v)) h1.2.2 h1.2.1 (unique_after hc hk' h1)
        rw [← h1.1] at f1
        refine ⟨s, .range (v :: M2) M2, m, by cases kind <;> first | exact absurd rfl hne | simp [step, he, observe2, observe, h3, hr], h, rfl, rfl, hk, rfl, M1, M2, by rw [f1]; exact h1.1, ?_, ?_⟩
        · intro _; rw [f1]; rfl
        · intro hh; exact absurd h1.has hh
    cases kind with
    | map => exact single (by simp)
    | set => exact single (by simp)
    | multi =>
      rcases equalRangeMulti_spec hc h k with ⟨h1, h2⟩ | ⟨M1, v, M2, f, l, h1, h2, h3, h4⟩
      · obtain ⟨f1, _⟩ := filter_absent h1
        refine ⟨s, .range [] [], m, by simp [step, h2, observe2, observe, h.rest_end], h, rfl, rfl, hk, rfl, m, [], by rw [f1]; simp, ?_, fun _ => rfl⟩
        intro hh; exact absurd hh (absent_iff.mp h1)
      · have hg := filter_grouped hc hk h1
        refine ⟨s, .range (v :: M2) (M2.dropWhile (fun v => c.eq k (c.key v))), m, by simp [step, h2, observe2, observe, h3, h4], h, rfl, rfl, hk, rfl, M1, M2.dropWhile (fun v => c.eq k (c.key v)), ?_, ?_, ?_⟩
        · rw [hg]; conv => lhs; rw [h1.1]
          simp [List.takeWhile_append_dropWhile]
        · intro _; rw [hg]; simp [List.takeWhile_append_dropWhile]
        · intro hh; exact absurd h1.has hh
  | clear =>
    obtain ⟨s', g1, g2, g3, g4⟩ := clear_spec h
    exact ⟨s', .done, [], by simp [step, g1], g2, g3, g4, keys_sub hk (List.nil_sublist _), rfl, rfl⟩

theorem reach_sim (hc : Ok c) {nb cap : Nat} (hnb : 0 < nb) {s : St ε} (h : Reach kind c nb cap s) : ∃ m, Sim c s m ∧ Keys kind c.eq c.key m ∧ s.nb = nb ∧ s.cap = cap := by
  induction h with
  | start =>
    refine ⟨[], init_sim c nb cap hnb, ?_, rfl, rfl⟩
    cases kind with
    | map => exact List.Pairwise.nil
    | set => exact List.Pairwise.nil
    | multi => intro x y z hs; simp at hs
  | step _ hcont hl hstep ih =>
    obtain ⟨m, h1, h2, h3, h4⟩ := ih
    rw [h1.contents] at hcont
    injection hcont with hcont
    rw [← hcont] at hl
    obtain ⟨s', out, m', g1, g2, g3, g4, g5, _⟩ := step_spec hc h1 h2 _ hl
    rw [hstep] at g1
    injection g1 with g1
    injection g1 with g1 _
    rw [g1]
    exact ⟨m', g2, g5, by omega, by omega⟩

/-- What the three properties say about a container of a kind, in every state that a program can reach. -/
def Behaves (kind : Kind) (c : Cfg κ ε) (cap : Nat) (s : St ε) : Prop :=
  ∃ m, contents s = .ok m ∧ Keys kind c.eq c.key m ∧ m.length ≤ cap ∧ size s = m.length ∧ (empty s = true ↔ m = []) ∧ (full s = true ↔ m.length = cap) ∧
    ∀ op, Legal kind c.key m op → ∃ s' out m', step kind c s op = .ok (s', out) ∧ contents s' = .ok m' ∧ Spec kind c.eq c.key cap m op m' out

theorem behaves (hc : Ok c) {nb cap : Nat} (hnb : 0 < nb) {s : St ε} (h : Reach kind c nb cap s) : Behaves kind c cap s := by
  obtain ⟨m, h1, h2, h3, h4⟩ := reach_sim hc hnb h
  have ht := h1.total
  refine ⟨m, h1.contents, h2, by omega, h1.size, h1.empty, by rw [h1.full, h4], ?_⟩
  intro op hl
  obtain ⟨s', out, m', g1, g2, g3, g4, g5, g6⟩ := step_spec hc h1 h2 op hl
  exact ⟨s', out, m', g1, g2.contents, by rw [← h4]; exact g6⟩

/-- The configuration of an `unordered_map<κ, ν>` (and multimap). -/
def mapCfg {κ ν : Type} (hash : κ → Nat) (eq : κ → κ → Bool) : Cfg κ (κ × ν) := ⟨hash, eq, Prod.fst⟩
/-- The configuration of an `unordered_set<κ>` (and multiset). -/
def setCfg {κ : Type} (hash : κ → Nat) (eq : κ → κ → Bool) : Cfg κ κ := ⟨hash, eq, id⟩

/-- The requirement on the template arguments `THash` and `TKeyEqual`: an equivalence, and equal keys have equal hashes. -/
structure IsHash {κ : Type} (hash : κ → Nat) (eq : κ → κ → Bool) : Prop where
  refl : ∀ a, eq a a = true
  symm : ∀ a b, eq a b = true → eq b a = true
  trans : ∀ a b d, eq a b = true → eq b d = true → eq a d = true
  hash : ∀ a b, eq a b = true → hash a = hash b

theorem IsHash.ok {κ ε : Type} {hash : κ → Nat} {eq : κ → κ → Bool} (h : IsHash hash eq) (key : ε → κ) : Ok (⟨hash, eq, key⟩ : Cfg κ ε) := by
  refine ⟨h.refl, ?_, h.trans, h.hash⟩
  intro a b
  show eq a b = eq b a
  cases e : eq a b with
  | true => exact (h.symm a b e).symm
  | false =>
    cases e' : eq b a with
    | true => rw [h.symm b a e'] at e; exact absurd e (by simp)
    | false => rfl

/-- C17 -/
theorem C17_unordered_map {κ ν : Type} {hash : κ → Nat} {eq : κ → κ → Bool} (hh : IsHash hash eq) {nb cap : Nat} (hnb : 0 < nb) {s : St (κ × ν)}
    (h : Reach .map (mapCfg hash eq) nb cap s) : Behaves .map (mapCfg hash eq) cap s := behaves (hh.ok _) hnb h
/-- C57 -/
theorem C57_unordered_set {κ : Type} {hash : κ → Nat} {eq : κ → κ → Bool} (hh : IsHash hash eq) {nb cap : Nat} (hnb : 0 < nb) {s : St κ}
    (h : Reach .set (setCfg hash eq) nb cap s) : Behaves .set (setCfg hash eq) cap s := behaves (hh.ok _) hnb h
/-- C58 -/
theorem C58_unordered_multimap {κ ν : Type} {hash : κ → Nat} {eq : κ → κ → Bool} (hh : IsHash hash eq) {nb cap : Nat} (hnb : 0 < nb) {s : St (κ × ν)}
    (h : Reach .multi (mapCfg hash eq) nb cap s) : Behaves .multi (mapCfg hash eq) cap s := behaves (hh.ok _) hnb h
theorem C58_unordered_multiset {κ : Type} {hash : κ → Nat} {eq : κ → κ → Bool} (hh : IsHash hash eq) {nb cap : Nat} (hnb : 0 < nb) {s : St κ}
    (h : Reach .multi (setCfg hash eq) nb cap s) : Behaves .multi (setCfg hash eq) cap s := behaves (hh.ok _) hnb h


/-! ### C59: `erase(first, last)`

`end()` is an iterator on the bucket marker `last`, and `erase(first, last)` ends its loop by comparing buckets.  When elements have been erased before, `last` need not be the last bucket in use (`stale_*` below), and then
`erase(first, end())` goes wrong.  What is proved: the range is removed exactly, when `last` is an element, or the range is everything, or the marker is right; the marker is right as long as nothing has been erased since the construction or a `clear`. -/

/-- The marker `last` is the last bucket with an element. -/
def Fresh (s : St ε) : Prop := order s ≠ [] → LastIs s s.last

theorem eraseRange_none (h : Sim c s m) (hm : m ≠ []) (hf : LastIs s s.last) : ∃ it, eraseRange s (endIt s) (endIt s) = .ok (s, it) ∧ UMap.rest s it = .ok [] := by
  obtain ⟨b0, hb0, hp0⟩ := begin_spec h
  have hne : eqIt (endIt s) b0 = false := by
    have ho : order s ≠ [] := by
      intro e; have := h.len; rw [e] at this; exact hm (List.length_eq_zero_iff.mp this.symm)
    have h1 := hp0.head
    cases hh : order s with
    | nil => exact absurd hh ho
    | cons a l => rw [hh] at h1; simp [eqIt, endIt, h1, headLI]
  have hprev : ∀ (l : List Nat) (p : LI), previous .term p l = .ok (lastLI p l) := by
    intro l
    induction l with
    | nil => intro p; rfl
    | cons a l ih => intro p; simp [previous, ih, lastLI]
  have hnd := h.chainNodup hf.1
  have hst := step_last (s.chain s.last) [] (by simpa using hnd)
  rw [List.append_nil] at hst
  have hpost : spanN s.chain (s.nb - (s.last + 1)) (s.last + 1) = [] := spanN_nil (fun x h1 h2 => hf.2.2 x (by omega) (by have := hf.1; omega))
  have hlt := hf.1
  have hsk := skip_spec s (s.nb - (s.last + 1)) (s.last + 1) (by omega)
  rw [hpost] at hsk
  refine ⟨enter s (skip s (s.nb - (s.last + 1)) (s.last + 1)), ?_, ?_⟩
  · simp only [eraseRange, hb0]
    rw [if_neg (by simp [hne])]
    have hloop : eraseLoop (endIt s).pos (endIt s).bkt (s.cap + 1) s (endIt s).bkt (lastLI .before (s.chain s.last)) (endIt s).pos = .ok s := by
      simp [eraseLoop]
    have hb : bucket s (endIt s).bkt = .ok (s.chain s.last) := h.bucket hf.1
    simp only [hb, show (endIt s).pos = LI.term from rfl, hprev]
    rw [show (endIt s).pos = LI.term from rfl] at hloop
    simp only [hloop]
    have hn : next s ⟨(endIt s).bkt, lastLI .before (s.chain s.last)⟩ = .ok (enter s (skip s (s.nb - (s.last + 1)) (s.last + 1))) := by
      simp only [next, hb, hst, headLI, if_true]; rfl
    simp only [hn]
  · exact h.rest (r := []) (vs := []) hsk rfl

theorem eraseRange_fresh (h : Sim c s m) (hf : Fresh s) (i j : Nat) (hij : i ≤ j) (hj : j ≤ m.length) :
    ∃ s' out, step kind c s (.eraseRange i j) = .ok (s', out) ∧ Sim c s' (m.take i ++ m.drop j) ∧ out = .it (m.drop j) := by
  have hlen := h.len
  obtain ⟨f, f1, f2⟩ := iter_spec h i (by omega)
  obtain ⟨l, l1, l2⟩ := iter_spec h j (by omega)
  by_cases hall : i = 0 ∧ j = m.length
  · obtain ⟨rfl, hj'⟩ := hall
    rw [List.drop_eq_nil_of_le (by omega)] at l2
    obtain ⟨s', e1, e2, e3, e4⟩ := eraseRange_all h f2 l2
    have t2 : m.drop j = [] := List.drop_eq_nil_of_le (by omega)
    exact ⟨s', .it [], by simp [step, f1, l1, e1, stepEraseIt, observe, e2.rest_end], by rw [t2]; exact e2, by rw [t2]⟩
  by_cases hnone : i = m.length
  · have hj' : j = m.length := by omega
    have hm : m ≠ [] := by intro e; rw [e] at hnone hj'; exact hall ⟨hnone, by rw [hj', e]⟩
    have hL : LastIs s s.last := hf (by intro e; rw [e] at hlen; exact hm (List.length_eq_zero_iff.mp hlen.symm))
    have hfe : f = endIt s := by
      have : iter s i = .ok (endIt s) := by unfold iter; rw [if_pos (by rw [h.size]; exact hnone)]
      rw [this] at f1; injection f1 with f1; exact f1.symm
    have hle : l = endIt s := by
      have : iter s j = .ok (endIt s) := by unfold iter; rw [if_pos (by rw [h.size]; exact hj')]
      rw [this] at l1; injection l1 with l1; exact l1.symm
    obtain ⟨it, e1, e2⟩ := eraseRange_none h hm hL
    have t2 : m.drop j = [] := List.drop_eq_nil_of_le (by omega)
    exact ⟨s, .it [], by simp [step, f1, l1, hfe, hle, e1, stepEraseIt, observe, e2], by rw [t2, List.take_of_length_le (by omega), List.append_nil]; exact h, by rw [t2]⟩
  have hsp : (order s).drop i = ((order s).drop i).take (j - i) ++ (order s).drop j := by
    conv => lhs; rw [← List.take_append_drop (j - i) ((order s).drop i)]
    rw [List.drop_drop, show i + (j - i) = j by omega]
  rw [hsp] at f2
  obtain ⟨M1, VR, M2, s', it, e, e1, e2, e3, e4, e5, e6, e7⟩ := eraseRange_spec h f2 l2 (by
    intro hh
    have hlj := congrArg List.length hh
    simp only [List.length_drop, List.length_nil] at hlj
    have hj' : j = m.length := by omega
    have hle : l = endIt s := by
      have : iter s j = .ok (endIt s) := by unfold iter; rw [if_pos (by rw [h.size]; exact hj')]
      rw [this] at l1; injection l1 with l1; exact l1.symm
    refine ⟨?_, ?_⟩
    · intro hR
      have := congrArg List.length hR
      simp only [List.length_take, List.length_drop, List.length_nil] at this
      omega
    · rw [hle]
      refine hf ?_
      intro e0; rw [e0, List.length_nil] at hlen; omega)
  have hVR : VR.length = j - i := by rw [e1, List.length_take, List.length_drop]; omega
  have hM2 : M2.length = m.length - j := by rw [e2, List.length_drop, hlen]
  have hM1 : M1.length = i := by
    have := congrArg List.length e
    simp only [List.length_append] at this
    omega
  have t1 : m.take i = M1 := by rw [e, ← hM1]; simp
  have t2 : m.drop j = M2 := by
    rw [e, ← List.append_assoc, show j = (M1 ++ VR).length by rw [List.length_append]; omega, List.drop_left]
  exact ⟨s', .it M2, by simp [step, f1, l1, e3, stepEraseIt, observe, e7], by rw [t1, t2]; exact e4, by rw [t2]⟩

theorem fresh_add {b : Nat} {p : LI} {v : ε} {m' : List ε} {s' : St ε} {it : It} (h : Sim c s m) (h' : Sim c s' m') (hb : b < s.nb) (ha : add s b p v = .ok (s', .ok it)) (hf : Fresh s) : Fresh s' := by
  intro _
  cases hfr : s.free with
  | nil => simp [add, allocate, hfr] at ha
  | cons q fr =>
    have hraw := h.raw q (by rw [hfr]; simp)
    simp only [add, allocate, hfr, hraw, link] at ha
    cases hi : insAfter (s.chain b) p q with
    | error u => rw [hi] at ha; simp at ha
    | ok l' =>
      rw [hi] at ha
      simp only [Except.ok.injEq, Prod.mk.injEq] at ha
      obtain ⟨hs', -⟩ := ha
      have hl'ne : l' ≠ [] := by
        cases p with
        | before => simp [insAfter] at hi; rw [← hi]; simp
        | term => simp [insAfter] at hi
        | node x =>
          simp only [insAfter] at hi
          intro e; rw [e] at hi
          cases hc' : s.chain b with
          | nil => rw [hc'] at hi; simp [insGo] at hi
          | cons y ys =>
            rw [hc'] at hi
            simp only [insGo] at hi
            split at hi
            · simp at hi
            · split at hi <;> simp at hi
      obtain ⟨f0, l0, hadj⟩ := adjustIns_eq { s with val := upd s.val q (.live v), free := fr, chain := upd s.chain b l' } b
      have hch : s'.chain = upd s.chain b l' := by rw [← hs', hadj]
      have hnb : s'.nb = s.nb := by rw [← hs', hadj]
      have hsz : UMap.size { s with val := upd s.val q (.live v), free := fr, chain := upd s.chain b l' } = m.length + 1 := by
        have ht := h.total
        rw [hfr, List.length_cons] at ht
        show s.cap - fr.length = _
        omega
      by_cases hm : m.length = 0
      · have hlast : s'.last = b := by
          rw [← hs']; unfold adjustIns; rw [if_pos (by rw [hsz, hm])]
        have ho : order s = [] := List.length_eq_zero_iff.mp (by rw [h.len, hm])
        rw [hlast]
        refine ⟨by omega, by rw [hch, upd_same]; exact hl'ne, ?_⟩
        intro x hx hxn
        rw [hch, upd_other _ _ (show x ≠ b by omega)]
        by_contra hne
        obtain ⟨y, hy⟩ := List.exists_mem_of_ne_nil _ hne
        have : y ∈ order s := mem_spanN.mpr ⟨x, by omega, by omega, hy⟩
        rw [ho] at this; simp at this
      · obtain ⟨g1, g2, g3⟩ := hf (by intro e; have := h.len; rw [e] at this; simp at this; omega)
        have hfl : s.first ≤ s.last := by
          by_contra hgt
          exact h.fst (by intro e; have := h.len; rw [e] at this; simp at this; omega) (g3 s.first (by omega) h.firstLt)
        have hne1 : ¬ (UMap.size { s with val := upd s.val q (.live v), free := fr, chain := upd s.chain b l' } = 1) := by rw [hsz]; omega
        have hlast : s'.last = if s.last < b then b else s.last := by
          rw [← hs']; unfold adjustIns; rw [if_neg hne1]
          show (if b < s.first then _ else if s.last < b then _ else _ : St ε).last = _
          by_cases h1 : b < s.first
          · rw [if_pos h1, if_neg (by omega)]
          · rw [if_neg h1]; split <;> rfl
        rw [hlast]
        by_cases h1 : s.last < b
        · rw [if_pos h1]
          refine ⟨by omega, by rw [hch, upd_same]; exact hl'ne, ?_⟩
          intro x hx hxn
          rw [hch, upd_other _ _ (show x ≠ b by omega)]
          exact g3 x (by omega) (by omega)
        · rw [if_neg h1]
          refine ⟨by omega, ?_, ?_⟩
          · rw [hch]
            by_cases h2 : s.last = b
            · rw [h2, upd_same]; exact hl'ne
            · rw [upd_other _ _ h2]; exact g2
          · intro x hx hxn
            rw [hch, upd_other _ _ (show x ≠ b by omega)]
            exact g3 x (by omega) (by omega)


theorem insertBody_add {v : ε} {s' : St ε} {r : Except Err (It × Bool)} (h : insertBody c s v = .ok (s', r)) : s' = s ∨ ∃ b p it, b < s.nb ∧ add s b p v = .ok (s', .ok it) := by
  unfold insertBody at h
  cases hi : index c s (c.key v) with
  | error u => rw [hi] at h; simp at h
  | ok b =>
    rw [hi] at h
    cases hb : bucket s b with
    | error u => simp [hb] at h
    | ok l =>
      have hlt : b < s.nb := by
        unfold bucket at hb; by_contra hn; rw [if_neg hn] at hb; simp at hb
      simp only [hb] at h
      cases hs : search s (fun w => c.eq (c.key w) (c.key v)) .before l with
      | error u => rw [hs] at h; simp at h
      | ok q =>
        obtain ⟨p, o⟩ := q
        cases o with
        | some i => rw [hs] at h; simp at h; exact Or.inl h.1.symm
        | none =>
          rw [hs] at h
          cases ha : add s b p v with
          | error u => simp [ha] at h
          | ok z =>
            obtain ⟨s1, e⟩ := z
            cases e with
            | error e =>
              simp [ha] at h
              refine Or.inl ?_
              rw [← h.1]
              unfold add at ha
              split at ha
              · simp at ha
              · simp at ha; exact ha.1.symm
              · split at ha <;> simp at ha
            | ok it => simp [ha] at h; refine Or.inr ⟨b, p, it, hlt, ?_⟩; rw [← h.1, ha]
theorem insertMulti_add {v : ε} {s' : St ε} {r : Except Err It} (h : insertMulti c s v = .ok (s', r)) : s' = s ∨ ∃ b p it, b < s.nb ∧ add s b p v = .ok (s', .ok it) := by
  unfold insertMulti at h
  by_cases hfull : full s = true
  · rw [if_pos hfull] at h; simp at h; exact Or.inl h.1.symm
  rw [if_neg hfull] at h
  cases hi : index c s (c.key v) with
  | error u => rw [hi] at h; simp at h
  | ok b =>
    rw [hi] at h
    cases hb : bucket s b with
    | error u => simp [hb] at h
    | ok l =>
      have hlt : b < s.nb := by
        unfold bucket at hb; by_contra hn; rw [if_neg hn] at hb; simp at hb
      simp only [hb] at h
      cases hs : search s (fun w => c.eq (c.key w) (c.key v)) .before l with
      | error u => rw [hs] at h; simp at h
      | ok q =>
        obtain ⟨p, o⟩ := q
        rw [hs] at h
        simp only at h
        cases r with
        | ok it => exact Or.inr ⟨b, p, it, hlt, h⟩
        | error e =>
          refine Or.inl ?_
          unfold add at h
          split at h
          · simp at h
          · simp at h; exact h.1.symm
          · split at h <;> simp at h
theorem insertSet_add {v : ε} {s' : St ε} {r : Except Err (It × Bool)} (h : insertSet c s v = .ok (s', r)) : s' = s ∨ ∃ b p it, b < s.nb ∧ add s b p v = .ok (s', .ok it) := by
  unfold insertSet at h
  by_cases hfull : full s = true
  · rw [if_pos hfull] at h
    split at h
    · simp at h
    · split at h <;> · simp at h; exact Or.inl h.1.symm
  · rw [if_neg hfull] at h; exact insertBody_add h
theorem observe_state {it : It} {g : List ε → Out ε} {s' : St ε} {out : Out ε} (h : observe s it g = .ok (s', out)) : s' = s := by
  unfold observe at h; split at h <;> simp at h; exact h.1.symm
theorem stepInsert_state {x : Res (St ε × Except Err (It × Bool))} {s' : St ε} {out : Out ε} (h : stepInsert x = .ok (s', out)) : ∃ r, x = .ok (s', r) := by
  unfold stepInsert at h
  split at h
  · simp at h
  · simp at h; rw [h.1]; exact ⟨_, rfl⟩
  · have := observe_state h; rw [this]; exact ⟨_, rfl⟩
theorem stepInsertM_state {x : Res (St ε × Except Err It)} {s' : St ε} {out : Out ε} (h : stepInsertM x = .ok (s', out)) : ∃ r, x = .ok (s', r) := by
  unfold stepInsertM at h
  split at h
  · simp at h
  · simp at h; rw [h.1]; exact ⟨_, rfl⟩
  · have := observe_state h; rw [this]; exact ⟨_, rfl⟩

/-- The calls that erase nothing, or everything. -/
def NoErase : Op κ ε → Prop
  | .insert _ => True
  | .clear => True
  | .find _ => True
  | _ => False

/-- The states reached by insertions, look-ups and `clear()` only. -/
inductive Grown (kind : Kind) (c : Cfg κ ε) (nb cap : Nat) : St ε → Prop where
  | start : Grown kind c nb cap (init nb cap)
  | step {s s' : St ε} {op : Op κ ε} {out : Out ε} : Grown kind c nb cap s → NoErase op → step kind c s op = .ok (s', out) → Grown kind c nb cap s'

theorem grown_fresh (hc : Ok c) {nb cap : Nat} (hnb : 0 < nb) {s : St ε} (h : Grown kind c nb cap s) : Reach kind c nb cap s ∧ Fresh s := by
  induction h with
  | start =>
    refine ⟨.start, ?_⟩
    intro ho
    exact absurd (spanN_nil (fun _ _ _ => rfl)) ho
  | step _ hop hstep ih =>
    rename_i s s' op out hg
    obtain ⟨hr, hf⟩ := ih
    obtain ⟨m, h1, h2, h3, h4⟩ := reach_sim hc hnb hr
    have hl : Legal kind c.key m op := by cases op <;> first | trivial | exact absurd hop (by simp [NoErase])
    obtain ⟨s1, out1, m', g1, g2, g3, g4, g5, g6⟩ := step_spec hc h1 h2 op hl
    rw [hstep] at g1
    injection g1 with g1
    injection g1 with g1 _
    rw [← g1] at g2
    refine ⟨.step hr h1.contents hl hstep, ?_⟩
    cases op with
    | insert v =>
      have hcase : s' = s ∨ ∃ b p it, b < s.nb ∧ add s b p v = .ok (s', .ok it) := by
        cases kind with
        | map =>
          obtain ⟨r, hr⟩ := stepInsert_state hstep
          unfold insertMap at hr
          by_cases hfull : full s = true
          · rw [if_pos hfull] at hr; simp at hr; exact Or.inl hr.1.symm
          · rw [if_neg hfull] at hr; exact insertBody_add hr
        | set => obtain ⟨r, hr⟩ := stepInsert_state hstep; exact insertSet_add hr
        | multi => obtain ⟨r, hr⟩ := stepInsertM_state hstep; exact insertMulti_add hr
      rcases hcase with e | ⟨b, p, it, hb, ha⟩
      · rw [e]; exact hf
      · exact fresh_add h1 g2 hb ha hf
    | clear =>
      have hm' : m' = [] := g6.1
      intro ho
      have := g2.len
      rw [hm'] at this
      exact absurd (List.length_eq_zero_iff.mp this) ho
    | find k =>
      have : s' = s := by
        simp only [step] at hstep
        split at hstep
        · simp at hstep
        · exact observe_state hstep
      rw [this]; exact hf
    | _ => exact absurd hop (by simp [NoErase])

/-- C59, except for a range that ends at `end()` and does not begin at `begin()` when elements have been erased before: there the claim is false (`stale_marker_runs_off`, `stale_marker_keeps_element`). -/
theorem C59_erase_range_partial {hash : κ → Nat} {eq : κ → κ → Bool} {key : ε → κ} (hh : IsHash hash eq) {nb cap : Nat} (hnb : 0 < nb) {s : St ε} (h : Reach kind ⟨hash, eq, key⟩ nb cap s) {m : List ε} (hm : contents s = .ok m)
    (i j : Nat) (hij : i ≤ j) (hj : j ≤ m.length) (hcase : j < m.length ∨ (i = 0 ∧ j = m.length) ∨ Grown kind ⟨hash, eq, key⟩ nb cap s) :
    ∃ s', step kind ⟨hash, eq, key⟩ s (.eraseRange i j) = .ok (s', .it (m.drop j)) ∧ contents s' = .ok (m.take i ++ m.drop j) := by
  have hc : Ok (⟨hash, eq, key⟩ : Cfg κ ε) := hh.ok key
  obtain ⟨m0, h1, h2, h3, h4⟩ := reach_sim hc hnb h
  rw [h1.contents] at hm
  injection hm with hm
  subst hm
  have go : Legal kind key m0 (.eraseRange i j : Op κ ε) → ∃ s', step kind ⟨hash, eq, key⟩ s (.eraseRange i j) = .ok (s', .it (m0.drop j)) ∧ contents s' = .ok (m0.take i ++ m0.drop j) := by
    intro hl
    obtain ⟨s', out, m', g1, g2, g3, g4, g5, g6, g7⟩ := step_spec hc h1 h2 _ hl
    rw [g7] at g1
    exact ⟨s', g1, by rw [g2.contents, g6]⟩
  rcases hcase with h5 | h5 | h5
  · exact go (Or.inl ⟨hij, h5⟩)
  · exact go (Or.inr h5)
  · obtain ⟨s', out, g1, g2, g3⟩ := eraseRange_fresh (kind := kind) h1 (grown_fresh hc hnb h5).2 i j hij hj
    rw [g3] at g1
    exact ⟨s', g1, g2.contents⟩

/-! ### Examples and findings -/

/-- numbers modulo 3 as the hash: many collisions -/
theorem isHash_mod3 : IsHash (fun n : Nat => n % 3) (· == ·) := ⟨by simp, by intro a b; simp; exact Eq.symm, by intro a b d; simp; exact Eq.trans, by intro a b; simp; rintro rfl; rfl⟩
theorem isHash_id : IsHash (fun n : Nat => n) (· == ·) := ⟨by simp, by intro a b; simp; exact Eq.symm, by intro a b d; simp; exact Eq.trans, by intro a b; simp⟩

/-- run the calls and look at the elements and the last result -/
def run (kind : Kind) (c : Cfg κ ε) : St ε → List (Op κ ε) → Res (St ε)
  | s, [] => .ok s
  | s, op :: ops => match step kind c s op with
    | .error u => .error u
    | .ok (s, _) => run kind c s ops
def after? (kind : Kind) (c : Cfg κ ε) (nb cap : Nat) (ops : List (Op κ ε)) : Res (List ε) := match run kind c (init nb cap) ops with
  | .error u => .error u
  | .ok s => contents s

theorem run_append (kind : Kind) (c : Cfg κ ε) (s : St ε) (a b : List (Op κ ε)) : run kind c s (a ++ b) = match run kind c s a with
    | .error u => .error u
    | .ok s => run kind c s b := by
  induction a generalizing s with
  | nil => rfl
  | cons x a ih =>
    simp only [List.cons_append, run]
    cases step kind c s x with
    | error u => rfl
    | ok q => exact ih q.1

/-- Any list of insertions gives a reachable (grown) state. -/
theorem grown_run {nb cap : Nat} (ops : List (Op κ ε)) (hops : ∀ o ∈ ops, NoErase o) : ∀ {s s' : St ε}, Grown kind c nb cap s → run kind c s ops = .ok s' → Grown kind c nb cap s' := by
  induction ops with
  | nil => intro s s' h e; simp [run] at e; rw [← e]; exact h
  | cons o ops ih =>
    intro s s' h e
    simp only [run] at e
    split at e
    · simp at e
    · rename_i s1 out heq
      exact ih (fun x hx => hops x (List.mem_cons_of_mem _ hx)) (.step h (hops o List.mem_cons_self) heq) e

/-- insertions with collisions, a duplicate, an erase, an assignment through `operator[]`; everything is legal, so this is a reachable state of C17 -/
example : after? .map (mapCfg (fun n : Nat => n % 3) (· == ·)) 3 4 [.insert (1, 10), .insert (4, 40), .insert (4, 41), .insert (2, 20), .erase 1, .sub 7 (7, 0) (fun v => (v.1, 5)), .eraseAt 2] = .ok [(7, 5), (4, 40)] := by decide +kernel
example : ∃ s : St (Nat × Nat), Reach .map (mapCfg (fun n : Nat => n % 3) (· == ·)) 3 4 s ∧ contents s = .ok [(1, 10), (4, 40), (2, 20)] := by
  obtain ⟨s, hs⟩ : ∃ s : St (Nat × Nat), run .map (mapCfg (fun n : Nat => n % 3) (· == ·)) (init 3 4) [.insert (1, 10), .insert (4, 40), .insert (4, 41), .insert (2, 20)] = .ok s := ⟨_, rfl⟩
  refine ⟨s, (grown_fresh (isHash_mod3.ok _) (by decide) (grown_run _ (by simp [NoErase]) .start hs)).1, ?_⟩
  have : after? .map (mapCfg (fun n : Nat => n % 3) (· == ·)) 3 4 [.insert (1, 10), .insert (4, 40), .insert (4, 41), .insert (2, 20)] = .ok [((1 : Nat), 10), (4, 40), (2, 20)] := by decide +kernel
  unfold after? at this; rw [hs] at this; exact this
example : after? .multi (mapCfg (fun n : Nat => n % 3) (· == ·)) 3 6 [.insert (1, 10), .insert (4, 40), .insert (1, 11), .insert (2, 20), .insert (4, 41)] = .ok [((1 : Nat), 11), (1, 10), (4, 41), (4, 40), (2, 20)] := by decide +kernel
example : after? .set (setCfg (fun n : Nat => n % 3) (· == ·)) 3 3 [.insert 5, .insert 8, .insert 3, .insert 8, .insert 9] = .ok [(3 : Nat), 5, 8] := by decide +kernel

/-- FINDING: a map that is full refuses to look at an element that it has: `insert` of an existing key reports "full" instead of `(iterator, false)`. -/
theorem insert_existing_when_full : (match run .map (mapCfg (fun n : Nat => n % 3) (· == ·)) (init 3 1 : St (Nat × Nat)) [.insert (1, 10)] with
    | .ok s => (match insertMap (mapCfg (fun n : Nat => n % 3) (· == ·)) s (1, 11) with | .ok (_, .error .full) => true | _ => false)
    | .error _ => false) = true := by decide +kernel
/-- FINDING: `insert` of an existing key returns `end()` and not the element. -/
theorem insert_existing_returns_end : (match run .map (mapCfg (fun n : Nat => n % 3) (· == ·)) (init 3 2 : St (Nat × Nat)) [.insert (1, 10)] with
    | .ok s => (match insertMap (mapCfg (fun n : Nat => n % 3) (· == ·)) s (1, 11) with | .ok (s', .ok (it, false)) => eqIt it (endIt s') | _ => false)
    | .error _ => false) = true := by decide +kernel
/-- FINDING: three elements in the last bucket and one in the first; one of the three is erased: the search for the last bucket does not look at the old one, so `last` is now the first bucket and `erase(it, end())` runs off the end of the buckets. -/
theorem stale_marker_runs_off : after? .set (setCfg (fun n : Nat => n) (· == ·)) 6 8 [.insert 0, .insert 5, .insert 11, .insert 17, .erase 5] = .ok [(0 : Nat), 11, 17] ∧
    after? .set (setCfg (fun n : Nat => n) (· == ·)) 6 8 [.insert 0, .insert 5, .insert 11, .insert 17, .erase (5 : Nat), .eraseRange 1 3] = .error .outOfBounds := by decide +kernel
/-- FINDING: with an element in between, `erase(it, end())` stops too early and leaves an element. -/
theorem stale_marker_keeps_element : after? .set (setCfg (fun n : Nat => n) (· == ·)) 6 8 [.insert 0, .insert 3, .insert 5, .insert 11, .erase 5] = .ok [(0 : Nat), 3, 11] ∧
    after? .set (setCfg (fun n : Nat => n) (· == ·)) 6 8 [.insert 0, .insert 3, .insert 5, .insert 11, .erase (5 : Nat), .eraseRange 1 3] = .ok [0, 11] := by decide +kernel
/-- FINDING: an iterator that was incremented up to the end is `== end()` but has another bucket: given to `erase(first, last)` the loop runs off the buckets. -/
theorem advanced_end_runs_off : (match run .set (setCfg (fun n : Nat => n) (· == ·)) (init 6 8) [.insert 0, .insert 3, .insert (4 : Nat)] with
    | .ok s => (match beginIt s with
      | .ok b => (match advance s 1 b, advance s 3 b with
        | .ok f, .ok l => eqIt l (endIt s) && (match eraseRange s f l with | .error .outOfBounds => true | _ => false)
        | _, _ => false)
      | _ => false)
    | .error _ => false) = true := by decide +kernel

end Etl.UMap
