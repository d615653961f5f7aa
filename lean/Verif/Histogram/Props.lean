import Verif.Histogram.Model
import Verif.Flat.Props
import Mathlib.Algebra.BigOperators.Group.List.Lemmas
import Mathlib.Data.List.Dedup

/-!
# Properties of histogram.h (C82)
-/
namespace Etl.Histogram
open Etl.Rng

/-! ## Lemmas -/

theorem fold_sum (M : Nat) (l : List Nat) : ∀ a, (l.foldl (fun s c => (s + c) % M) (a % M)) = (a + l.sum) % M := by
  induction l with
  | nil => intro a; simp
  | cons c l ih =>
    intro a
    rw [List.foldl_cons, List.sum_cons, Nat.mod_add_mod, ih (a + c), Nat.add_assoc]

theorem sum_set (l : List Nat) : ∀ (i x : Nat), l[i]? = some x → (l.set i (x + 1)).sum = l.sum + 1 := by
  induction l with
  | nil => intro i x h; simp at h
  | cons c l ih =>
    intro i x h
    cases i with
    | zero =>
      rw [List.getElem?_cons_zero] at h
      cases h
      rw [List.set_cons_zero, List.sum_cons, List.sum_cons]; omega
    | succ i =>
      rw [List.getElem?_cons_succ] at h
      rw [List.set_cons_succ, List.sum_cons, List.sum_cons, ih i x h]; omega

theorem sum_mod (M : Nat) (l : List Nat) : (l.map (· % M)).sum % M = l.sum % M := by
  induction l with
  | nil => rfl
  | cons c l ih => rw [List.map_cons, List.sum_cons, List.sum_cons, Nat.add_mod, ih, Nat.mod_mod, ← Nat.add_mod]

/-- The counters with nothing lost. -/
structure Ghost (s : Int) (n : Nat) (ks : List Int) (g : List Nat) : Prop where
  len : g.length = n
  sum : g.sum = ks.length
  cnt : ∀ j, j < n → g[j]? = some (ks.count (s + j))

theorem add_spec {w : Nat} {s : Int} {n : Nat} {ks : List Int} {g : List Nat} (hg : Ghost s n ks g) {k : Int} (h1 : s ≤ k) (h2 : k < s + n) :
    ∃ g', add w ⟨some s, g.map (· % 2 ^ w)⟩ k = .ok ⟨some s, g'.map (· % 2 ^ w)⟩ ∧ Ghost s n (k :: ks) g' := by
  obtain ⟨j, rfl⟩ : ∃ j : Nat, k = s + j := ⟨(k - s).toNat, by omega⟩
  have hj : j < n := by omega
  have hc := hg.cnt j hj
  have hi : idx ⟨some s, g.map (· % 2 ^ w)⟩ (s + j) = .ok j := by
    unfold idx
    simp only []
    rw [if_pos (by omega), show s + (j : Int) - s = j by omega]; rfl
  have hr : rd (g.map (· % 2 ^ w)) j = .ok (ks.count (s + j) % 2 ^ w) := by rw [rd_ok, List.getElem?_map, hc]; rfl
  refine ⟨g.set j (ks.count (s + j) + 1), ?_, ?_, ?_, ?_⟩
  · unfold add
    simp only [bind, Except.bind, hi, hr]
    rw [wr_lt _ (by rw [List.length_map, hg.len]; exact hj)]
    simp only []
    congr 2
    rw [List.map_set, Nat.mod_add_mod]
  · rw [List.length_set, hg.len]
  · rw [sum_set _ _ _ hc, hg.sum]; rfl
  · intro i hin
    rw [List.getElem?_set]
    by_cases h : j = i
    · subst h; rw [if_pos rfl, if_pos (by rw [hg.len]; exact hj), List.count_cons_self]
    · rw [if_neg h, hg.cnt i hin, List.count_cons_of_ne (by intro e; omega)]

theorem addAll_spec {w : Nat} {s : Int} {n : Nat} (ls : List Int) : ∀ {ks : List Int} {g : List Nat}, Ghost s n ks g → (∀ k ∈ ls, s ≤ k ∧ k < s + n) →
    ∃ g', addAll w ⟨some s, g.map (· % 2 ^ w)⟩ ls = .ok ⟨some s, g'.map (· % 2 ^ w)⟩ ∧ Ghost s n (ls.reverse ++ ks) g' := by
  induction ls with
  | nil => intro ks g hg _; exact ⟨g, rfl, hg⟩
  | cons k ls ih =>
    intro ks g hg hk
    obtain ⟨g1, e1, hg1⟩ := add_spec (w := w) hg (hk k (List.mem_cons_self ..)).1 (hk k (List.mem_cons_self ..)).2
    obtain ⟨g2, e2, hg2⟩ := ih hg1 (fun k h => hk k (List.mem_cons_of_mem _ h))
    refine ⟨g2, ?_, by rw [List.reverse_cons, List.append_assoc]; exact hg2⟩
    unfold addAll
    simp only [bind, Except.bind, e1, e2]

theorem ghost_init (s : Int) (n : Nat) : Ghost s n [] (List.replicate n 0) :=
  ⟨List.length_replicate, by simp, fun j hj => by rw [List.getElem?_replicate, if_pos hj]; rfl⟩

/-! ## Properties -/

/-- C82: whatever keys in range are added to a histogram, in whatever order, each counter holds the number of its key (modulo the width of the counters). -/
theorem C82_counts (w : Nat) (s : Int) (n : Nat) (ks : List Int) (hk : ∀ k ∈ ks, s ≤ k ∧ k < s + n) :
    ∃ h, addAll w (init s n) ks = .ok h ∧ h.acc.length = n ∧ ∀ k, s ≤ k → k < s + n → get h k = .ok (ks.count k % 2 ^ w) := by
  obtain ⟨g, e, hg⟩ := addAll_spec (w := w) ks (ghost_init s n) hk
  have hi : init s n = ⟨some s, (List.replicate n 0).map (· % 2 ^ w)⟩ := by unfold init; rw [List.map_replicate, Nat.zero_mod]
  refine ⟨_, hi ▸ e, by rw [List.length_map, hg.len], ?_⟩
  intro k h1 h2
  obtain ⟨j, rfl⟩ : ∃ j : Nat, k = s + j := ⟨(k - s).toNat, by omega⟩
  have hj : j < n := by omega
  have hx : idx ⟨some s, g.map (· % 2 ^ w)⟩ (s + j) = .ok j := by
    unfold idx
    simp only []
    rw [if_pos (by omega), show s + (j : Int) - s = j by omega]; rfl
  unfold get
  simp only [bind, Except.bind, hx]
  rw [rd_ok, List.getElem?_map, hg.cnt j hj, List.append_nil, List.count_reverse]; rfl

/-- C82: `count()` is the number of keys added, as long as no counter has wrapped. -/
theorem C82_count (w : Nat) (s : Int) (n : Nat) (ks : List Int) (hk : ∀ k ∈ ks, s ≤ k ∧ k < s + n) (hw : ∀ k, ks.count k < 2 ^ w) (hz : ks.length < 2 ^ 64) :
    ∃ h, addAll w (init s n) ks = .ok h ∧ count h = ks.length ∧ count (clear h) = 0 ∧ ∀ k, s ≤ k → k < s + n → get (clear h) k = .ok 0 := by
  obtain ⟨g, e, hg⟩ := addAll_spec (w := w) ks (ghost_init s n) hk
  have hi : init s n = ⟨some s, (List.replicate n 0).map (· % 2 ^ w)⟩ := by unfold init; rw [List.map_replicate, Nat.zero_mod]
  refine ⟨_, hi ▸ e, ?_, ?_, ?_⟩
  · unfold count
    have hm : g.map (· % 2 ^ w) = g := by
      refine List.ext_getElem? fun j => ?_
      rw [List.getElem?_map]
      by_cases hj : j < n
      · rw [hg.cnt j hj]
        show some (List.count (s + j) (ks.reverse ++ []) % 2 ^ w) = some _
        rw [Nat.mod_eq_of_lt (by rw [List.append_nil, List.count_reverse]; exact hw _)]
      · rw [List.getElem?_eq_none (by rw [hg.len]; omega)]; rfl
    rw [hm]
    have h := fold_sum (2 ^ 64) g 0
    rw [Nat.zero_mod] at h
    rw [h, Nat.zero_add, hg.sum, List.append_nil, List.length_reverse, Nat.mod_eq_of_lt hz]
  · unfold count clear
    have h := fold_sum (2 ^ 64) (List.replicate (g.map (· % 2 ^ w)).length 0) 0
    rw [Nat.zero_mod] at h
    rw [h]; simp
  · intro k h1 h2
    obtain ⟨j, rfl⟩ : ∃ j : Nat, k = s + j := ⟨(k - s).toNat, by omega⟩
    have hx : idx (clear ⟨some s, g.map (· % 2 ^ w)⟩) (s + j) = .ok j := by
      unfold idx clear
      simp only []
      rw [if_pos (by omega), show s + (j : Int) - s = j by omega]; rfl
    unfold get
    simp only [bind, Except.bind, hx]
    rw [rd_ok]
    show (List.replicate (g.map (· % 2 ^ w)).length 0)[j]? = _
    rw [List.getElem?_replicate, if_pos (by rw [List.length_map, hg.len]; omega)]

/-! # Sparse histograms -/

section
variable {κ : Type} [DecidableEq κ] {lt : κ → κ → Bool}

/-- The elements of the map are exactly the keys added, with their counts. -/
def Counts (w : Nat) (ks : List κ) (l : List (κ × Nat)) : Prop := ∀ k c, (k, c) ∈ l ↔ k ∈ ks ∧ c = ks.count k % 2 ^ w

theorem nodup_keys (h : StrictWeak lt) {l : List (κ × Nat)} (ho : Flat.Ordered Prod.fst lt false l) : (l.map Prod.fst).Nodup := by
  unfold Flat.Ordered at ho
  rw [if_neg (by decide)] at ho
  unfold StrictSortedBy at ho
  refine List.Nodup.of_map (fun x => x) ?_
  rw [List.map_map]
  refine List.pairwise_map.mpr (ho.imp ?_)
  intro a b hab e
  have e' : a.1 = b.1 := e
  have hab' : lt a.1 b.1 = true := hab
  rw [e', h.irrefl] at hab'; cases hab'

theorem eq_of_key {l : List (κ × Nat)} (hn : (l.map Prod.fst).Nodup) {i j : Nat} {x y : κ × Nat} (hi : l[i]? = some x) (hj : l[j]? = some y) (e : x.1 = y.1) : i = j := by
  obtain ⟨hi', ei⟩ := List.getElem?_eq_some_iff.mp hi
  obtain ⟨hj', ej⟩ := List.getElem?_eq_some_iff.mp hj
  have := (List.Nodup.getElem_inj_iff hn (i := i) (j := j) (hi := by rw [List.length_map]; exact hi') (hj := by rw [List.length_map]; exact hj')).mp (by rw [List.getElem_map, List.getElem_map, ei, ej, e])
  exact this

theorem has_iff_mem (h : StrictWeak lt) (heq : ∀ a b, equivBy lt a b = true → a = b) (l : List (κ × Nat)) (k : κ) : Flat.Has Prod.fst lt l k = true ↔ ∃ c, (k, c) ∈ l := by
  unfold Flat.Has
  rw [List.any_eq_true]
  constructor
  · rintro ⟨⟨k', c⟩, hm, he⟩
    have := heq _ _ he
    exact ⟨c, by rw [← show k' = k from this]; exact hm⟩
  · rintro ⟨c, hm⟩
    exact ⟨(k, c), hm, by simp [equivBy, h.irrefl]⟩

theorem length_dedup {w : Nat} {ks : List κ} {l : List (κ × Nat)} (hn : (l.map Prod.fst).Nodup) (hc : Counts w ks l) : (l.map Prod.fst).Perm ks.dedup := by
  refine (List.perm_ext_iff_of_nodup hn (List.nodup_dedup ks)).mpr fun k => ?_
  rw [List.mem_dedup, List.mem_map]
  constructor
  · rintro ⟨⟨k', c⟩, hm, rfl⟩; exact ((hc k' c).mp hm).1
  · intro hk; exact ⟨(k, ks.count k % 2 ^ w), (hc _ _).mpr ⟨hk, rfl⟩, rfl⟩

theorem mem_set {l : List (κ × Nat)} (hn : (l.map Prod.fst).Nodup) {i : Nat} {k : κ} {c d : Nat} (hi : l[i]? = some (k, c)) (k' : κ) (c' : Nat) :
    (k', c') ∈ l.set i (k, d) ↔ (k' = k ∧ c' = d) ∨ (k' ≠ k ∧ (k', c') ∈ l) := by
  have hlt := (List.getElem?_eq_some_iff.mp hi).1
  rw [List.mem_iff_getElem?]
  constructor
  · rintro ⟨j, hj⟩
    rw [List.getElem?_set] at hj
    by_cases hij : i = j
    · rw [if_pos hij, if_pos hlt] at hj
      cases hj; exact Or.inl ⟨rfl, rfl⟩
    · rw [if_neg hij] at hj
      refine Or.inr ⟨fun e => hij (eq_of_key hn hi hj (by exact e.symm)), List.mem_iff_getElem?.mpr ⟨j, hj⟩⟩
  · rintro (⟨rfl, rfl⟩ | ⟨hne, hm⟩)
    · exact ⟨i, by rw [List.getElem?_set, if_pos rfl, if_pos hlt]⟩
    · obtain ⟨j, hj⟩ := List.mem_iff_getElem?.mp hm
      refine ⟨j, ?_⟩
      rw [List.getElem?_set, if_neg ?_]
      · exact hj
      · intro e
        subst e
        rw [hi] at hj
        cases hj; exact hne rfl

theorem counts_set {w : Nat} {ks : List κ} {l : List (κ × Nat)} {k : κ} (l' : List (κ × Nat)) (hc : Counts w ks l)
    (hm : ∀ k' c', (k', c') ∈ l' ↔ (k' = k ∧ c' = (ks.count k % 2 ^ w + 1) % 2 ^ w) ∨ (k' ≠ k ∧ (k', c') ∈ l)) : Counts w (k :: ks) l' := by
  intro k' c'
  rw [hm]
  by_cases e : k' = k
  · subst e
    rw [List.count_cons_self, Nat.mod_add_mod]
    constructor
    · rintro (⟨_, h⟩ | ⟨h, _⟩)
      · exact ⟨List.mem_cons_self .., h⟩
      · exact absurd rfl h
    · rintro ⟨_, h⟩; exact Or.inl ⟨rfl, h⟩
  · rw [List.count_cons_of_ne (fun x => e x.symm), List.mem_cons, hc]
    constructor
    · rintro (⟨h, _⟩ | ⟨_, h1, h2⟩)
      · exact absurd h e
      · exact ⟨Or.inr h1, h2⟩
    · rintro ⟨h | h, h2⟩
      · exact absurd h e
      · exact Or.inr ⟨e, h, h2⟩

theorem sadd_spec (h : StrictWeak lt) (heq : ∀ a b, equivBy lt a b = true → a = b) {cap w : Nat} {dbg triv : Bool} {s : S κ} {l : List (κ × Nat)} {ks : List κ}
    (hi : Flat.Inv Prod.fst lt cap false true dbg triv s l) (hc : Counts w ks l) (k : κ) :
    if k ∈ ks ∨ ks.dedup.length < cap then ∃ s' l', sadd lt w s k = .ok (s', .ok) ∧ Flat.Inv Prod.fst lt cap false true dbg triv s' l' ∧ Counts w (k :: ks) l'
    else ∃ s', sadd lt w s k = .ok (s', .err .full) ∧ Flat.Inv Prod.fst lt cap false true dbg triv s' l := by
  have hn := nodup_keys h hi.ord
  have hp := (length_dedup hn hc).length_eq
  rw [List.length_map] at hp
  obtain ⟨s1, e1, hi1⟩ := Flat.step_sim h hi (.index (k, 0)) rfl
  have hmem : Flat.Has Prod.fst lt l k = true ↔ k ∈ ks := by
    rw [has_iff_mem h heq]
    exact ⟨fun ⟨c, hm⟩ => ((hc k c).mp hm).1, fun hk => ⟨_, (hc k _).mpr ⟨hk, rfl⟩⟩⟩
  unfold sadd
  -- the common end: the element found or made is written
  have fin : ∀ (l1 : List (κ × Nat)) (i c : Nat), Flat.Inv Prod.fst lt cap false true dbg triv s1 l1 → l1[i]? = some (k, c) → c = ks.count k % 2 ^ w → (∀ k' c', k' ≠ k → ((k', c') ∈ l1 ↔ (k', c') ∈ l)) →
      Flat.step Prod.fst lt s (.index (k, 0)) = .ok (s1, .it i) →
      ∃ s' l', (do
        let (s, o) ← Flat.step Prod.fst lt s (.index (k, 0))
        match o with
        | .it i =>
          let (k', c) ← Flat.readAt s i
          Flat.step Prod.fst lt s (.write i (k', (c + 1) % 2 ^ w))
        | o => .ok (s, o)) = .ok (s', .ok) ∧ Flat.Inv Prod.fst lt cap false true dbg triv s' l' ∧ Counts w (k :: ks) l' := by
    intro l1 i c hi1 hx hcx hl1 e1
    obtain ⟨s2, e2, hi2⟩ := Flat.step_sim h hi1 (.write i (k, (c + 1) % 2 ^ w)) ⟨(k, c), hx, rfl⟩
    refine ⟨s2, l1.set i (k, (c + 1) % 2 ^ w), ?_, hi2, counts_set _ hc ?_⟩
    · simp only [bind, Except.bind, e1]
      rw [Flat.readAt_ok hi1.view hx]
      exact e2
    · intro k' c'
      rw [mem_set (nodup_keys h hi1.ord) hx, hcx]
      constructor
      · rintro (q | ⟨q1, q2⟩)
        · exact Or.inl q
        · exact Or.inr ⟨q1, (hl1 k' c' q1).mp q2⟩
      · rintro (q | ⟨q1, q2⟩)
        · exact Or.inl q
        · exact Or.inr ⟨q1, (hl1 k' c' q1).mpr q2⟩
  by_cases hh : Flat.Has Prod.fst lt l k = true
  · rw [if_pos (Or.inl (hmem.mp hh))]
    have hq : Flat.specStep Prod.fst lt cap false true dbg l (.index (k, 0)) = (l, .it (Flat.below Prod.fst lt l k)) := if_pos hh
    rw [hq] at e1 hi1
    obtain ⟨⟨k', c⟩, hx, hxe⟩ := (Flat.shows_of_inv h hi).found k hh
    have hk : k' = k := heq _ _ hxe
    subst hk
    exact fin l _ c hi1 hx ((hc k' c).mp (List.mem_of_getElem? hx)).2 (fun _ _ _ => Iff.rfl) e1
  · have hks : k ∉ ks := fun e => hh (hmem.mpr e)
    by_cases hfull : l.length = cap
    · have hq : Flat.specStep Prod.fst lt cap false true dbg l (.index (k, 0)) = (l, .err .full) := (if_neg hh).trans (if_pos hfull)
      rw [hq] at e1 hi1
      rw [if_neg (by rw [← hp]; intro e; rcases e with e | e; exact hks e; omega)]
      refine ⟨s1, ?_, hi1⟩
      simp only [bind, Except.bind, e1]
    · have hle := hi.le
      have hq : Flat.specStep Prod.fst lt cap false true dbg l (.index (k, 0)) = (Flat.put Prod.fst lt l (k, 0), .it (Flat.upTo Prod.fst lt l k)) := (if_neg hh).trans (if_neg hfull)
      rw [hq] at e1 hi1
      rw [if_pos (Or.inr (by omega))]
      refine fin (Flat.put Prod.fst lt l (k, 0)) _ 0 hi1 ?_ (by rw [List.count_eq_zero.mpr hks, Nat.zero_mod]) ?_ e1
      · unfold Flat.put Flat.upTo
        rw [List.countP_eq_length_filter, List.getElem?_append_right (Nat.le_refl _), Nat.sub_self]; rfl
      · intro k' c' hne
        rw [(Flat.put_perm Prod.fst lt l (k, 0)).mem_iff, List.mem_append, List.mem_singleton]
        constructor
        · rintro (q | q)
          · exact q
          · cases q; exact absurd rfl hne
        · exact Or.inl

theorem saddAll_spec (h : StrictWeak lt) (heq : ∀ a b, equivBy lt a b = true → a = b) {cap w : Nat} {dbg triv : Bool} (ls : List κ) : ∀ {s : S κ} {l : List (κ × Nat)} {ks : List κ},
    Flat.Inv Prod.fst lt cap false true dbg triv s l → Counts w ks l → (ls.reverse ++ ks).dedup.length ≤ cap →
    ∃ s' l', saddAll lt w s ls = .ok (s', .ok) ∧ Flat.Inv Prod.fst lt cap false true dbg triv s' l' ∧ Counts w (ls.reverse ++ ks) l' := by
  induction ls with
  | nil => intro s l ks hi hc _; exact ⟨s, l, rfl, hi, hc⟩
  | cons k ls ih =>
    intro s l ks hi hc hcap
    rw [List.reverse_cons, List.append_assoc, List.singleton_append] at hcap ⊢
    have h1 := sadd_spec h heq hi hc k
    have hsub : (k :: ks).dedup.length ≤ cap := by
      refine Nat.le_trans (List.Subperm.length_le (List.subperm_of_subset (List.nodup_dedup _) ?_)) hcap
      intro x hx
      rw [List.mem_dedup] at hx ⊢
      exact List.mem_append_right _ hx
    rw [if_pos] at h1
    · obtain ⟨s1, l1, e1, hi1, hc1⟩ := h1
      obtain ⟨s2, l2, e2, hi2, hc2⟩ := ih hi1 hc1 hcap
      refine ⟨s2, l2, ?_, hi2, hc2⟩
      unfold saddAll
      simp only [bind, Except.bind, e1, e2]
    · by_cases hk : k ∈ ks
      · exact Or.inl hk
      · right
        rw [List.dedup_cons_of_notMem hk, List.length_cons] at hsub
        omega

/-- C82: whatever keys are added to a sparse histogram, in whatever order, as long as their different values fit: `operator []` gives for every key its number (modulo the width of the counters), and 0 for a key that was not
added; `size()` is the number of different keys; `count()` is the number of keys added modulo the width of the counters. -/
theorem C82_sparse (h : StrictWeak lt) (heq : ∀ a b, equivBy lt a b = true → a = b) (cap w : Nat) (dbg triv : Bool) (dk : κ) (ks : List κ) (hcap : ks.dedup.length ≤ cap) :
    ∃ s, saddAll lt w (sinit cap dbg triv) ks = .ok (s, .ok) ∧ (∀ k, sget lt dk s k = .ok (if k ∈ ks then (k, ks.count k % 2 ^ w) else (dk, 0))) ∧ ssize s = ks.dedup.length ∧
      scount w s = .ok (ks.length % 2 ^ w) := by
  have hd : ks.reverse.dedup.length = ks.dedup.length := by
    refine ((List.perm_ext_iff_of_nodup (List.nodup_dedup _) (List.nodup_dedup _)).mpr fun k => ?_).length_eq
    rw [List.mem_dedup, List.mem_dedup, List.mem_reverse]
  obtain ⟨s, l, e, hi, hc⟩ := saddAll_spec (w := w) h heq ks (s := sinit cap dbg triv) (l := []) (ks := []) (Flat.init_inv cap false true dbg triv) (fun k c => by simp) (by rw [List.append_nil, hd]; exact hcap)
  rw [List.append_nil] at hc
  have hn := nodup_keys h hi.ord
  have hp := length_dedup hn hc
  have hs := Flat.shows_of_inv h hi
  refine ⟨s, e, ?_, ?_, ?_⟩
  · intro k
    unfold sget
    simp only [bind, Except.bind, hs.find k]
    have hmem : Flat.Has Prod.fst lt l k = true ↔ k ∈ ks := by
      rw [has_iff_mem h heq]
      exact ⟨fun ⟨c, hm⟩ => List.mem_reverse.mp ((hc k c).mp hm).1, fun hk => ⟨_, (hc k _).mpr ⟨List.mem_reverse.mpr hk, rfl⟩⟩⟩
    by_cases hk : k ∈ ks
    · obtain ⟨⟨k', c⟩, hx, hxe⟩ := hs.found k (hmem.mpr hk)
      have hkk : k' = k := heq _ _ hxe
      subst hkk
      rw [if_pos (hmem.mpr hk), if_pos hk, hs.size, if_pos (by have := (List.getElem?_eq_some_iff.mp hx).1; omega), Flat.readAt_ok hi.view hx]
      rw [((hc k' c).mp (List.mem_of_getElem? hx)).2, List.count_reverse]
    · rw [if_neg (fun e => hk (hmem.mp e)), if_neg hk, hs.size, if_neg (by simp)]
  · unfold ssize
    rw [hs.size, ← hd, ← hp.length_eq, List.length_map]
  · unfold scount
    simp only [bind, Except.bind, hs.view]
    have hf : ∀ (l : List (κ × Nat)) a, l.foldl (fun a x => (a + x.2) % 2 ^ w) a = (l.map Prod.snd).foldl (fun s c => (s + c) % 2 ^ w) a := by
      intro l
      induction l with
      | nil => intro a; rfl
      | cons x l ih => intro a; exact ih _
    have hsum := fold_sum (2 ^ w) (l.map Prod.snd) 0
    rw [Nat.zero_mod, Nat.zero_add] at hsum
    rw [hf, hsum]
    have hl : l.map Prod.snd = ((l.map Prod.fst).map (fun k => ks.reverse.count k)).map (· % 2 ^ w) := by
      rw [List.map_map, List.map_map]
      refine List.map_congr_left fun x hx => ?_
      exact ((hc x.1 x.2).mp hx).2
    rw [hl, sum_mod, (hp.map _).sum_eq, List.sum_map_count_dedup_eq_length, List.length_reverse]

/-- C82: a new key when there is no room for it is refused with an error; nothing changes. -/
theorem C82_sparse_full (h : StrictWeak lt) (heq : ∀ a b, equivBy lt a b = true → a = b) (w : Nat) (dbg triv : Bool) (ks : List κ) (k : κ) (hk : k ∉ ks) :
    ∃ s s' l, saddAll lt w (sinit ks.dedup.length dbg triv) ks = .ok (s, .ok) ∧ sadd lt w s k = .ok (s', .err .full) ∧ Flat.view s = .ok l ∧ Flat.view s' = .ok l := by
  have hd : ks.reverse.dedup.length = ks.dedup.length := by
    refine ((List.perm_ext_iff_of_nodup (List.nodup_dedup _) (List.nodup_dedup _)).mpr fun k => ?_).length_eq
    rw [List.mem_dedup, List.mem_dedup, List.mem_reverse]
  obtain ⟨s, l, e, hi, hc⟩ := saddAll_spec (w := w) h heq ks (s := sinit ks.dedup.length dbg triv) (l := []) (ks := []) (Flat.init_inv _ false true dbg triv) (fun k c => by simp) (by rw [List.append_nil, hd])
  rw [List.append_nil] at hc
  have h1 := sadd_spec h heq hi hc k
  rw [if_neg (by rw [hd]; intro e; rcases e with e | e; exact hk (List.mem_reverse.mp e); omega)] at h1
  obtain ⟨s', e', hi'⟩ := h1
  exact ⟨s, s', l, e, e', hi.view, hi'.view⟩

end

/-! ## Examples -/

def intLt (a b : Int) : Bool := decide (a < b)

example : (addAll 8 (init (-1) 4) [0, 2, -1, 0, 0]).map (fun h => (h.acc, count h)) = .ok ([1, 3, 0, 1], 5) := by rfl
example : StrictWeak intLt ∧ ∀ a b, equivBy intLt a b = true → a = b := by
  refine ⟨⟨fun a => by simp [intLt], fun a b c h1 h2 => ?_, fun a b c h1 h2 h3 h4 => ?_⟩, fun a b h => ?_⟩
  · simp [intLt] at *; omega
  · simp [intLt] at *; omega
  · simp [equivBy, intLt] at h; omega
example : ((saddAll intLt 8 (sinit 4 true true) [7, -3, 7, 100, 7]).map (fun s => ([7, -3, 100, 5].map (fun k => (sget intLt 0 s.1 k).toOption), ssize s.1))) =
    .ok ([some (7, 3), some (-3, 1), some (100, 1), some (0, 0)], 3) := by rfl

/-! ## Findings -/

/-- `end()` and `cend()` of a sparse histogram are its beginning: a loop from `begin()` to `end()` never shows an element, whatever was added. -/
theorem C82_finding_sparse_end {κ : Type} (s : S κ) : send s = sbegin s := rfl

/-- The version with the start index given at run time does not copy it: a copy (or a moved one) has an uninitialised start index, so that every use of it is undefined; an assigned one counts for the wrong keys. -/
theorem C82_finding_copy (o : H) (k : Int) : get (copyCtor o) k = .error .deadAccess ∧ (∀ w, add w (copyCtor o) k = .error .deadAccess) ∧
    (do let o ← addAll 8 (init 10 4) [11, 11, 12]; get (assign (init 0 4) o) 1) = .ok 2 := ⟨rfl, fun _ => rfl, rfl⟩

/-- `count()` of a sparse histogram adds up in the type of the counters: two counters of 8 bits with 200 each give 144. -/
theorem C82_finding_sparse_count : ((saddAll intLt 8 (sinit 4 true true) (List.replicate 200 1 ++ List.replicate 200 2)).bind (fun s => scount 8 s.1)) = .ok 144 := by
  obtain ⟨s, e, _, _, h⟩ := C82_sparse (lt := intLt) ⟨fun a => by simp [intLt], fun a b c h1 h2 => by simp [intLt] at *; omega, fun a b c h1 h2 h3 h4 => by simp [intLt] at *; omega⟩
    (fun a b h => by simp [equivBy, intLt] at h; omega) 4 8 true true (0 : Int) (List.replicate 200 1 ++ List.replicate 200 2) (by decide +kernel)
  rw [e]
  show scount 8 s = _
  rw [h, List.length_append, List.length_replicate, List.length_replicate]; rfl

end Etl.Histogram
