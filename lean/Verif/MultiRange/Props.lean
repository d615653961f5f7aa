import Verif.MultiRange.Model
import Mathlib.Tactic.SplitIfs

/-!
# Properties of multi_range (C76)
-/
namespace Etl.MultiRange

variable {α : Type}

/-! ## Specification -/

/-- The ranges reached from `p`, outermost first. -/
inductive Chain (inner : Links) : Option Nat → List Nat → Prop where
  | nil : Chain inner none []
  | cons {i : Nat} {l : List Nat} : Chain inner (inner i) l → Chain inner (some i) (i :: l)

/-- `vs` are the values of a range that is not empty: from `first` on by steps, as long as the comparison with `last` holds. -/
structure Vals (r : Rng α) (vs : List α) : Prop where
  head : vs.head? = some r.first
  steps : ∀ k x y, vs[k]? = some x → vs[k + 1]? = some y → y = r.stp x
  inside : ∀ x ∈ vs, r.cmp x r.last = true
  stop : ∀ x, vs.getLast? = some x → r.cmp (r.stp x) r.last = false

/-- Nested loops: all the combinations, the first list outermost. -/
def product : List (List α) → List (List α)
  | [] => [[]]
  | l :: ls => l.flatMap (fun x => (product ls).map (fun t => x :: t))

/-! ## Iteration -/

theorem product_length (l : List α) (ls : List (List α)) : (product (l :: ls)).length = l.length * (product ls).length := by
  have e : ∀ l : List α, product (l :: ls) = l.flatMap (fun x => (product ls).map (fun t => x :: t)) := fun _ => rfl
  rw [e]
  induction l with
  | nil => simp
  | cons x l ih => rw [List.flatMap_cons, List.length_append, ih, List.length_map, List.length_cons, Nat.add_mul]; omega

theorem product_get (l : List α) (ls : List (List α)) (a b : Nat) (x : α) (t : List α) (ha : l[a]? = some x) (hb : (product ls)[b]? = some t) :
    (product (l :: ls))[a * (product ls).length + b]? = some (x :: t) := by
  have hbl := (List.getElem?_eq_some_iff.mp hb).1
  have e : ∀ l : List α, product (l :: ls) = l.flatMap (fun x => (product ls).map (fun t => x :: t)) := fun _ => rfl
  rw [e]
  induction l generalizing a with
  | nil => simp at ha
  | cons y l ih =>
    rw [List.flatMap_cons]
    cases a with
    | zero =>
      rw [List.getElem?_cons_zero] at ha
      rw [Nat.zero_mul, Nat.zero_add, List.getElem?_append_left (by rw [List.length_map]; exact hbl), List.getElem?_map, hb, Option.some.inj ha]; rfl
    | succ a =>
      rw [List.getElem?_cons_succ] at ha
      rw [List.getElem?_append_right (by rw [List.length_map, Nat.add_mul]; omega), List.length_map, ← ih a ha]
      congr 1
      rw [Nat.add_mul]; omega

/-- The ranges `ids` have the values `vss`. -/
def Cfg (h : Heap α) : List Nat → List (List α) → Prop
  | [], [] => True
  | i :: ids, vs :: vss => Vals (h i) vs ∧ Cfg h ids vss
  | _, _ => False

/-- The ranges stand at combination number `n`. -/
def At (h : Heap α) : List Nat → List (List α) → Nat → Prop
  | i :: ids, vs :: vss, n => ∃ a b, vs[a]? = some (h i).cur ∧ At h ids vss b ∧ n = a * (product vss).length + b
  | _, _, n => n = 0

/-- The static members are the same. -/
def Same (r r' : Rng α) : Prop := r'.first = r.first ∧ r'.last = r.last ∧ r'.stp = r.stp ∧ r'.cmp = r.cmp

theorem Same.vals {r r' : Rng α} (h : Same r r') {vs : List α} (hv : Vals r vs) : Vals r' vs := by
  obtain ⟨h1, h2, h3, h4⟩ := h
  exact ⟨by rw [h1]; exact hv.head, by rw [h3]; exact hv.steps, by rw [h4, h2]; exact hv.inside, by rw [h3, h4, h2]; exact hv.stop⟩

theorem Cfg.frame {h h' : Heap α} : ∀ {ids : List Nat} {vss : List (List α)}, Cfg h ids vss → (∀ k ∈ ids, Same (h k) (h' k)) → Cfg h' ids vss
  | [], [], _, _ => trivial
  | [], _ :: _, hc, _ => hc.elim
  | _ :: _, [], hc, _ => hc.elim
  | i :: ids, vs :: vss, hc, hs => ⟨(hs i List.mem_cons_self).vals hc.1, hc.2.frame (fun k hk => hs k (List.mem_cons_of_mem _ hk))⟩

theorem At.frame {h h' : Heap α} : ∀ {ids : List Nat} {vss : List (List α)} {n : Nat}, At h ids vss n → (∀ k ∈ ids, (h' k).cur = (h k).cur) → At h' ids vss n
  | [], [], _, ha, _ => ha
  | [], _ :: _, _, ha, _ => ha
  | _ :: _, [], _, ha, _ => ha
  | i :: ids, vs :: vss, n, ha, hs => by
    obtain ⟨a, b, h1, h2, h3⟩ := ha
    exact ⟨a, b, by rw [hs i List.mem_cons_self]; exact h1, h2.frame (fun k hk => hs k (List.mem_cons_of_mem _ hk)), h3⟩

theorem At.get {h : Heap α} : ∀ {ids : List Nat} {vss : List (List α)} {n : Nat}, Cfg h ids vss → At h ids vss n → (product vss)[n]? = some (ids.map (fun k => (h k).cur))
  | [], [], n, _, ha => by have : n = 0 := ha; subst this; rfl
  | [], _ :: _, _, hc, _ => hc.elim
  | _ :: _, [], _, hc, _ => hc.elim
  | i :: ids, vs :: vss, n, hc, ha => by
    obtain ⟨a, b, h1, h2, h3⟩ := ha
    rw [h3]
    exact product_get vs vss a b _ _ h1 (At.get hc.2 h2)

theorem product_pos {h : Heap α} : ∀ {ids : List Nat} {vss : List (List α)}, Cfg h ids vss → 0 < (product vss).length
  | [], [], _ => by simp [product]
  | [], _ :: _, hc => hc.elim
  | _ :: _, [], hc => hc.elim
  | i :: ids, vs :: vss, hc => by
    rw [product_length]
    have hne : vs ≠ [] := by intro e; have := hc.1.head; rw [e] at this; simp at this
    exact Nat.mul_pos (List.length_pos_iff.mpr hne) (product_pos hc.2)

theorem upd_self_same (h : Heap α) (i : Nat) (d : Bool) : ∀ k, Same (h k) (upd h i { h i with done := d } k) ∧ (upd h i { h i with done := d } k).cur = (h k).cur := by
  intro k
  by_cases hk : k = i
  · subst hk; rw [upd_same]; exact ⟨⟨rfl, rfl, rfl, rfl⟩, rfl⟩
  · rw [upd_other _ _ hk]; exact ⟨⟨rfl, rfl, rfl, rfl⟩, rfl⟩

/-- One step of a range: to the next value, or back to the first. -/
theorem step_ok {h : Heap α} {i : Nat} {vs : List α} (hv : Vals (h i) vs) {a : Nat} (ha : vs[a]? = some (h i).cur) :
    (∀ k, Same (h k) (step h i k)) ∧ (∀ k, k ≠ i → step h i k = h k) ∧
    (if a + 1 < vs.length then vs[a + 1]? = some (step h i i).cur ∧ (step h i i).done = false else vs[0]? = some (step h i i).cur ∧ (step h i i).done = true) := by
  have hal := (List.getElem?_eq_some_iff.mp ha).1
  refine ⟨?_, fun k hk => by unfold step; rw [upd_other _ _ hk], ?_⟩
  · intro k
    by_cases hk : k = i
    · subst hk; unfold step; rw [upd_same]; exact ⟨rfl, rfl, rfl, rfl⟩
    · unfold step; rw [upd_other _ _ hk]; exact ⟨rfl, rfl, rfl, rfl⟩
  · by_cases hlt : a + 1 < vs.length
    · rw [if_pos hlt]
      have e := hv.steps a _ _ ha (List.getElem?_eq_getElem hlt)
      have hin := hv.inside _ (List.getElem_mem hlt)
      rw [e] at hin
      unfold step
      rw [upd_same]
      simp only [hin, Bool.not_true]
      rw [List.getElem?_eq_getElem hlt, e]
      exact ⟨rfl, trivial⟩
    · rw [if_neg hlt]
      have hlast : vs.getLast? = some (h i).cur := by
        rw [List.getLast?_eq_getElem?, ← ha]; congr 1; omega
      have hs := hv.stop _ hlast
      unfold step
      rw [upd_same]
      simp only [hs, Bool.not_false, if_true]
      exact ⟨by rw [← List.head?_eq_getElem?]; exact hv.head, trivial⟩

theorem Chain.head {inner : Links} {p : Option Nat} {l : List Nat} (h : Chain inner p l) : p = l.head? := by
  cases h <;> rfl

theorem At.lt {h : Heap α} {ids : List Nat} {vss : List (List α)} {n : Nat} (hc : Cfg h ids vss) (ha : At h ids vss n) : n < (product vss).length :=
  (List.getElem?_eq_some_iff.mp (At.get hc ha)).1

theorem next_ok (inner : Links) (fuel : Nat) : ∀ {h : Heap α} {i : Nat} {rest : List Nat} {vss : List (List α)} {n : Nat}, Chain inner (some i) (i :: rest) → (i :: rest).Nodup → (i :: rest).length ≤ fuel →
    Cfg h (i :: rest) vss → At h (i :: rest) vss n → ∃ h', next inner fuel h i = .ok h' ∧ Cfg h' (i :: rest) vss ∧ (∀ k, Same (h k) (h' k)) ∧ (∀ k, k ∉ i :: rest → h' k = h k) ∧
      (if n + 1 < (product vss).length then At h' (i :: rest) vss (n + 1) ∧ (h' i).done = false else At h' (i :: rest) vss 0 ∧ (h' i).done = true) := by
  induction fuel with
  | zero => intro h i rest vss n _ _ hf; simp at hf
  | succ fuel ih =>
    intro h i rest vss n hch hnd hf hc ha
    cases vss with
    | nil => exact hc.elim
    | cons vs vss =>
    obtain ⟨a, b, h1, h2, h3⟩ := ha
    have hal := (List.getElem?_eq_some_iff.mp h1).1
    have hS := upd_self_same h i false
    generalize hg : upd h i { h i with done := false } = g at hS
    have hgo : ∀ k, k ≠ i → g k = h k := fun k hk => by rw [← hg, upd_other _ _ hk]
    have hgd : (g i).done = false := by rw [← hg, upd_same]
    have hcg : Cfg g (i :: rest) (vs :: vss) := hc.frame (fun k _ => (hS k).1)
    have h1g : vs[a]? = some (g i).cur := by rw [(hS i).2]; exact h1
    have h2g : At g rest vss b := h2.frame (fun k _ => (hS k).2)
    have hni : i ∉ rest := (List.nodup_cons.mp hnd).1
    have hunf : next inner (fuel + 1) h i = (match inner i with
      | some j => do
        let h ← next inner fuel g j
        if (h j).done then .ok (step h i) else .ok h
      | none => .ok (step g i)) := by rw [← hg]; rfl
    have hbP := At.lt hcg.2 h2g
    cases hch with
    | cons hch' =>
    cases rest with
    | nil =>
      have hin : inner i = none := hch'.head
      cases vss with
      | cons _ _ => exact hcg.2.elim
      | nil =>
      have hb0 : b = 0 := h2
      have hP : (product (α := α) []).length = 1 := rfl
      rw [product_length, hP]
      rw [hP] at h3
      obtain ⟨s1, s2, s3⟩ := step_ok hcg.1 h1g
      refine ⟨step g i, ?_, hcg.frame (fun k _ => s1 k), ?_, ?_, ?_⟩
      · rw [hunf, hin]
      · intro k
        obtain ⟨p1, p2, p3, p4⟩ := (hS k).1
        obtain ⟨q1, q2, q3, q4⟩ := s1 k
        exact ⟨q1.trans p1, q2.trans p2, q3.trans p3, q4.trans p4⟩
      · intro k hk
        have hki : k ≠ i := fun e => hk (e ▸ List.mem_cons_self)
        rw [s2 k hki, hgo k hki]
      · by_cases hlt : a + 1 < vs.length
        · rw [if_pos hlt] at s3
          rw [if_pos (by omega)]
          exact ⟨⟨a + 1, 0, s3.1, rfl, by rw [hP]; omega⟩, s3.2⟩
        · rw [if_neg hlt] at s3
          rw [if_neg (by omega)]
          exact ⟨⟨0, 0, s3.1, rfl, by omega⟩, s3.2⟩
    | cons j rest =>
      have hin : inner i = some j := hch'.head
      rw [hin] at hch'
      obtain ⟨g', k1, k2, k3, k4, k5⟩ := ih hch' (List.nodup_cons.mp hnd).2 (by simp only [List.length_cons] at hf ⊢; omega) hcg.2 h2g
      have hgi : g' i = g i := k4 i hni
      have hSg : ∀ k, Same (h k) (g' k) := fun k => by
        obtain ⟨p1, p2, p3, p4⟩ := (hS k).1
        obtain ⟨q1, q2, q3, q4⟩ := k3 k
        exact ⟨q1.trans p1, q2.trans p2, q3.trans p3, q4.trans p4⟩
      have hcg' : Cfg g' (i :: j :: rest) (vs :: vss) := hcg.frame (fun k _ => k3 k)
      have h1g' : vs[a]? = some (g' i).cur := by rw [hgi]; exact h1g
      have hout : ∀ k, k ∉ i :: j :: rest → g' k = h k := fun k hk => by
        rw [k4 k (fun hm => hk (List.mem_cons_of_mem _ hm)), hgo k (fun e => hk (e ▸ List.mem_cons_self))]
      rw [product_length]
      by_cases hb : b + 1 < (product vss).length
      · rw [if_pos hb] at k5
        refine ⟨g', ?_, hcg', hSg, hout, ?_⟩
        · rw [hunf, hin]
          simp only [bind, Except.bind, k1]
          rw [if_neg (by rw [k5.2]; decide)]
        · have hlt : n + 1 < vs.length * (product vss).length := by
            have : (a + 1) * (product vss).length ≤ vs.length * (product vss).length := Nat.mul_le_mul_right _ (by omega)
            rw [Nat.add_mul] at this; omega
          rw [if_pos hlt]
          exact ⟨⟨a, b + 1, h1g', k5.1, by omega⟩, by rw [hgi]; exact hgd⟩
      · rw [if_neg hb] at k5
        obtain ⟨s1, s2, s3⟩ := step_ok hcg'.1 h1g'
        have hAt : At (step g' i) (j :: rest) vss 0 := k5.1.frame (fun k hk => by rw [s2 k (fun e => hni (e ▸ hk))])
        refine ⟨step g' i, ?_, hcg'.frame (fun k _ => s1 k), ?_, ?_, ?_⟩
        · rw [hunf, hin]
          simp only [bind, Except.bind, k1]
          rw [if_pos k5.2]
        · intro k
          obtain ⟨p1, p2, p3, p4⟩ := hSg k
          obtain ⟨q1, q2, q3, q4⟩ := s1 k
          exact ⟨q1.trans p1, q2.trans p2, q3.trans p3, q4.trans p4⟩
        · intro k hk
          rw [s2 k (fun e => hk (e ▸ List.mem_cons_self)), hout k hk]
        · by_cases hlt : a + 1 < vs.length
          · rw [if_pos hlt] at s3
            have : (a + 1 + 1) * (product vss).length ≤ vs.length * (product vss).length := Nat.mul_le_mul_right _ (by omega)
            rw [Nat.add_mul, Nat.add_mul] at this
            rw [if_pos (by omega)]
            exact ⟨⟨a + 1, 0, s3.1, hAt, by rw [Nat.add_mul]; omega⟩, s3.2⟩
          · rw [if_neg hlt] at s3
            have hva : vs.length = a + 1 := by omega
            rw [if_neg (by rw [hva, Nat.add_mul]; omega)]
            exact ⟨⟨0, 0, s3.1, hAt, by omega⟩, s3.2⟩

theorem start_ok (inner : Links) (fuel : Nat) : ∀ {h : Heap α} {i : Nat} {rest : List Nat} {vss : List (List α)}, Chain inner (some i) (i :: rest) → (i :: rest).Nodup → (i :: rest).length ≤ fuel →
    Cfg h (i :: rest) vss → ∃ h', start inner fuel h i = .ok h' ∧ Cfg h' (i :: rest) vss ∧ (∀ k, Same (h k) (h' k)) ∧ (∀ k, k ∉ i :: rest → h' k = h k) ∧ At h' (i :: rest) vss 0 ∧ (h' i).done = false := by
  induction fuel with
  | zero => intro h i rest vss _ _ hf; simp at hf
  | succ fuel ih =>
    intro h i rest vss hch hnd hf hc
    cases vss with
    | nil => exact hc.elim
    | cons vs vss =>
    have hni : i ∉ rest := (List.nodup_cons.mp hnd).1
    have key : ∃ g, (match inner i with | none => Except.ok h | some j => start inner fuel h j) = Except.ok g ∧ Cfg g (i :: rest) (vs :: vss) ∧ (∀ k, Same (h k) (g k)) ∧ (∀ k, k ∉ rest → g k = h k) ∧ At g rest vss 0 := by
      cases hch with
      | cons hch' =>
      cases rest with
      | nil =>
        have hin : inner i = none := hch'.head
        rw [hin]
        exact ⟨h, rfl, hc, fun k => ⟨rfl, rfl, rfl, rfl⟩, fun _ _ => rfl, rfl⟩
      | cons j rest =>
        have hin : inner i = some j := hch'.head
        rw [hin] at hch'
        obtain ⟨g, k1, k2, k3, k4, k5, k6⟩ := ih hch' (List.nodup_cons.mp hnd).2 (by simp only [List.length_cons] at hf ⊢; omega) hc.2
        rw [hin]
        exact ⟨g, k1, hc.frame (fun k _ => k3 k), k3, k4, k5⟩
    obtain ⟨g, k1, k2, k3, k4, k5⟩ := key
    have hv := k2.1
    have hcmp : (g i).cmp (g i).first (g i).last = true := hv.inside _ (List.mem_of_mem_head? hv.head)
    refine ⟨upd g i { g i with cur := (g i).first, done := !(g i).cmp (g i).first (g i).last }, ?_, ?_, ?_, ?_, ?_, ?_⟩
    · unfold start
      cases hin : inner i with
      | none => rw [hin] at k1; cases k1; rfl
      | some j => rw [hin] at k1; simp only [bind, Except.bind]; rw [show start inner fuel h j = Except.ok g from k1]
    · refine k2.frame (fun k _ => ?_)
      by_cases hk : k = i
      · subst hk; rw [upd_same]; exact ⟨rfl, rfl, rfl, rfl⟩
      · rw [upd_other _ _ hk]; exact ⟨rfl, rfl, rfl, rfl⟩
    · intro k
      by_cases hk : k = i
      · subst hk; rw [upd_same]; exact k3 k
      · rw [upd_other _ _ hk]; exact k3 k
    · intro k hk
      rw [upd_other _ _ (fun (e : k = i) => hk (by rw [e]; exact List.mem_cons_self)), k4 k (fun hm => hk (List.mem_cons_of_mem _ hm))]
    · refine ⟨0, 0, ?_, k5.frame (fun k hk => by rw [upd_other _ _ (fun (e : k = i) => hni (by rw [← e]; exact hk))]), by omega⟩
      rw [upd_same, ← List.head?_eq_getElem?]
      exact hv.head
    · rw [upd_same]
      show (!(g i).cmp (g i).first (g i).last) = false
      rw [hcmp]; rfl

theorem rounds_ok (inner : Links) (fuel : Nat) {i : Nat} {rest : List Nat} {vss : List (List α)} (ids : List Nat) (hch : Chain inner (some i) (i :: rest)) (hnd : (i :: rest).Nodup) (hf : (i :: rest).length ≤ fuel)
    (n : Nat) : ∀ (k : Nat) (h : Heap α), Cfg h (i :: rest) vss → At h (i :: rest) vss k → (h i).done = false → (product vss).length < n + k →
    ∃ vs h', rounds inner fuel ids i n h = .ok (vs, h') ∧ (ids = i :: rest → vs = (product vss).drop k) ∧ vs.length = (product vss).length - k ∧ (h' i).done = true ∧ Cfg h' (i :: rest) vss ∧ (∀ k, Same (h k) (h' k)) ∧ At h' (i :: rest) vss 0 := by
  induction n with
  | zero => intro k h hc ha _ hn; have := At.lt hc ha; omega
  | succ n ih =>
    intro k h hc ha hd hn
    have hg := At.get hc ha
    have hlt := At.lt hc ha
    obtain ⟨h1, k1, k2, k3, k4, k5⟩ := next_ok inner fuel hch hnd hf hc ha
    by_cases hk : k + 1 < (product vss).length
    · rw [if_pos hk] at k5
      obtain ⟨vs, h2, r1, r2, r3, r4, r5, r6, r7⟩ := ih (k + 1) h1 k2 k5.1 k5.2 (by omega)
      refine ⟨ids.map (fun k => (h k).cur) :: vs, h2, ?_, ?_, ?_, r4, r5, ?_, r7⟩
      · unfold rounds
        rw [if_neg (by rw [hd]; decide)]
        simp only [bind, Except.bind, k1, r1]
      · intro e
        rw [List.drop_eq_getElem_cons hlt, r2 e, e]
        rw [List.getElem?_eq_getElem hlt] at hg
        rw [Option.some.inj hg]
      · rw [List.length_cons, r3]; omega
      · intro j
        obtain ⟨p1, p2, p3, p4⟩ := k3 j
        obtain ⟨q1, q2, q3, q4⟩ := r6 j
        exact ⟨q1.trans p1, q2.trans p2, q3.trans p3, q4.trans p4⟩
    · rw [if_neg hk] at k5
      obtain ⟨m, rfl⟩ : ∃ m, n = m + 1 := ⟨n - 1, by omega⟩
      refine ⟨[ids.map (fun k => (h k).cur)], h1, ?_, ?_, by simp; omega, k5.2, k2, k3, k5.1⟩
      · unfold rounds
        rw [if_neg (by rw [hd]; decide)]
        simp only [bind, Except.bind, k1]
        unfold rounds
        rw [if_pos k5.2]
      · intro e
        rw [List.drop_eq_getElem_cons hlt, List.drop_of_length_le (by omega), e]
        rw [List.getElem?_eq_getElem hlt] at hg
        rw [Option.some.inj hg]

theorem Chain.det {inner : Links} {p : Option Nat} {l m : List Nat} (h : Chain inner p l) (h' : Chain inner p m) : l = m := by
  induction h generalizing m with
  | nil => cases h'; rfl
  | cons _ ih => cases h' with | cons h' => rw [ih h']

theorem Chain.split {inner : Links} {p : Option Nat} {l : List Nat} (h : Chain inner p l) : ∀ {k : Nat}, k ∈ l → ∃ l1 l2, l = l1 ++ k :: l2 ∧ Chain inner (some k) (k :: l2) := by
  induction h with
  | nil => intro k hk; cases hk
  | @cons i l hc ih =>
    intro k hk
    rcases List.mem_cons.mp hk with e | e
    · subst e; exact ⟨[], l, rfl, Chain.cons hc⟩
    · obtain ⟨l1, l2, h1, h2⟩ := ih e
      exact ⟨i :: l1, l2, by rw [h1]; rfl, h2⟩

theorem Chain.nodup {inner : Links} {p : Option Nat} {l : List Nat} (h : Chain inner p l) : l.Nodup := by
  induction h with
  | nil => exact List.nodup_nil
  | @cons i l hc ih =>
    refine List.nodup_cons.mpr ⟨fun hk => ?_, ih⟩
    obtain ⟨l1, l2, h1, h2⟩ := hc.split hk
    have := (Chain.cons hc).det h2
    have e : l = l2 := (List.cons.inj this).2
    have := congrArg List.length h1
    rw [e, List.length_append, List.length_cons] at this
    omega

/-- C76: for a chain of any ranges none of which is empty, `for (start(); !completed(); next())` runs through all combinations of their values, each once, in the order of nested loops, and ends; the ranges are at their
first values again, so that the same can be repeated; ranges that are not in the chain stay as they are; and `number_of_iterations` is the number of the combinations. -/
theorem C76_all_combinations (inner : Links) (h : Heap α) (i : Nat) (rest : List Nat) (vss : List (List α)) (hch : Chain inner (some i) (i :: rest)) (hc : Cfg h (i :: rest) vss)
    (fuel n : Nat) (hf : (i :: rest).length ≤ fuel) (hn : (product vss).length < n) :
    (∃ h', iterate inner fuel n (i :: rest) h i = .ok (product vss, h') ∧ Cfg h' (i :: rest) vss ∧ (∀ k, Same (h k) (h' k)) ∧ (h' i).done = true ∧ ∀ k ∈ i :: rest, (h' k).cur = (h' k).first) ∧
    ∃ h', numberOfIterations inner fuel n h i = .ok ((vss.map List.length).prod, h') := by
  have hnd := hch.nodup
  obtain ⟨g, s1, s2, s3, s4, s5, s6⟩ := start_ok inner fuel hch hnd hf hc
  have firsts : ∀ {h : Heap α} {ids : List Nat} {vss : List (List α)}, Cfg h ids vss → At h ids vss 0 → ∀ k ∈ ids, (h k).cur = (h k).first := by
    intro h ids
    induction ids with
    | nil => intro vss _ _ k hk; simp at hk
    | cons j ids ih =>
      intro vss hc ha k hk
      cases vss with
      | nil => exact hc.elim
      | cons vs vss =>
        obtain ⟨a, b, h1, h2, h3⟩ := ha
        have hp := product_pos hc.2
        have ha0 : a = 0 := by
          rcases Nat.eq_zero_or_pos a with e | e
          · exact e
          · have : 1 * (product vss).length ≤ a * (product vss).length := Nat.mul_le_mul_right _ e
            omega
        subst ha0
        have hb0 : b = 0 := by omega
        subst hb0
        rcases List.mem_cons.mp hk with e | e
        · subst e
          have := hc.1.head
          rw [List.head?_eq_getElem?, h1] at this
          exact Option.some.inj this
        · exact ih hc.2 h2 k e
  have plen : ∀ vss : List (List α), (product vss).length = (vss.map List.length).prod := by
    intro vss
    induction vss with
    | nil => rfl
    | cons vs vss ih => rw [product_length, ih]; rfl
  constructor
  · obtain ⟨vs, h', r1, r2, r3, r4, r5, r6, r7⟩ := rounds_ok inner fuel (i :: rest) hch hnd hf n 0 g s2 s5 s6 (by omega)
    refine ⟨h', ?_, r5, ?_, r4, firsts r5 r7⟩
    · unfold iterate
      simp only [bind, Except.bind, s1]
      rw [r1, r2 rfl]; rfl
    · intro k
      obtain ⟨p1, p2, p3, p4⟩ := s3 k
      obtain ⟨q1, q2, q3, q4⟩ := r6 k
      exact ⟨q1.trans p1, q2.trans p2, q3.trans p3, q4.trans p4⟩
  · obtain ⟨vs, h', r1, r2, r3, r4, r5, r6, r7⟩ := rounds_ok inner fuel [] hch hnd hf n 0 g s2 s5 s6 (by omega)
    refine ⟨h', ?_⟩
    unfold numberOfIterations iterate
    simp only [bind, Except.bind, s1, r1]
    rw [r3, Nat.sub_zero, plen]

/-- C76: an empty outermost range: no round at all. -/
theorem C76_empty (inner : Links) (h : Heap α) (i : Nat) (rest : List Nat) (hch : Chain inner (some i) (i :: rest)) (hc : (h i).cmp (h i).first (h i).last = false)
    (fuel n : Nat) (hf : (i :: rest).length ≤ fuel) (hn : 0 < n) :
    (∃ h', iterate inner fuel n (i :: rest) h i = .ok ([], h')) ∧ ∃ h', numberOfIterations inner fuel n h i = .ok (0, h') := by
  have key : ∀ (fuel : Nat) (p : Option Nat) (l : List Nat), Chain inner p l → l.length ≤ fuel → ∀ j, p = some j → ∃ h', start inner fuel h j = .ok h' ∧ (∀ k, k ∉ l → h' k = h k) ∧ ((h j).cmp (h j).first (h j).last = false → j ∉ l.tail → (h' j).done = true) := by
    intro fuel
    induction fuel with
    | zero => intro p l hch hf j hp; subst hp; cases hch; simp at hf
    | succ fuel ih =>
      intro p l hch hf j hp
      subst hp
      cases hch with
      | @cons _ l hch' =>
      have fin : ∀ g : Heap α, (∀ k, k ∉ l → g k = h k) → (∀ k, k ∉ j :: l → upd g j { g j with cur := (g j).first, done := !(g j).cmp (g j).first (g j).last } k = h k) ∧
          ((h j).cmp (h j).first (h j).last = false → j ∉ l → (upd g j { g j with cur := (g j).first, done := !(g j).cmp (g j).first (g j).last } j).done = true) := by
        intro g hg
        constructor
        · intro k hk
          rw [upd_other _ _ (fun (e : k = j) => hk (by rw [e]; exact List.mem_cons_self)), hg k (fun hm => hk (List.mem_cons_of_mem _ hm))]
        · intro hc hj
          rw [upd_same]
          show (!(g j).cmp (g j).first (g j).last) = true
          rw [hg j hj, hc]; rfl
      cases hin : inner j with
      | none =>
        refine ⟨upd h j { h j with cur := (h j).first, done := !(h j).cmp (h j).first (h j).last }, ?_, fin h (fun _ _ => rfl)⟩
        unfold start; rw [hin]; rfl
      | some q =>
        rw [hin] at hch'
        obtain ⟨g, k1, k2, _⟩ := ih _ _ hch' (by simp only [List.length_cons] at hf; omega) q rfl
        refine ⟨upd g j { g j with cur := (g j).first, done := !(g j).cmp (g j).first (g j).last }, ?_, fin g k2⟩
        unfold start; rw [hin]; simp only [bind, Except.bind]; rw [k1]
  obtain ⟨h', k1, _, k3⟩ := key fuel _ _ hch hf i rfl
  have hd := k3 hc (List.nodup_cons.mp hch.nodup).1
  obtain ⟨m, rfl⟩ : ∃ m, n = m + 1 := ⟨n - 1, by omega⟩
  have hr : ∀ ids, rounds inner fuel ids i (m + 1) h' = .ok ([], h') := fun ids => by unfold rounds; rw [if_pos hd]
  refine ⟨⟨h', ?_⟩, ⟨h', ?_⟩⟩
  · unfold iterate; simp only [bind, Except.bind, k1]; exact hr _
  · unfold numberOfIterations iterate; simp only [bind, Except.bind, k1]; rw [hr]; rfl

/-! ## Links -/

theorem Chain.frame {inner inner' : Links} {p : Option Nat} {l : List Nat} (h : Chain inner p l) : (∀ k ∈ l, inner' k = inner k) → Chain inner' p l := by
  induction h with
  | nil => intro _; exact Chain.nil
  | @cons i l _ ih =>
    intro hk
    refine Chain.cons ?_
    rw [hk i List.mem_cons_self]
    exact ih (fun k h => hk k (List.mem_cons_of_mem _ h))

/-- Linking another chain to the end of a chain. -/
theorem Chain.link {inner : Links} {p q : Option Nat} {l m : List Nat} (h : Chain inner p l) : ∀ {e : Nat}, l.getLast? = some e → Chain inner q m → (∀ k ∈ l, k ∉ m) → Chain (upd inner e q) p (l ++ m) := by
  induction h with
  | nil => intro e he; simp at he
  | @cons i l hc ih =>
    intro e he hq hd
    have hnd := (Chain.cons hc).nodup
    cases l with
    | nil =>
      simp at he
      subst he
      refine Chain.cons ?_
      rw [upd_same]
      exact hq.frame (fun k hk => upd_other _ _ (fun (e : k = i) => hd i List.mem_cons_self (by rw [← e]; exact hk)))
    | cons j l =>
      have he' : (j :: l).getLast? = some e := by rw [List.getLast?_cons_cons] at he; exact he
      have hem : e ∈ j :: l := List.mem_of_getLast? he'
      refine Chain.cons ?_
      rw [upd_other _ _ (fun (h : i = e) => (List.nodup_cons.mp hnd).1 (by rw [h]; exact hem))]
      exact ih he' hq (fun k hk => hd k (List.mem_cons_of_mem _ hk))

theorem isValid_eq {inner : Links} {p : Option Nat} {l : List Nat} (h : Chain inner p l) (self : Nat) : ∀ {fuel : Nat}, l.length ≤ fuel → isValid inner self fuel p = .ok (decide (self ∉ l)) := by
  induction h with
  | nil => intro fuel _; unfold isValid; simp
  | @cons i l _ ih =>
    intro fuel hf
    obtain ⟨f, rfl⟩ : ∃ f, fuel = f + 1 := ⟨fuel - 1, by simp only [List.length_cons] at hf; omega⟩
    unfold isValid
    by_cases e : i = self
    · subst e; rw [if_pos rfl]; simp
    · rw [if_neg e, ih (by simp only [List.length_cons] at hf; omega)]
      congr 1
      have e' : self ≠ i := fun h => e h.symm
      simp [e']

theorem lastOf_eq {inner : Links} (fuel : Nat) : ∀ {s e : Nat} {l : List Nat}, Chain inner (some s) l → l.getLast? = some e → l.length ≤ fuel → lastOf inner fuel s = .ok e := by
  induction fuel with
  | zero => intro s e l h _ hf; cases h; simp at hf
  | succ fuel ih =>
    intro s e l h he hf
    cases h with
    | @cons _ l hc =>
    unfold lastOf
    cases l with
    | nil => rw [hc.head]; simp at he; simp [he]
    | cons j l =>
      rw [hc.head]
      have hc' : Chain inner (some j) (j :: l) := by have h0 := hc.head; rw [h0] at hc; exact hc
      exact ih hc' (by rw [List.getLast?_cons_cons] at he; exact he) (by simp only [List.length_cons] at hf ⊢; omega)

theorem append_eq {inner : Links} {x vf : Nat} {m : List Nat} (hm : Chain inner (some x) m) (hvf : m.length ≤ vf) (fuel : Nat) : ∀ {s : Nat} {l : List Nat}, Chain inner (some s) l → l.length ≤ fuel →
    ((∀ k ∈ l, k ∉ m) → ∃ e, l.getLast? = some e ∧ append inner x vf fuel s = .ok (some (upd inner e (some x)))) ∧ (¬ (∀ k ∈ l, k ∉ m) → append inner x vf fuel s = .ok none) := by
  induction fuel with
  | zero => intro s l h hf; cases h; simp at hf
  | succ fuel ih =>
    intro s l h hf
    cases h with
    | @cons _ l hc =>
    have hv := isValid_eq hm s hvf
    have hunf : append inner x vf (fuel + 1) s = (do
      if ← isValid inner s vf (some x) then
        match inner s with
        | some q => append inner x vf fuel q
        | none => .ok (some (upd inner s (some x)))
      else .ok none) := rfl
    by_cases hs : s ∈ m
    · constructor
      · intro hd; exact absurd hs (hd s List.mem_cons_self)
      · intro _
        rw [hunf, hv]
        simp only [bind, Except.bind]
        rw [if_neg (by simp [hs])]
    · have hstep : append inner x vf (fuel + 1) s = (match inner s with
        | some q => append inner x vf fuel q
        | none => .ok (some (upd inner s (some x)))) := by
        rw [hunf, hv]
        simp only [bind, Except.bind]
        rw [if_pos (by simp [hs])]
      cases l with
      | nil =>
        have hin : inner s = none := hc.head
        rw [hstep, hin]
        constructor
        · intro _; exact ⟨s, rfl, rfl⟩
        · intro hd; exact absurd (fun k hk => by rw [List.mem_singleton.mp hk]; exact hs) hd
      | cons j l =>
        have hin : inner s = some j := hc.head
        rw [hin] at hc
        obtain ⟨i1, i2⟩ := ih hc (by simp only [List.length_cons] at hf ⊢; omega)
        rw [hstep, hin]
        constructor
        · intro hd
          obtain ⟨e, h1, h2⟩ := i1 (fun k hk => hd k (List.mem_cons_of_mem _ hk))
          exact ⟨e, by rw [List.getLast?_cons_cons]; exact h1, h2⟩
        · intro hd
          refine i2 (fun hd' => hd (fun k hk => ?_))
          rcases List.mem_cons.mp hk with e | e
          · rw [e]; exact hs
          · exact hd' k e

/-- C76: `append` puts the ranges of `x` after the innermost range, when the two chains have no range in common, and is refused (the assertion) otherwise. -/
theorem C76_append (inner : Links) (s x : Nat) (l m : List Nat) (hl : Chain inner (some s) l) (hm : Chain inner (some x) m) (vf fuel : Nat) (hvf : m.length ≤ vf) (hf : l.length ≤ fuel) :
    ((∀ k ∈ l, k ∉ m) → ∃ inner', append inner x vf fuel s = .ok (some inner') ∧ Chain inner' (some s) (l ++ m) ∧ Chain inner' (some x) m ∧ ∀ k, k ∉ l → inner' k = inner k) ∧
    (¬ (∀ k ∈ l, k ∉ m) → append inner x vf fuel s = .ok none) := by
  obtain ⟨h1, h2⟩ := append_eq hm hvf fuel hl hf
  refine ⟨fun hd => ?_, h2⟩
  obtain ⟨e, e1, e2⟩ := h1 hd
  have hel : e ∈ l := List.mem_of_getLast? e1
  refine ⟨upd inner e (some x), e2, hl.link e1 hm hd, hm.frame (fun k hk => upd_other _ _ (fun (h : k = e) => hd e hel (by rw [← h]; exact hk))), fun k hk => upd_other _ _ (fun (h : k = e) => hk (by rw [h]; exact hel))⟩

/-- C76: `insert` puts the ranges of `x` after this range and before its inner ones, when the two chains have no range in common; it is refused when this range is among the ranges of `x`. -/
theorem C76_insert (inner : Links) (s x : Nat) (l m : List Nat) (hl : Chain inner (some s) (s :: l)) (hm : Chain inner (some x) m) (fuel : Nat) (hf : m.length ≤ fuel) :
    ((∀ k ∈ s :: l, k ∉ m) → ∃ inner', insert fuel inner s x = .ok (some inner') ∧ Chain inner' (some s) (s :: m ++ l) ∧ ∀ k, k ≠ s → k ∉ m → inner' k = inner k) ∧
    (s ∈ m → insert fuel inner s x = .ok none) := by
  have hv := isValid_eq hm s hf
  constructor
  · intro hd
    have hsm : s ∉ m := hd s List.mem_cons_self
    have hne : m ≠ [] := by intro e; rw [e] at hm; cases hm
    obtain ⟨e, he⟩ : ∃ e, m.getLast? = some e := ⟨_, List.getLast?_eq_some_getLast hne⟩
    have hem : e ∈ m := List.mem_of_getLast? he
    have hm' : Chain (upd inner s (some x)) (some x) m := hm.frame (fun k hk => upd_other _ _ (fun (h : k = s) => hsm (by rw [← h]; exact hk)))
    have hsl := (List.nodup_cons.mp hl.nodup).1
    have hl' : Chain (upd inner s (some x)) (inner s) l := by
      cases hl with
      | cons hc => exact hc.frame (fun k hk => upd_other _ _ (fun (h : k = s) => hsl (by rw [← h]; exact hk)))
    have hlast := lastOf_eq fuel hm' he hf
    have hse : s ≠ e := fun h => hsm (by rw [h]; exact hem)
    have hlink := hm'.link he hl' (fun k hk hkl => hd k (List.mem_cons_of_mem _ hkl) hk)
    refine ⟨upd (upd inner s (some x)) e (inner s), ?_, ?_, ?_⟩
    · unfold insert
      simp only [bind, Except.bind, hv]
      rw [if_pos (by simp [hsm])]
      simp only [hlast]
    · show Chain _ (some s) (s :: (m ++ l))
      refine Chain.cons ?_
      rw [upd_other _ _ hse, upd_same]
      exact hlink
    · intro k hk hkm
      rw [upd_other _ _ (fun (h : k = e) => hkm (by rw [h]; exact hem)), upd_other _ _ hk]
  · intro hs
    unfold insert
    simp only [bind, Except.bind, hv]
    rw [if_neg (by simp [hs])]

/-- C76: `number_of_ranges` counts the chain; `detach` leaves this range alone; `detach_all` takes the whole chain apart. -/
theorem C76_detach (inner : Links) (s : Nat) (l : List Nat) (hl : Chain inner (some s) l) (fuel : Nat) (hf : l.length ≤ fuel) :
    numberOfRanges fuel inner s = .ok l.length ∧ Chain (detach inner s) (some s) [s] ∧ (∀ k, k ≠ s → detach inner s k = inner k) ∧
    ∃ inner', detachAll fuel inner s = .ok inner' ∧ (∀ k ∈ l, Chain inner' (some k) [k]) ∧ ∀ k, k ∉ l → inner' k = inner k := by
  have num : ∀ (p : Option Nat) (l : List Nat), Chain inner p l → ∀ fuel n, l.length ≤ fuel → numberOf inner fuel p n = .ok (n + l.length) := by
    intro p l h
    induction h with
    | nil => intro fuel n _; unfold numberOf; rfl
    | @cons i l _ ih =>
      intro fuel n hf
      obtain ⟨f, rfl⟩ : ∃ f, fuel = f + 1 := ⟨fuel - 1, by simp only [List.length_cons] at hf; omega⟩
      unfold numberOf
      rw [ih f (n + 1) (by simp only [List.length_cons] at hf; omega), List.length_cons]
      congr 1; omega
  have det : ∀ (fuel : Nat) (s : Nat) (l : List Nat), Chain inner (some s) l → l.length ≤ fuel → ∃ inner', detachAll fuel inner s = .ok inner' ∧ (∀ k ∈ l, inner' k = none) ∧ ∀ k, k ∉ l → inner' k = inner k := by
    intro fuel
    induction fuel with
    | zero => intro s l h hf; cases h; simp at hf
    | succ fuel ih =>
      intro s l h hf
      cases h with
      | @cons _ l hc =>
      cases l with
      | nil =>
        have hin : inner s = none := hc.head
        refine ⟨detach inner s, by unfold detachAll; rw [hin], ?_, ?_⟩
        · intro k hk; rw [List.mem_singleton.mp hk]; unfold detach; rw [upd_same]
        · intro k hk; unfold detach; rw [upd_other _ _ (fun (h : k = s) => hk (by rw [h]; exact List.mem_cons_self))]
      | cons j l =>
        have hin : inner s = some j := hc.head
        rw [hin] at hc
        obtain ⟨g, g1, g2, g3⟩ := ih j _ hc (by simp only [List.length_cons] at hf ⊢; omega)
        refine ⟨detach g s, by unfold detachAll; rw [hin]; simp only [bind, Except.bind, g1], ?_, ?_⟩
        · intro k hk
          unfold detach
          by_cases e : k = s
          · rw [e, upd_same]
          · rw [upd_other _ _ e]
            rcases List.mem_cons.mp hk with h | h
            · exact absurd h e
            · exact g2 k h
        · intro k hk
          unfold detach
          rw [upd_other _ _ (fun (h : k = s) => hk (by rw [h]; exact List.mem_cons_self)), g3 k (fun hm => hk (List.mem_cons_of_mem _ hm))]
  refine ⟨?_, ?_, fun k hk => upd_other _ _ hk, ?_⟩
  · cases hl with
    | @cons _ l hc =>
    unfold numberOfRanges
    rw [num _ _ hc fuel 1 (by simp only [List.length_cons] at hf; omega), List.length_cons]
    congr 1; omega
  · refine Chain.cons ?_
    unfold detach; rw [upd_same]; exact Chain.nil
  · obtain ⟨g, g1, g2, g3⟩ := det fuel s l hl hf
    refine ⟨g, g1, fun k hk => Chain.cons ?_, g3⟩
    rw [g2 k hk]; exact Chain.nil

/-! ## Examples -/

/-- Range `k` of three: 0..2, 10..12 and 5..6. -/
def exHeap : Heap Nat := fun k => match k with
  | 0 => make 0 2 (· + 1) (fun a b => decide (a < b))
  | 1 => make 10 12 (· + 1) (fun a b => decide (a < b))
  | _ => make 5 6 (· + 1) (fun a b => decide (a < b))
def exLinks : Links := fun k => if k = 0 then some 1 else if k = 1 then some 2 else none

example : Chain exLinks (some 0) [0, 1, 2] ∧ Cfg exHeap [0, 1, 2] [[0, 1], [10, 11], [5]] := by
  have V : ∀ (a n : Nat) (vs : List Nat), vs = (List.range n).map (a + ·) → 0 < n → Vals (make a (a + n) (· + 1) (fun a b => decide (a < b))) vs := by
    intro a n vs hv hn
    subst hv
    refine ⟨?_, ?_, ?_, ?_⟩
    · rw [List.head?_eq_getElem?, List.getElem?_map, List.getElem?_range hn]; rfl
    · intro k x y hx hy
      have hk : k + 1 < n := by have := (List.getElem?_eq_some_iff.mp hy).1; simpa using this
      rw [List.getElem?_map, List.getElem?_range (by omega)] at hx
      rw [List.getElem?_map, List.getElem?_range hk] at hy
      cases hx; cases hy; rfl
    · intro x hx
      obtain ⟨k, hk, rfl⟩ := List.mem_map.mp hx
      have := List.mem_range.mp hk
      exact decide_eq_true (by show a + k < a + n; omega)
    · intro x hx
      rw [List.getLast?_eq_getElem?, List.getElem?_map, List.length_map, List.length_range, List.getElem?_range (by omega)] at hx
      cases hx
      exact decide_eq_false (by show ¬ a + (n - 1) + 1 < a + n; omega)
  refine ⟨Chain.cons (Chain.cons (Chain.cons Chain.nil)), V 0 2 _ (by decide) (by decide), V 10 2 _ (by decide) (by decide), V 5 1 _ (by decide) (by decide), trivial⟩

example : (iterate exLinks 3 10 [0, 1, 2] exHeap 0).map Prod.fst = .ok [[0, 10, 5], [0, 11, 5], [1, 10, 5], [1, 11, 5]] := by rfl

/-! ## Findings -/

/-- The cause why C76 asks every inner range to be not empty: an empty inner range does not give zero rounds, it is used once per round, and its value, `first`, is not in the range.  `start` looks at the outermost range only. -/
theorem C76_finding_empty_inner : (iterate (fun k => if k = 0 then some 1 else none) 3 10 [0, 1] (fun k => if k = 0 then make 0 2 (· + 1) (fun a b => decide (a < b)) else make 7 7 (· + 1) (fun a b => decide (a < b)))
    0).map Prod.fst = .ok [[0, 7], [1, 7]] := by rfl

/-- The cause why C76_insert asks for two chains without a common range: `insert` of a range that is already an inner one is not refused, and makes a loop: `number_of_ranges` and `next` do not end. -/
theorem C76_finding_insert_loop : ∃ inner' : Links, insert 2 (fun k => if k = 0 then some 1 else none) 0 1 = .ok (some inner') ∧ ∀ fuel, numberOfRanges fuel inner' 0 = .error .diverge := by
  refine ⟨upd (upd (fun k => if k = 0 then some 1 else none) 0 (some 1)) 1 (some 1), rfl, fun fuel => ?_⟩
  have key : ∀ fuel n, numberOf (upd (upd (fun k => if k = 0 then some 1 else none) 0 (some 1)) 1 (some 1)) fuel (some 1) n = .error .diverge := by
    intro fuel
    induction fuel with
    | zero => intro n; rfl
    | succ fuel ih => intro n; exact ih (n + 1)
  exact key fuel 1

end Etl.MultiRange
