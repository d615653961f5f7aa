import Verif.IStackQ.Model
import Mathlib.Data.List.Nodup
import Mathlib.Data.List.Induction
import Mathlib.Tactic.SplitIfs
import Mathlib.Tactic.Tauto

/-! # C69: intrusive stacks and queues -/
namespace Etl.IStackQ
open FLinks

/-! ## Specification: a list of items per container, the next to come out first -/

abbrev Sp := Nat → List Nat

inductive Op where
  | push (c v : Nat)
  | pop (c : Nat)
  | popInto (c d : Nat)
  | reverse (c : Nat)      -- stacks only
  | clear (c : Nat)
  deriving DecidableEq, Repr

/-- An item is in at most one container; it is linked if it is in one of the containers `0..K-1`. -/
def linked (K : Nat) (L : Sp) (v : Nat) : Bool := (List.range K).any (fun c => decide (v ∈ L c))

/-- A stack takes the new item at the front, a queue at the end. -/
def put (g : Cfg) (L : Sp) (c v : Nat) : Sp := upd L c (if g.queue c then L c ++ [v] else v :: L c)

/-- `none`: outside the contract.  Items are pushed by their (even, non-null) address; popping an empty container needs `ETL_CHECK_PUSH_POP`, and for `pop_into`
exceptions as well. -/
def specStep (K : Nat) (g : Cfg) (L : Sp) : Op → Option (Sp × Option Err)
  | .push c v =>
    if c < K ∧ v ≠ 0 ∧ v % 2 = 0 then (if linked K L v then some (L, some .linked) else some (put g L c v, none)) else none
  | .pop c =>
    if c < K then match L c with
      | [] => if g.check then some (L, some .empty) else none
      | _ :: l => some (upd L c l, none)
    else none
  | .popInto c d =>
    if c < K ∧ d < K then match L c with
      | [] => if g.check = true ∧ g.thr = true then some (L, some .empty) else none
      | v :: l => some (put g (upd L c l) d v, none)
    else none
  | .reverse c => if c < K ∧ g.queue c = false then some (upd L c (L c).reverse, none) else none
  | .clear c => if c < K then some (upd L c [], none) else none

/-- The code's operations. -/
def step (g : Cfg) (s : St) : Op → Res (St × Option Err)
  | .push c v => push g s c v
  | .pop c => pop g s c
  | .popInto c d => popInto g s c d
  | .reverse c => do let s ← reverse s c; .ok (s, none)
  | .clear c => do let s ← clear g s c; .ok (s, none)

/-- What a program can see of container `c`: `empty`, `size`, and, if it is not empty, `top`/`front` and (for queues) `back`. -/
structure Seen (g : Cfg) (s : St) (c : Nat) (l : List Nat) : Prop where
  empty : empty s c = l.isEmpty
  size : size s c = l.length
  front : ∀ v, l.head? = some v → front g s c = v
  back : g.queue c = true → ∀ v, l.getLast? = some v → back s c = v

/-! ## The invariant -/

structure Rel (K : Nat) (g : Cfg) (s : St) (L : Sp) : Prop where
  seg : ∀ c, Seg s.nx (front g s c) (L c) (term c)
  sz : ∀ c, s.sz c = (L c).length
  back : ∀ c, g.queue c = true → ∀ v, (L c).getLast? = some v → s.ptr c = v
  items : ∀ c, ∀ v ∈ L c, v ≠ 0 ∧ v % 2 = 0
  nd : ∀ c, (L c).Nodup
  apart : ∀ c c', c ≠ c' → ∀ v ∈ L c, v ∉ L c'
  free : ∀ v, v % 2 = 0 → (∀ c, v ∉ L c) → s.nx v = 0
  out : ∀ c, K ≤ c → L c = []

theorem term_odd (c : Nat) : term c % 2 = 1 := by unfold term; omega
theorem term_ne (c : Nat) : term c ≠ 0 := by unfold term; omega
theorem term_inj {c d : Nat} (h : term c = term d) : c = d := by unfold term at h; omega

theorem Rel.term_notin {K g s L} (h : Rel K g s L) (c d : Nat) : term c ∉ L d := fun hx => by
  have := (h.items d _ hx).2; rw [term_odd] at this; omega

theorem rel_init (K : Nat) (g : Cfg) : Rel K g (init g) (fun _ => []) := by
  refine ⟨?_, fun _ => rfl, by simp, by simp, by simp, by simp, ?_, fun _ _ => rfl⟩
  · intro c
    show front g (init g) c = term c
    unfold front init
    have h1 : term c % 2 = 1 := term_odd c
    have h2 : term c / 2 = c := by unfold term; omega
    split_ifs with hq <;> simp [h1, h2, hq]
  · intro v hv _
    simp [init, hv]

theorem linked_iff {K g s L} (h : Rel K g s L) {v : Nat} (hv : v ≠ 0) (he : v % 2 = 0) : isLinked s v = linked K L v := by
  by_cases hl : linked K L v = true
  · rw [hl]
    simp only [linked, List.any_eq_true, List.mem_range, decide_eq_true_eq] at hl
    obtain ⟨c, _, hc⟩ := hl
    have hs := h.seg c
    obtain ⟨A, B, hAB⟩ := List.append_of_mem hc
    rw [hAB, seg_mid] at hs
    have := hs.2.hd
    simp only [isLinked, bne_iff_ne]
    rw [this]
    cases B with
    | nil => exact term_ne c
    | cons b B => exact (h.items c b (hAB ▸ by simp)).1
  · have hn : ∀ c, v ∉ L c := by
      intro c hc
      by_cases hcK : c < K
      · exact hl (by simp only [linked, List.any_eq_true, List.mem_range, decide_eq_true_eq]; exact ⟨c, hcK, hc⟩)
      · rw [h.out c (by omega)] at hc; simp at hc
    simp only [Bool.not_eq_true] at hl
    rw [hl, isLinked, h.free v he hn]; rfl

theorem not_linked {K g s L} (h : Rel K g s L) {v : Nat} (hl : linked K L v = false) (c : Nat) : v ∉ L c := by
  intro hc
  by_cases hcK : c < K
  · have : linked K L v = true := by simp only [linked, List.any_eq_true, List.mem_range, decide_eq_true_eq]; exact ⟨c, hcK, hc⟩
    rw [this] at hl; cases hl
  · rw [h.out c (by omega)] at hc; simp at hc

theorem seen_of {K g s L} (h : Rel K g s L) (c : Nat) : Seen g s c (L c) := by
  refine ⟨?_, h.sz c, ?_, ?_⟩
  · rw [empty, h.sz c]; cases L c <;> rfl
  · intro v hv
    have hs := h.seg c
    cases hl : L c with
    | nil => rw [hl] at hv; cases hv
    | cons x l => rw [hl] at hv hs; cases hv; exact hs.1
  · intro hq v hv; exact h.back c hq v hv

theorem push_spec {K g s L} (h : Rel K g s L) {c v : Nat} (hc : c < K) (hv : v ≠ 0) (he : v % 2 = 0) (hl : linked K L v = false) :
    ∃ s', push g s c v = .ok (s', none) ∧ Rel K g s' (put g L c v) := by
  have hn := not_linked h hl
  have hlk : isLinked s v = false := by rw [linked_iff h hv he, hl]
  have hvt : ∀ d, v ≠ term d := fun d hd => by have := term_odd d; rw [← hd] at this; omega
  -- what does not depend on the kind of container
  have gen : ∀ s', (∀ d, d ≠ c → front g s' d = front g s d) → (∀ d, d ≠ c → s'.ptr d = s.ptr d) → (∀ d, d ≠ c → s'.sz d = s.sz d) → s'.sz c = s.sz c + 1 →
      (∀ d, d ≠ c → ∀ x ∈ L d, s'.nx x = s.nx x) → (∀ x, x % 2 = 0 → x ∉ L c → x ≠ v → s'.nx x = s.nx x) →
      Seg s'.nx (front g s' c) (put g L c v c) (term c) → (g.queue c = true → s'.ptr c = v) → Rel K g s' (put g L c v) := by
    intro s' h1 h2 h3 h4 h5 h6 h7 h8
    have hput : ∀ x, x ∈ put g L c v c ↔ x = v ∨ x ∈ L c := by
      intro x; simp only [put, upd_same]; split_ifs <;> simp; tauto
    refine ⟨?_, ?_, ?_, ?_, ?_, ?_, ?_, ?_⟩
    · intro d
      by_cases hd : d = c
      · subst hd; exact h7
      · rw [put, upd_other _ _ hd, h1 d hd]; exact (h.seg d).frame (h5 d hd)
    · intro d
      by_cases hd : d = c
      · subst hd; rw [h4, h.sz, put, upd_same]; split_ifs <;> simp
      · rw [put, upd_other _ _ hd, h3 d hd]; exact h.sz d
    · intro d hq x hx
      by_cases hd : d = c
      · subst hd; rw [put, upd_same, if_pos hq] at hx; simp at hx; rw [h8 hq, hx]
      · rw [put, upd_other _ _ hd] at hx; rw [h2 d hd]; exact h.back d hq x hx
    · intro d x hx
      by_cases hd : d = c
      · subst hd
        rcases (hput x).1 hx with rfl | hx
        · exact ⟨hv, he⟩
        · exact h.items d x hx
      · rw [put, upd_other _ _ hd] at hx; exact h.items d x hx
    · intro d
      by_cases hd : d = c
      · subst hd; rw [put, upd_same]
        split_ifs
        · rw [List.nodup_append]; refine ⟨h.nd d, by simp, ?_⟩
          intro x hx y hy; simp at hy; subst hy; rintro rfl; exact hn d hx
        · exact List.nodup_cons.2 ⟨hn d, h.nd d⟩
      · rw [put, upd_other _ _ hd]; exact h.nd d
    · intro d d' hdd x hx hx'
      by_cases hd : d = c
      · subst hd
        rw [put, upd_other _ _ hdd.symm] at hx'
        rcases (hput x).1 hx with rfl | hx
        · exact hn d' hx'
        · exact h.apart d d' hdd x hx hx'
      · rw [put, upd_other _ _ hd] at hx
        by_cases hd' : d' = c
        · subst hd'
          rcases (hput x).1 hx' with rfl | hx'
          · exact hn d hx
          · exact h.apart d d' hdd x hx hx'
        · rw [put, upd_other _ _ hd'] at hx'; exact h.apart d d' hdd x hx hx'
    · intro x hx hno
      have h0 : x ∉ put g L c v c := hno c
      rw [hput] at h0
      rw [h6 x hx (fun h => h0 (.inr h)) (fun h => h0 (.inl h))]
      refine h.free x hx (fun d hd => ?_)
      by_cases hdc : d = c
      · subst hdc; exact h0 (.inr hd)
      · have := hno d; rw [put, upd_other _ _ hdc] at this; exact this hd
    · intro d hd
      rw [put, upd_other _ _ (by omega)]; exact h.out d hd
  unfold push
  by_cases hq : g.queue c = true
  · rw [if_pos hq]
    unfold pushQueue
    rw [hlk]
    by_cases hemp : L c = []
    · have h0 : empty s c = true := by rw [(seen_of h c).empty, hemp]; rfl
      refine ⟨{ nx := upd (upd s.nx (term c) v) v (term c), ptr := upd s.ptr c v, sz := upd s.sz c (s.sz c + 1) }, ?_, gen _ ?_ ?_ ?_ ?_ ?_ ?_ ?_ ?_⟩
      · simp [h0, setNext, term_ne, hv, bind, Except.bind]
      · intro d hd; unfold front
        have : term d ≠ term c := fun h => hd (term_inj h)
        simp [upd, hd, this, (hvt d).symm]
      · intro d hd; simp [upd, hd]
      · intro d hd; simp [upd, hd]
      · simp
      · intro d hd x hx
        have e1 : x ≠ v := fun h => hn d (h ▸ hx)
        have e2 : x ≠ term c := fun hh => h.term_notin c d (hh ▸ hx)
        simp [upd, e1, e2]
      · intro x hx _ hxv
        have e2 : x ≠ term c := fun hh => by have := term_odd c; rw [← hh] at this; omega
        simp [upd, hxv, e2]
      · rw [put, upd_same, if_pos hq, hemp]
        simp [front, hq, Seg, upd, (hvt c).symm]
      · intro _; simp
    · have h0 : empty s c = false := by rw [(seen_of h c).empty]; cases hl' : L c with
        | nil => exact absurd hl' hemp
        | cons _ _ => rfl
      obtain ⟨l, b, hlb⟩ := List.eq_nil_or_concat (L c) |>.resolve_left hemp
      simp only [List.concat_eq_append] at hlb
      have hb : s.ptr c = b := h.back c hq b (by rw [hlb]; simp)
      have hbin : b ∈ L c := by rw [hlb]; simp
      have hbl : b ∉ l := by
        have := h.nd c; rw [hlb, List.nodup_append] at this
        intro hx; exact this.2.2 b hx b (by simp) rfl
      have hbv : b ≠ v := fun hh => hn c (hh ▸ hbin)
      have hbt : ∀ d, b ≠ term d := fun d hh => h.term_notin d c (hh ▸ hbin)
      refine ⟨{ nx := upd (upd s.nx b v) v (term c), ptr := upd s.ptr c v, sz := upd s.sz c (s.sz c + 1) }, ?_, gen _ ?_ ?_ ?_ ?_ ?_ ?_ ?_ ?_⟩
      · simp [h0, setNext, hb, (h.items c b hbin).1, hv, bind, Except.bind]
      · intro d hd; unfold front
        simp [upd, hd, (hvt d).symm, (hbt d).symm]
      · intro d hd; simp [upd, hd]
      · intro d hd; simp [upd, hd]
      · simp
      · intro d hd x hx
        have e1 : x ≠ v := fun h => hn d (h ▸ hx)
        have e2 : x ≠ b := fun hh => h.apart c d (Ne.symm hd) b hbin (hh ▸ hx)
        simp [upd, e1, e2]
      · intro x hx hxc hxv
        have e2 : x ≠ b := fun hh => hxc (hh ▸ hbin)
        simp [upd, hxv, e2]
      · have hs := h.seg c
        have hf : front g s c = front g { nx := upd (upd s.nx b v) v (term c), ptr := upd s.ptr c v, sz := upd s.sz c (s.sz c + 1) } c := by
          unfold front; simp [upd, hq, (hvt c).symm, (hbt c).symm]
        rw [← hf, put, upd_same, if_pos hq, hlb]
        rw [hlb] at hs
        have h1 : Seg (upd (upd s.nx b v) v (term c)) (front g s c) (l ++ [b]) v :=
          (hs.relink hbl).upd (by rw [← hlb]; exact hn c)
        rw [seg_append]
        exact ⟨v, h1, rfl, by simp [Seg]⟩
      · intro _; simp
  · rw [if_neg hq]
    simp only [Bool.not_eq_true] at hq
    unfold pushStack
    rw [hlk]
    have hf : front g s c = s.ptr c := by simp [front, hq]
    refine ⟨{ nx := upd s.nx v (s.ptr c), ptr := upd s.ptr c v, sz := upd s.sz c (s.sz c + 1) }, ?_, gen _ ?_ ?_ ?_ ?_ ?_ ?_ ?_ ?_⟩
    · simp [setNext, hv, bind, Except.bind]
    · intro d hd; unfold front
      simp [upd, hd, (hvt d).symm]
    · intro d hd; simp [upd, hd]
    · intro d hd; simp [upd, hd]
    · simp
    · intro d hd x hx
      have e1 : x ≠ v := fun h => hn d (h ▸ hx)
      simp [upd, e1]
    · intro x hx _ hxv; simp [upd, hxv]
    · have hs := h.seg c
      rw [hf] at hs
      rw [put, upd_same, hq]
      simp only [front, hq, upd_same, Bool.false_eq_true, if_false]
      exact ⟨rfl, by simp only [upd_same]; exact hs.upd (hn c)⟩
    · rw [hq]; simp

/-- Taking the first item out.  Result: the item that `top`/`front` named is no longer linked. -/
theorem pop_spec {K g s L} (h : Rel K g s L) {c v : Nat} {l : List Nat} (hc : c < K) (hl : L c = v :: l) :
    ∃ s', pop g s c = .ok (s', none) ∧ Rel K g s' (upd L c l) ∧ front g s c = v := by
  have hs := h.seg c
  rw [hl] at hs
  obtain ⟨hfr, hs2⟩ := hs
  have hvin : v ∈ L c := by rw [hl]; simp
  have hv := h.items c v hvin
  have hnd := h.nd c
  rw [hl] at hnd
  have hvl : v ∉ l := (List.nodup_cons.1 hnd).1
  have hvt : ∀ d, v ≠ term d := fun d hh => h.term_notin d c (hh ▸ hvin)
  have hne : empty s c = false := by rw [(seen_of h c).empty, hl]; rfl
  have hsz : s.sz c ≠ 0 := by rw [h.sz, hl]; simp
  have hlin : ∀ x ∈ l, x ∈ L c := fun x hx => by rw [hl]; simp [hx]
  have gen : ∀ s', (∀ d, d ≠ c → front g s' d = front g s d) → (∀ d, d ≠ c → s'.ptr d = s.ptr d) → (∀ d, d ≠ c → s'.sz d = s.sz d) → s'.sz c = s.sz c - 1 →
      (∀ x, x % 2 = 0 → x ≠ v → s'.nx x = s.nx x) → s'.nx v = 0 → front g s' c = s.nx v → (g.queue c = true → s'.ptr c = s.ptr c) → Rel K g s' (upd L c l) := by
    intro s' h1 h2 h3 h4 h5 h6 h7 h8
    refine ⟨?_, ?_, ?_, ?_, ?_, ?_, ?_, ?_⟩
    · intro d
      by_cases hd : d = c
      · subst hd; rw [upd_same, h7]
        exact hs2.frame (fun x hx => h5 x (h.items d x (hlin x hx)).2 (fun hh => hvl (hh ▸ hx)))
      · rw [upd_other _ _ hd, h1 d hd]
        exact (h.seg d).frame (fun x hx => h5 x (h.items d x hx).2 (fun hh => h.apart c d (Ne.symm hd) v hvin (hh ▸ hx)))
    · intro d
      by_cases hd : d = c
      · subst hd; rw [h4, h.sz, upd_same, hl]; simp
      · rw [upd_other _ _ hd, h3 d hd]; exact h.sz d
    · intro d hq x hx
      by_cases hd : d = c
      · subst hd; rw [upd_same] at hx; rw [h8 hq]
        refine h.back d hq x ?_
        rw [hl]
        cases l with
        | nil => simp at hx
        | cons y l => rw [List.getLast?_cons_cons]; exact hx
      · rw [upd_other _ _ hd] at hx; rw [h2 d hd]; exact h.back d hq x hx
    · intro d x hx
      by_cases hd : d = c
      · subst hd; rw [upd_same] at hx; exact h.items d x (hlin x hx)
      · rw [upd_other _ _ hd] at hx; exact h.items d x hx
    · intro d
      by_cases hd : d = c
      · subst hd; rw [upd_same]; exact (List.nodup_cons.1 hnd).2
      · rw [upd_other _ _ hd]; exact h.nd d
    · intro d d' hdd x hx hx'
      by_cases hd : d = c
      · subst hd; rw [upd_same] at hx
        rw [upd_other _ _ hdd.symm] at hx'; exact h.apart d d' hdd x (hlin x hx) hx'
      · rw [upd_other _ _ hd] at hx
        by_cases hd' : d' = c
        · subst hd'; rw [upd_same] at hx'; exact h.apart d d' hdd x hx (hlin x hx')
        · rw [upd_other _ _ hd'] at hx'; exact h.apart d d' hdd x hx hx'
    · intro x hx hno
      by_cases hxv : x = v
      · rw [hxv]; exact h6
      · rw [h5 x hx hxv]
        refine h.free x hx (fun d hd => ?_)
        by_cases hdc : d = c
        · subst hdc; have := hno d; rw [upd_same] at this; rw [hl] at hd; simp [hxv] at hd; exact this hd
        · have := hno d; rw [upd_other _ _ hdc] at this; exact this hd
    · intro d hd
      rw [upd_other _ _ (by omega)]; exact h.out d hd
  unfold pop
  by_cases hq : g.queue c = true
  · rw [if_pos hq]
    have hfr' : s.nx (term c) = v := by simp only [front, hq, if_true] at hfr; exact hfr
    refine ⟨{ nx := upd (upd s.nx (term c) (s.nx v)) v 0, ptr := s.ptr, sz := upd s.sz c (s.sz c - 1) }, ?_, gen _ ?_ ?_ ?_ ?_ ?_ ?_ ?_ ?_, hfr⟩
    · have he : ∀ nx, empty { nx := nx, ptr := s.ptr, sz := s.sz } c = false := fun _ => hne
      simp [popQueue, hne, setNext, getNext, hfr', term_ne, hv.1, bind, Except.bind, he, hsz]
    · intro d hd
      have : term d ≠ term c := fun h => hd (term_inj h)
      simp [front, upd, this, (hvt d).symm]
    · intro d hd; rfl
    · intro d hd; simp [upd, hd]
    · simp
    · intro x hx hxv
      have : x ≠ term c := fun hh => by have := term_odd c; rw [← hh] at this; omega
      simp [upd, hxv, this]
    · simp
    · simp [front, hq, upd, (hvt c).symm]
    · intro _; rfl
  · rw [if_neg hq]
    simp only [Bool.not_eq_true] at hq
    have hfr' : s.ptr c = v := by simp only [front, hq, Bool.false_eq_true, if_false] at hfr; exact hfr
    refine ⟨{ nx := upd s.nx v 0, ptr := upd s.ptr c (s.nx v), sz := upd s.sz c (s.sz c - 1) }, ?_, gen _ ?_ ?_ ?_ ?_ ?_ ?_ ?_ ?_, hfr⟩
    · simp [popStack, hne, setNext, getNext, hfr', hv.1, bind, Except.bind, hsz]
    · intro d hd
      simp [front, upd, hd, (hvt d).symm]
    · intro d hd; simp [upd, hd]
    · intro d hd; simp [upd, hd]
    · simp
    · intro x hx hxv; simp [upd, hxv]
    · simp
    · simp [front, hq]
    · rw [hq]; simp

theorem pop_empty {K g s L} (h : Rel K g s L) {c : Nat} (hl : L c = []) (hch : g.check = true) : pop g s c = .ok (s, some .empty) := by
  have he : empty s c = true := by rw [(seen_of h c).empty, hl]; rfl
  unfold pop
  split_ifs <;> simp [popQueue, popStack, hch, he]

theorem popInto_spec {K g s L} (h : Rel K g s L) {c d v : Nat} {l : List Nat} (hc : c < K) (hd : d < K) (hl : L c = v :: l) :
    ∃ s', popInto g s c d = .ok (s', none) ∧ Rel K g s' (put g (upd L c l) d v) := by
  obtain ⟨s1, h1, h2, h3⟩ := pop_spec h hc hl
  have hvin : v ∈ L c := by rw [hl]; simp
  have hvl : v ∉ l := by have := h.nd c; rw [hl] at this; exact (List.nodup_cons.1 this).1
  have hun : linked K (upd L c l) v = false := by
    simp only [linked, List.any_eq_false, List.mem_range, decide_eq_true_eq]
    intro b _
    by_cases hb : b = c
    · subst hb; rw [upd_same]; exact hvl
    · rw [upd_other _ _ hb]; exact h.apart c b (Ne.symm hb) v hvin
  obtain ⟨s2, h4, h5⟩ := push_spec h2 hd (h.items c v hvin).1 (h.items c v hvin).2 hun
  refine ⟨s2, ?_, h5⟩
  unfold popInto
  have hf : (if g.queue c = true then s.nx (term c) else s.ptr c) = v := h3
  simp only [h1, bind, Except.bind, Option.isSome_none, Bool.false_eq_true, and_false, if_false, hf, h4]

/-- The loop of `reverse`: `A` has been turned round, `B` is still to do. -/
theorem reverseLoop_spec {c : Nat} : ∀ (B A : List Nat) (fuel : Nat) (s : St) (p q : Nat), Seg s.nx p A (term c) → Seg s.nx q B (term c) → (A ++ B).Nodup →
    (∀ x ∈ B, x ≠ 0 ∧ x ≠ term c) → B.length < fuel →
    ∃ nx p', reverseLoop c fuel s p q = .ok ({ s with nx := nx }, p') ∧ Seg nx p' (B.reverse ++ A) (term c) ∧ ∀ x, x ∉ B → nx x = s.nx x
  | _, _, 0, _, _, _, _, _, _, _, hf => by omega
  | [], A, fuel + 1, s, p, q, h1, h2, _, _, _ => by
    refine ⟨s.nx, p, ?_, by simpa using h1, fun _ _ => rfl⟩
    have : q = term c := h2
    simp [reverseLoop, this]
  | x :: B, A, fuel + 1, s, p, q, h1, h2, hnd, hok, hf => by
    obtain ⟨rfl, h2⟩ := h2
    have hx := hok q (by simp)
    have hnd' := List.nodup_append.1 hnd
    have hxB : q ∉ B := (List.nodup_cons.1 hnd'.2.1).1
    have hxA : q ∉ A := fun hh => hnd'.2.2 q hh q (by simp) rfl
    obtain ⟨nx, p', h3, h4, h5⟩ := reverseLoop_spec B (q :: A) fuel { s with nx := upd s.nx q p } q (s.nx q)
      ⟨rfl, by show Seg (upd s.nx q p) (upd s.nx q p q) A (term c); rw [upd_same]; exact h1.upd hxA⟩ (h2.upd hxB)
      (by
        have : (q :: A ++ B).Perm (A ++ q :: B) := List.perm_middle.symm
        exact this.nodup_iff.2 hnd) (fun y hy => hok y (by simp [hy])) (by simpa using hf)
    refine ⟨nx, p', ?_, by simpa using h4, ?_⟩
    · simp [reverseLoop, hx.1, hx.2, getNext, setNext, bind, Except.bind, h3]
    · intro y hy
      rw [h5 y (fun hh => hy (by simp [hh]))]
      exact upd_other _ _ (fun hh => hy (by simp [hh]))

theorem reverse_spec {K g s L} (h : Rel K g s L) {c : Nat} (hc : c < K) (hq : g.queue c = false) :
    ∃ s', reverse s c = .ok s' ∧ Rel K g s' (upd L c (L c).reverse) := by
  have hs := h.seg c
  have hf : front g s c = s.ptr c := by simp [front, hq]
  rw [hf] at hs
  obtain ⟨nx, p', h1, h2, h3⟩ := reverseLoop_spec (L c) [] (s.sz c + 1) s (term c) (s.ptr c) rfl hs (by simpa using h.nd c)
    (fun x hx => ⟨(h.items c x hx).1, fun hh => h.term_notin c c (hh ▸ hx)⟩) (by rw [h.sz]; omega)
  refine ⟨{ nx := nx, ptr := upd s.ptr c p', sz := s.sz }, by simp [reverse, h1, bind, Except.bind], ?_, ?_, ?_, ?_, ?_, ?_, ?_, ?_⟩
  · intro d
    by_cases hd : d = c
    · subst hd; rw [upd_same]; simp only [front, hq, Bool.false_eq_true, if_false, upd_same]; simpa using h2
    · rw [upd_other _ _ hd]
      have : front g { nx := nx, ptr := upd s.ptr c p', sz := s.sz } d = front g s d := by
        simp only [front, upd_other _ _ hd]
        rw [h3 (term d) (h.term_notin d c)]
      rw [this]
      exact (h.seg d).frame (fun x hx => h3 x (fun hh => h.apart c d (Ne.symm hd) x hh hx))
  · intro d
    by_cases hd : d = c
    · subst hd; rw [upd_same, List.length_reverse]; exact h.sz d
    · rw [upd_other _ _ hd]; exact h.sz d
  · intro d hqd x hx
    have hd : d ≠ c := fun hh => by rw [hh, hq] at hqd; cases hqd
    rw [upd_other _ _ hd] at hx
    show upd s.ptr c p' d = x
    rw [upd_other _ _ hd]; exact h.back d hqd x hx
  · intro d x hx
    by_cases hd : d = c
    · subst hd; rw [upd_same, List.mem_reverse] at hx; exact h.items d x hx
    · rw [upd_other _ _ hd] at hx; exact h.items d x hx
  · intro d
    by_cases hd : d = c
    · subst hd; rw [upd_same, List.nodup_reverse]; exact h.nd d
    · rw [upd_other _ _ hd]; exact h.nd d
  · have hm : ∀ d x, x ∈ upd L c (L c).reverse d ↔ x ∈ L d := by
      intro d x
      by_cases hd : d = c
      · subst hd; rw [upd_same, List.mem_reverse]
      · rw [upd_other _ _ hd]
    intro d d' hdd x hx hx'
    exact h.apart d d' hdd x ((hm d x).1 hx) ((hm d' x).1 hx')
  · intro x hx hno
    have hm : ∀ d, x ∉ L d := by
      intro d hd
      by_cases hdc : d = c
      · subst hdc; have := hno d; rw [upd_same, List.mem_reverse] at this; exact this hd
      · have := hno d; rw [upd_other _ _ hdc] at this; exact this hd
    rw [show ({ nx := nx, ptr := upd s.ptr c p', sz := s.sz } : St).nx x = nx x from rfl, h3 x (hm c)]
    exact h.free x hx hm
  · intro d hd
    rw [upd_other _ _ (by omega)]; exact h.out d hd

theorem clearLoop_spec {K g} {c : Nat} (hc : c < K) : ∀ (l : List Nat) (fuel : Nat) (s : St) (L : Sp), Rel K g s L → L c = l → l.length < fuel →
    ∃ s', clearLoop g c fuel s = .ok s' ∧ Rel K g s' (upd L c [])
  | _, 0, _, _, _, _, hf => by omega
  | [], fuel + 1, s, L, h, hl, _ => by
    have he : empty s c = true := by rw [(seen_of h c).empty, hl]; rfl
    refine ⟨s, by simp [clearLoop, he], ?_⟩
    have : upd L c [] = L := by
      funext d; by_cases hd : d = c
      · subst hd; rw [upd_same, hl]
      · rw [upd_other _ _ hd]
    rw [this]; exact h
  | v :: l, fuel + 1, s, L, h, hl, hf => by
    have he : empty s c = false := by rw [(seen_of h c).empty, hl]; rfl
    obtain ⟨s1, h1, h2, _⟩ := pop_spec h hc hl
    obtain ⟨s2, h3, h4⟩ := clearLoop_spec hc l fuel s1 (upd L c l) h2 (by simp) (by simpa using hf)
    refine ⟨s2, by simp [clearLoop, he, h1, bind, Except.bind, h3], ?_⟩
    have : upd (upd L c l) c [] = upd L c [] := by
      funext d; by_cases hd : d = c
      · subst hd; simp
      · simp [upd_other _ _ hd]
    rw [this] at h4; exact h4

theorem clear_spec {K g s L} (h : Rel K g s L) {c : Nat} (hc : c < K) : ∃ s', clear g s c = .ok s' ∧ Rel K g s' (upd L c []) := by
  obtain ⟨s1, h1, h2⟩ := clearLoop_spec hc (L c) (s.sz c + 1) s L h rfl (by rw [h.sz]; omega)
  refine ⟨s1, ?_, h2⟩
  have h0 : s1.sz c = 0 := by rw [h2.sz, upd_same]; rfl
  have : upd s1.sz c 0 = s1.sz := by
    funext d; by_cases hd : d = c
    · subst hd; rw [upd_same, h0]
    · rw [upd_other _ _ hd]
  simp [clear, h1, bind, Except.bind, this]

theorem step_spec {K g s L} (h : Rel K g s L) {o : Op} {L' : Sp} {e : Option Err} (ho : specStep K g L o = some (L', e)) :
    ∃ s', step g s o = .ok (s', e) ∧ Rel K g s' L' := by
  cases o with
  | push c v =>
    simp only [specStep] at ho
    split_ifs at ho with hc hl
    · cases ho
      refine ⟨s, ?_, h⟩
      have : isLinked s v = true := by rw [linked_iff h hc.2.1 hc.2.2, hl]
      simp only [step, push]
      split_ifs <;> simp [pushQueue, pushStack, this]
    · cases ho
      exact push_spec h hc.1 hc.2.1 hc.2.2 (by simpa using hl)
  | pop c =>
    simp only [specStep] at ho
    by_cases hc : c < K
    case neg => rw [if_neg hc] at ho; cases ho
    rw [if_pos hc] at ho
    cases hl : L c with
    | nil =>
      rw [hl] at ho; simp only at ho
      split_ifs at ho with hch
      cases ho
      exact ⟨s, pop_empty h hl hch, h⟩
    | cons v l =>
      rw [hl] at ho; cases ho
      obtain ⟨s', h1, h2, _⟩ := pop_spec h hc hl
      exact ⟨s', h1, h2⟩
  | popInto c d =>
    simp only [specStep] at ho
    by_cases hc : c < K ∧ d < K
    case neg => rw [if_neg hc] at ho; cases ho
    rw [if_pos hc] at ho
    cases hl : L c with
    | nil =>
      rw [hl] at ho; simp only at ho
      split_ifs at ho with hch
      cases ho
      exact ⟨s, by simp [step, popInto, pop_empty h hl hch.1, bind, Except.bind, hch.2], h⟩
    | cons v l =>
      rw [hl] at ho; cases ho
      exact popInto_spec h hc.1 hc.2 hl
  | reverse c =>
    simp only [specStep] at ho
    split_ifs at ho with hc
    cases ho
    obtain ⟨s', h1, h2⟩ := reverse_spec h hc.1 hc.2
    exact ⟨s', by simp [step, h1, bind, Except.bind], h2⟩
  | clear c =>
    simp only [specStep] at ho
    split_ifs at ho with hc
    cases ho
    obtain ⟨s', h1, h2⟩ := clear_spec h hc
    exact ⟨s', by simp [step, h1, bind, Except.bind], h2⟩

/-! ## C69 -/

/-- A program run by the code: the error (if any) of every operation. -/
def run (g : Cfg) (s : St) : List Op → Res (St × List (Option Err))
  | [] => .ok (s, [])
  | o :: os =>
    match step g s o with
    | .error u => .error u
    | .ok (s, e) =>
      match run g s os with
      | .error u => .error u
      | .ok (s, es) => .ok (s, e :: es)

/-- The same program by the specification; `none`: it left the contract. -/
def specRun (K : Nat) (g : Cfg) (L : Sp) : List Op → Option (Sp × List (Option Err))
  | [] => some (L, [])
  | o :: os =>
    match specStep K g L o with
    | none => none
    | some (L, e) =>
      match specRun K g L os with
      | none => none
      | some (L, es) => some (L, e :: es)

theorem run_spec {K g} : ∀ (os : List Op) {s : St} {L L' : Sp} {es}, Rel K g s L → specRun K g L os = some (L', es) → ∃ s', run g s os = .ok (s', es) ∧ Rel K g s' L'
  | [], s, L, L', es, h, ho => by cases ho; exact ⟨s, rfl, h⟩
  | o :: os, s, L, L', es, h, ho => by
    simp only [specRun] at ho
    cases h1 : specStep K g L o with
    | none => rw [h1] at ho; cases ho
    | some q =>
      obtain ⟨L1, e⟩ := q
      rw [h1] at ho; simp only at ho
      cases h2 : specRun K g L1 os with
      | none => rw [h2] at ho; cases ho
      | some q =>
        obtain ⟨L2, es2⟩ := q
        rw [h2] at ho; cases ho
        obtain ⟨s1, h3, h4⟩ := step_spec h h1
        obtain ⟨s2, h5, h6⟩ := run_spec os h4 h2
        exact ⟨s2, by simp [run, h3, h5], h6⟩

/-- **C69**: after every program within the contract, on any number of intrusive stacks and queues sharing items: nothing undefined has happened, the same pushes
were refused because their item was linked already, and every container shows exactly its items: last in first out, first in first out; an item says
`is_linked()` exactly while it is in a container. -/
theorem C69_stacks_and_queues (K : Nat) (g : Cfg) (os : List Op) (L : Sp) (es : List (Option Err)) (h : specRun K g (fun _ => []) os = some (L, es)) :
    ∃ s, run g (init g) os = .ok (s, es) ∧ (∀ c, Seen g s c (L c)) ∧ (∀ v, v ≠ 0 → v % 2 = 0 → (isLinked s v = true ↔ ∃ c, v ∈ L c)) ∧
      (∀ c, (L c).Nodup) ∧ (∀ c c', c ≠ c' → ∀ v ∈ L c, v ∉ L c') := by
  obtain ⟨s, h1, h2⟩ := run_spec os (rel_init K g) h
  refine ⟨s, h1, seen_of h2, ?_, h2.nd, h2.apart⟩
  intro v hv he
  rw [linked_iff h2 hv he]
  constructor
  · intro hl
    simp only [linked, List.any_eq_true, List.mem_range, decide_eq_true_eq] at hl
    obtain ⟨c, _, hc⟩ := hl; exact ⟨c, hc⟩
  · rintro ⟨c, hc⟩
    by_contra hl
    exact not_linked h2 (by simpa using hl) c hc

/-! ## Examples and findings -/

def exCfg : Cfg := ⟨fun c => decide (c = 1), true, true⟩
def exSpec (r : Option (Sp × List (Option Err))) : Option (List Nat × List Nat × List (Option Err)) := r.map (fun r => (r.1 0, r.1 1, r.2))

/-- A stack (0) and a queue (1): items move from one to the other, a linked item is refused, an empty stack is reported. -/
example : exSpec (specRun 2 exCfg (fun _ => []) [.push 0 2, .push 0 4, .push 0 6, .push 1 4, .popInto 0 1, .popInto 0 1, .push 1 8, .popInto 1 1, .pop 1, .push 0 4, .reverse 0,
    .clear 1, .push 1 8, .pop 0, .pop 0, .pop 0]) =
    some ([], [8], [none, none, none, some .linked, none, none, none, none, none, none, none, none, none, none, none, some .empty]) := by decide +kernel

def exCode (r : Res (St × Option Err)) : Option (Nat × Nat × Bool × Option Err) := match r with | .ok (s, e) => some (s.ptr 0, size s 0, empty s 0, e) | .error _ => none

/-- Finding: without exceptions, `pop_into` on an empty stack (refused by `ETL_CHECK_PUSH_POP`) goes on and pushes the *terminator* of the empty stack: the
destination then holds an item that does not exist. -/
theorem pop_into_empty_pushes_terminator : exCode (popInto ⟨fun _ => false, true, false⟩ (init ⟨fun _ => false, true, false⟩) 5 0) = some (term 5, 1, false, none) := by
  decide +kernel

/-- Finding: `intrusive_queue::pop` tests `empty()` before it decrements the size, so after the last item has been popped `p_back` still points at it (it is
not used again before the next `push` sets it). -/
theorem queue_pop_keeps_stale_back :
    (match run exCfg (init exCfg) [.push 1 2, .pop 1] with | .ok (s, _) => decide (empty s 1 = true ∧ back s 1 = 2) | .error _ => false) = true := by decide +kernel

end Etl.IStackQ
