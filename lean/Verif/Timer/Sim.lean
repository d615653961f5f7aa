import Verif.Timer.Rep
import Verif.Timer.Spec
import Mathlib.Tactic.SplitIfs

/-!
# callback_timer simulates the specification
-/
namespace Etl.Timer

/-- Number of registered slots below `n`. -/
def cnt (t : Nat → Timer) : Nat → Nat
  | 0 => 0
  | n + 1 => cnt t n + (if (t n).id = NO then 0 else 1)

theorem cnt_le (t : Nat → Timer) : ∀ n, cnt t n ≤ n
  | 0 => Nat.le_refl _
  | n + 1 => by have := cnt_le t n; simp only [cnt]; split <;> omega

theorem cnt_congr {t t' : Nat → Timer} : ∀ n, (∀ i < n, (t' i).id = (t i).id) → cnt t' n = cnt t n
  | 0, _ => rfl
  | n + 1, h => by simp only [cnt]; rw [cnt_congr n (fun i hi => h i (by omega)), h n (by omega)]

theorem cnt_upd_add {t : Nat → Timer} {i : Nat} {v : Timer} (h1 : (t i).id = NO) (h2 : v.id ≠ NO) : ∀ n, i < n → cnt (upd t i v) n = cnt t n + 1
  | 0, h => by omega
  | n + 1, h => by
    simp only [cnt]
    by_cases hi : i = n
    · subst hi
      rw [cnt_congr (t := t) (t' := upd t i v) i (fun j hj => by rw [upd_other _ _ (by omega)]), upd_same, if_neg h2, if_pos h1]
    · rw [cnt_upd_add h1 h2 n (by omega), upd_other _ _ (by omega)]; omega

theorem cnt_upd_sub {t : Nat → Timer} {i : Nat} {v : Timer} (h1 : (t i).id ≠ NO) (h2 : v.id = NO) : ∀ n, i < n → cnt (upd t i v) n = cnt t n - 1
  | 0, h => by omega
  | n + 1, h => by
    simp only [cnt]
    by_cases hi : i = n
    · subst hi
      rw [cnt_congr (t := t) (t' := upd t i v) i (fun j hj => by rw [upd_other _ _ (by omega)]), upd_same, if_pos h2, if_neg h1]; omega
    · have hge : 1 ≤ cnt t n := by
        have : ∀ n, i < n → 1 ≤ cnt t n := by
          intro n; induction n with
          | zero => intro h; omega
          | succ n ih =>
            intro h; simp only [cnt]
            by_cases hi : i = n
            · subst hi; rw [if_neg h1]; omega
            · have := ih (by omega); omega
        exact this n (by omega)
      rw [cnt_upd_sub h1 h2 n (by omega), upd_other _ _ (by omega)]; omega

theorem cnt_full {t : Nat → Timer} : ∀ n, cnt t n = n → ∀ i < n, (t i).id ≠ NO
  | 0, _, i, hi => by omega
  | n + 1, h, i, hi => by
    simp only [cnt] at h
    have := cnt_le t n
    by_cases hn : (t n).id = NO
    · rw [if_pos hn] at h; omega
    · rw [if_neg hn] at h
      by_cases hin : i = n
      · subst hin; exact hn
      · exact cnt_full n (by omega) i (by omega)

/-- The state of the code represents that of the specification. -/
structure R (s : St) (sp : Sp) (D : DL) : Prop where
  lst : Lst s sp.now D
  due : ∀ i d, sp.due i = some d ↔ (i, d) ∈ D
  cfg : ∀ i, i < s.max → ((s.timers i).id = i ∧ sp.cfg i = some ((s.timers i).period, (s.timers i).repeating)) ∨ ((s.timers i).id = NO ∧ sp.cfg i = none)
  out : ∀ i, s.max ≤ i → sp.cfg i = none
  act : ∀ i d, (i, d) ∈ D → d ≤ sp.now + (s.timers i).period ∧ (s.timers i).period ≠ Inactive
  idle : ∀ i, i < s.max → i ∉ ids D → (s.timers i).delta = Inactive
  per : ∀ i, (s.timers i).period ≤ Inactive
  reg : s.registered = cnt s.timers s.max
  en : s.enabled = sp.enabled

theorem R.of_same {s s' : St} {sp : Sp} {D D' : DL} {now' : Nat} {due' : Nat → Option Nat} (h : R s sp D) (hs : Same s s') (hl : Lst s' now' D') (hdue : ∀ i d, due' i = some d ↔ (i, d) ∈ D')
    (hact : ∀ i d, (i, d) ∈ D' → d ≤ now' + (s.timers i).period ∧ (s.timers i).period ≠ Inactive) (hidle : ∀ i, i < s.max → i ∉ ids D' → (s'.timers i).delta = Inactive) :
    R s' { sp with now := now', due := due' } D' := by
  refine ⟨hl, hdue, ?_, ?_, ?_, ?_, ?_, ?_, ?_⟩
  · intro i hi; rw [hs.max] at hi; rw [hs.id, hs.period, hs.repeating]; exact h.cfg i hi
  · intro i hi; rw [hs.max] at hi; exact h.out i hi
  · intro i d hd; rw [hs.period]; exact hact i d hd
  · intro i hi; rw [hs.max] at hi; exact hidle i hi
  · intro i; rw [hs.period]; exact h.per i
  · rw [hs.registered, hs.max, cnt_congr s.max (fun i _ => hs.id i)]; exact h.reg
  · rw [hs.enabled]; exact h.en

theorem mem_ids {D : DL} {x d : Nat} (h : (x, d) ∈ D) : x ∈ ids D := mem_ids_iff.2 ⟨d, h⟩

/-- The deadline is unique. -/
theorem mem_unique {D : DL} (h : (ids D).Nodup) {x d e : Nat} (h1 : (x, d) ∈ D) (h2 : (x, e) ∈ D) : d = e := by
  induction D with
  | nil => simp at h1
  | cons y D ih =>
    simp only [ids, List.map_cons, List.nodup_cons] at h
    rcases List.mem_cons.1 h1 with e1 | h1 <;> rcases List.mem_cons.1 h2 with e2 | h2
    · rw [← e1] at e2; injection e2 with _ e2; exact e2.symm
    · exact absurd (by rw [← e1]; exact mem_ids h2) h.1
    · exact absurd (by rw [← e2]; exact mem_ids h1) h.1
    · exact ih h.2 h1 h2

theorem R.now_le {s : St} {sp : Sp} {D : DL} (h : R s sp D) {i d : Nat} (hd : (i, d) ∈ D) : sp.now ≤ d := rep_base_le h.lst.rep _ hd

theorem R.delta_lt {s : St} {sp : Sp} {D : DL} (h : R s sp D) {i d : Nat} (hd : (i, d) ∈ D) : (s.timers i).delta < Inactive := by
  have h1 := rep_delta h.lst.rep _ hd
  have h2 := h.act i d hd
  have h3 := h.per i
  simp only at h1
  have : (s.timers i).period < Inactive := Nat.lt_of_le_of_ne h3 h2.2
  omega

theorem R.bound {s : St} {sp : Sp} {D : DL} (h : R s sp D) : ∀ y ∈ D, y.2 - sp.now < 4294967296 := by
  intro y hy
  obtain ⟨y, d⟩ := y
  have h2 := h.act y d hy
  have h3 := h.per y
  unfold Inactive at h3; simp only; omega

/-- Running or not: what `is_active` of the record says. -/
theorem R.active_iff {s : St} {sp : Sp} {D : DL} (h : R s sp D) {i : Nat} (hi : i < s.max) : (s.timers i).delta ≠ Inactive ↔ i ∈ ids D := by
  constructor
  · intro hd; by_contra hn; exact hd (h.idle i hi hn)
  · intro hm
    obtain ⟨d, hd⟩ := mem_ids_iff.1 hm
    have := h.delta_lt hd; omega

theorem due_none {s : St} {sp : Sp} {D : DL} (h : R s sp D) {i : Nat} : sp.due i = none ↔ i ∉ ids D := by
  constructor
  · intro hn hm
    obtain ⟨d, hd⟩ := mem_ids_iff.1 hm
    rw [(h.due i d).2 hd] at hn; cases hn
  · intro hn
    cases hd : sp.due i with
    | none => rfl
    | some d => exact absurd (mem_ids ((h.due i d).1 hd)) hn

theorem mem_split {D : DL} {i d : Nat} (h : (i, d) ∈ D) : ∃ A B, D = A ++ (i, d) :: B := List.append_of_mem h

/-- Taking a timer out, at its deadline (the first one) or at any time. -/
theorem remove_R {s : St} {sp : Sp} {A B : DL} {i e : Nat} (expired : Bool) (h : R s sp (A ++ (i, e) :: B)) (hex : expired = true → A = []) :
    ∃ s', remove s i expired = .ok s' ∧ R s' { sp with now := if expired then e else sp.now, due := set sp.due i none } (A ++ B) ∧ Same s s' := by
  obtain ⟨s', e1, e2, e3, e4, e5⟩ := remove_ok expired h.lst (fun y hy => h.bound y (by simp [hy])) hex
  have hnd := h.lst.nodup
  have hnot : i ∉ ids (A ++ B) := by
    rw [ids_append] at hnd ⊢
    change (ids A ++ i :: ids B).Nodup at hnd
    rw [List.nodup_middle, List.nodup_cons] at hnd
    exact hnd.1
  refine ⟨s', e1, h.of_same e3 e2 ?_ ?_ ?_, e3⟩
  · intro j d
    by_cases hj : j = i
    · subst hj; rw [set_self]
      constructor
      · intro hh; cases hh
      · intro hh; exact absurd (mem_ids hh) hnot
    · rw [set_other _ _ hj, h.due]
      simp [hj]
  · intro j d hd
    have hm : (j, d) ∈ A ++ (i, e) :: B := by
      rcases List.mem_append.1 hd with hd | hd <;> simp [hd]
    have := h.act j d hm
    have := h.now_le (i := i) (d := e) (by simp)
    cases expired <;> simp <;> omega
  · intro j hj hn
    by_cases hji : j = i
    · subst hji; exact e4
    · have : j ∉ ids (A ++ (i, e) :: B) := by
        rw [ids_append] at hn ⊢
        show j ∉ ids A ++ i :: ids B
        simp only [List.mem_append, List.mem_cons, not_or] at hn ⊢
        exact ⟨hn.1, hji, hn.2⟩
      rw [e5 j this]; exact h.idle j hj this

theorem R.registered_of_mem {s : St} {sp : Sp} {D : DL} (h : R s sp D) {i : Nat} (hi : i ∈ ids D) : i < s.max ∧ (s.timers i).id = i := h.lst.lt i hi

theorem lt_ne_NO {s : St} {sp : Sp} {D : DL} (h : R s sp D) {i : Nat} (hi : i < s.max) : i ≠ NO := by have := h.lst.max; unfold NO; omega

theorem deactivate_R {s : St} {sp : Sp} {D : DL} (h : R s sp D) {i : Nat} (hi : i < s.max) (hid : (s.timers i).id = i) :
    ∃ s' D', deactivate s i = .ok s' ∧ R s' { sp with due := set sp.due i none } D' ∧ Same s s' ∧ i ∉ ids D' := by
  rw [deactivate]
  by_cases ha : (s.timers i).delta ≠ Inactive
  · rw [if_pos ha, hid]
    obtain ⟨d, hd⟩ := mem_ids_iff.1 ((h.active_iff hi).1 ha)
    obtain ⟨A, B, rfl⟩ := mem_split hd
    obtain ⟨s', e1, e2, e3⟩ := remove_R false h (by simp)
    exact ⟨s', A ++ B, e1, e2, e3, by
      have := due_none e2 (i := i)
      exact this.1 (set_self _ _ _)⟩
  · rw [if_neg ha]
    have hn : i ∉ ids D := fun hm => ha ((h.active_iff hi).2 hm)
    refine ⟨s, D, rfl, ?_, Same.refl _, hn⟩
    have : (set sp.due i none : Nat → Option Nat) = sp.due := by
      funext j; by_cases hj : j = i
      · subst hj; rw [set_self, (due_none h).2 hn]
      · rw [set_other _ _ hj]
    rw [this]; exact h

/-- Putting a timer in. -/
theorem insert_R {s : St} {sp : Sp} {D : DL} (h : R s sp D) {i v : Nat} (hi : i < s.max) (hid : (s.timers i).id = i) (hn : i ∉ ids D) (hv : v ≤ (s.timers i).period) (hp : (s.timers i).period ≠ Inactive) :
    ∃ s', insert { s with timers := upd s.timers i { s.timers i with delta := v } } i = .ok s' ∧ R s' { sp with due := set sp.due i (some (sp.now + v)) } (insD i (sp.now + v) D) ∧ Same s s' := by
  have hl : Lst { s with timers := upd s.timers i { s.timers i with delta := v } } sp.now D := by
    refine ⟨h.lst.head, h.lst.tail, rep_frame h.lst.rep (fun y hy => upd_other _ _ (by rintro rfl; exact hn hy)), h.lst.nodup, ?_, h.lst.max⟩
    intro x hx
    have := h.lst.lt x hx
    exact ⟨this.1, by grind [upd]⟩
  have hs0 : Same s { s with timers := upd s.timers i { s.timers i with delta := v } } :=
    ⟨rfl, rfl, rfl, rfl, fun y => by grind [upd], fun y => by grind [upd], fun y => by grind [upd]⟩
  obtain ⟨s', e1, e2, e3, e4⟩ := insert_ok (n := i) (d := sp.now + v) hl hi hn (by show (upd s.timers i { s.timers i with delta := v } i).id = i; rw [upd_same]; exact hid) (by omega)
    (by show (upd s.timers i { s.timers i with delta := v } i).delta = _; rw [upd_same]; show v = _; omega)
  refine ⟨s', e1, h.of_same (hs0.trans e3) e2 ?_ ?_ ?_, hs0.trans e3⟩
  · intro j d
    rw [mem_insD]
    by_cases hj : j = i
    · subst hj; rw [set_self]
      constructor
      · intro hh; injection hh with hh; subst hh; exact .inl rfl
      · rintro (hh | hh)
        · injection hh with _ hh; rw [hh]
        · exact absurd (mem_ids hh) hn
    · rw [set_other _ _ hj, h.due]; simp [hj]
  · intro j d hd
    rw [mem_insD] at hd
    rcases hd with hd | hd
    · injection hd with h1 h2; subst h1; subst h2; exact ⟨by omega, hp⟩
    · exact h.act j d hd
  · intro j hj hjn
    have h1 : j ≠ i := by rintro rfl; exact hjn (mem_ids_iff.2 ⟨sp.now + v, (mem_insD _ _ _ _).2 (.inl rfl)⟩)
    have h2 : j ∉ ids D := fun hm => by
      obtain ⟨d, hd⟩ := mem_ids_iff.1 hm
      exact hjn (mem_ids_iff.2 ⟨d, (mem_insD _ _ _ _).2 (.inr hd)⟩)
    rw [e4 j (by simp [h1, h2])]
    show (upd s.timers i _ j).delta = Inactive
    rw [upd_other _ _ h1]; exact h.idle j hj h2

/-- Well formed calls: ids are slots or `NO_TIMER`, periods are 32 bit numbers. -/
def OpOk (max : Nat) : Op → Prop
  | .register p _ => p ≤ Inactive
  | .unregister i => i < max ∨ i = NO
  | .start i _ => i < max ∨ i = NO
  | .stop i => i < max ∨ i = NO
  | .setPeriod i p => (i < max ∨ i = NO) ∧ p ≤ Inactive
  | .setMode i _ => i < max ∨ i = NO
  | .clear => True
  | .enable _ => True

/-- `max` and `log` are as before. -/
def Keeps (s s' : St) : Prop := s'.max = s.max ∧ s'.log = s.log

/-- Changing the settings of a timer that is not running. -/
theorem R.configure {s : St} {sp : Sp} {D : DL} (h : R s sp D) {i : Nat} (hi : i < s.max) (hn : i ∉ ids D) (t : Timer) (c : Option (Nat × Bool)) (n : Nat)
    (ht : (t.id = i ∧ c = some (t.period, t.repeating)) ∨ (t.id = NO ∧ c = none)) (hdel : t.delta = Inactive) (hper : t.period ≤ Inactive) (hreg : n = cnt (upd s.timers i t) s.max) :
    R { s with timers := upd s.timers i t, registered := n } { sp with cfg := set sp.cfg i c } D := by
  have hne : ∀ x ∈ ids D, x ≠ i := fun x hx e => hn (e ▸ hx)
  refine ⟨⟨h.lst.head, h.lst.tail, rep_frame h.lst.rep (fun y hy => upd_other _ _ (hne y hy)), h.lst.nodup, ?_, h.lst.max⟩, h.due, ?_, ?_, ?_, ?_, ?_, hreg, h.en⟩
  · intro x hx
    have := h.lst.lt x hx
    exact ⟨this.1, by show (upd s.timers i t x).id = x; rw [upd_other _ _ (hne x hx)]; exact this.2⟩
  · intro j hj
    show ((upd s.timers i t j).id = j ∧ set sp.cfg i c j = some ((upd s.timers i t j).period, (upd s.timers i t j).repeating)) ∨ ((upd s.timers i t j).id = NO ∧ set sp.cfg i c j = none)
    by_cases hji : j = i
    · subst hji; rw [upd_same, set_self]; exact ht
    · rw [upd_other _ _ hji, set_other _ _ hji]; exact h.cfg j hj
  · intro j hj
    have : j ≠ i := by rintro rfl; exact absurd hi (by show ¬ j < s.max; have : s.max ≤ j := hj; omega)
    show set sp.cfg i c j = none
    rw [set_other _ _ this]; exact h.out j hj
  · intro j d hd
    show d ≤ sp.now + (upd s.timers i t j).period ∧ (upd s.timers i t j).period ≠ Inactive
    rw [upd_other _ _ (hne j (mem_ids hd))]; exact h.act j d hd
  · intro j hj hjn
    show (upd s.timers i t j).delta = Inactive
    by_cases hji : j = i
    · subst hji; rw [upd_same]; exact hdel
    · rw [upd_other _ _ hji]; exact h.idle j hj hjn
  · intro j
    show (upd s.timers i t j).period ≤ Inactive
    by_cases hji : j = i
    · subst hji; rw [upd_same]; exact hper
    · rw [upd_other _ _ hji]; exact h.per j

theorem findFree_ok {s : St} : ∀ (fuel k : Nat), k + fuel = s.max → (∀ i < k, (s.timers i).id ≠ NO) →
    (∃ i, findFree s fuel k = some i ∧ i < s.max ∧ (s.timers i).id = NO) ∨ (findFree s fuel k = none ∧ ∀ i < s.max, (s.timers i).id ≠ NO)
  | 0, k, hk, h => .inr ⟨rfl, fun i hi => h i (by omega)⟩
  | fuel + 1, k, hk, h => by
    rw [findFree, if_pos (by omega)]
    by_cases hf : (s.timers k).id = NO
    · rw [if_pos hf]; exact .inl ⟨k, rfl, by omega, hf⟩
    · rw [if_neg hf]
      exact findFree_ok fuel (k + 1) (by omega) (fun i hi => by
        by_cases hik : i = k
        · subst hik; exact hf
        · exact h i (by omega))

theorem register_R {s : St} {sp : Sp} {D : DL} (h : R s sp D) {p : Nat} {r : Bool} (hp : p ≤ Inactive) :
    ∃ sp', SpecOp s.max sp (.register p r) (.id (register s p r).1) sp' ∧ R (register s p r).2 sp' D ∧ Keeps s (register s p r).2 := by
  rw [register]
  by_cases hlt : s.registered < s.max
  · rw [if_pos hlt]
    rcases findFree_ok (s := s) s.max 0 (by omega) (by intro i hi; omega) with ⟨i, e1, e2, e3⟩ | ⟨_, e2⟩
    · rw [e1]
      have hc : sp.cfg i = none := by
        rcases h.cfg i e2 with hh | hh
        · exact absurd (hh.1.symm.trans e3) (lt_ne_NO h e2)
        · exact hh.2
      have hn : i ∉ ids D := fun hm => by
        have := (h.lst.lt i hm).2
        exact lt_ne_NO h e2 (this.symm.trans e3)
      refine ⟨_, .register e2 hc, ?_, rfl, rfl⟩
      exact h.configure e2 hn _ _ _ (.inl ⟨rfl, rfl⟩) rfl hp (by rw [cnt_upd_add e3 (lt_ne_NO h e2) _ e2, h.reg])
    · exfalso
      have : ∀ n, n ≤ s.max → cnt s.timers n = n := by
        intro n; induction n with
        | zero => intro _; rfl
        | succ n ih => intro hn; simp only [cnt]; rw [ih (by omega), if_neg (e2 n (by omega))]
      rw [h.reg, this _ (Nat.le_refl _)] at hlt; omega
  · rw [if_neg hlt]
    refine ⟨sp, .registerFull (fun i hi => ?_), h, rfl, rfl⟩
    have := cnt_le s.timers s.max
    have hf := cnt_full (t := s.timers) s.max (by have := h.reg; omega) i hi
    rcases h.cfg i hi with hh | hh
    · rw [hh.2]; simp
    · exact absurd hh.1 hf

theorem cfg_NO {s : St} {sp : Sp} {D : DL} (h : R s sp D) : sp.cfg NO = none := h.out NO (by have := h.lst.max; unfold NO; omega)

theorem stop_R {s : St} {sp : Sp} {D : DL} (h : R s sp D) {i : Nat} (hi : i < s.max ∨ i = NO) :
    (sp.cfg i = none ∧ stop s i = .ok (false, s)) ∨
    (∃ s' D', i < s.max ∧ (s.timers i).id = i ∧ sp.cfg i = some ((s.timers i).period, (s.timers i).repeating) ∧ stop s i = .ok (true, s') ∧ R s' { sp with due := set sp.due i none } D' ∧ Same s s' ∧ i ∉ ids D') := by
  rw [stop]
  by_cases hN : i = NO
  · rw [if_pos hN, hN]; exact .inl ⟨cfg_NO h, rfl⟩
  · have hi : i < s.max := hi.resolve_right hN
    rw [if_neg hN, if_neg (fun hc => hc hi)]
    rcases h.cfg i hi with hh | hh
    · rw [if_neg (by rw [hh.1]; exact hN)]
      obtain ⟨s', D', e1, e2, e3, e4⟩ := deactivate_R h hi hh.1
      rw [e1]
      exact .inr ⟨s', D', hi, hh.1, hh.2, rfl, e2, e3, e4⟩
    · rw [if_pos hh.1]; exact .inl ⟨hh.2, rfl⟩

theorem start_R {s : St} {sp : Sp} {D : DL} (h : R s sp D) {i : Nat} {b : Bool} (hi : i < s.max ∨ i = NO) :
    ∃ r s' sp' D', start s i b = .ok (r, s') ∧ SpecOp s.max sp (.start i b) (.bool r) sp' ∧ R s' sp' D' ∧ Keeps s s' := by
  rw [start]
  by_cases hN : i = NO
  · rw [if_pos hN]; exact ⟨_, _, _, _, rfl, .startNot (fun p r hc => by rw [hN, cfg_NO h] at hc; cases hc), h, rfl, rfl⟩
  · have hi : i < s.max := hi.resolve_right hN
    rw [if_neg hN, if_neg (fun hc => hc hi)]
    rcases h.cfg i hi with hh | hh
    · rw [if_neg (by rw [hh.1]; exact hN)]
      by_cases hp : (s.timers i).period = Inactive
      · rw [if_pos hp]
        exact ⟨_, _, _, _, rfl, .startNot (fun p r hc => by rw [hh.2] at hc; injection hc with hc; injection hc with hc _; rw [← hc]; exact hp), h, rfl, rfl⟩
      · rw [if_neg hp]
        obtain ⟨s1, D1, e1, e2, e3, e4⟩ := deactivate_R h hi hh.1
        have hi1 : i < s1.max := by rw [e3.max]; exact hi
        have hid1 : (s1.timers i).id = i := by rw [e3.id]; exact hh.1
        rw [e1]
        simp only
        rw [put_ok _ hi1]
        simp only
        rw [show (upd s1.timers i { s1.timers i with delta := if b = true then 0 else (s1.timers i).period } i).id = i by rw [upd_same]; exact hid1]
        obtain ⟨s2, f1, f2, f3⟩ := insert_R (v := if b = true then 0 else (s1.timers i).period) e2 hi1 hid1 e4 (by split <;> omega) (by rw [e3.period]; exact hp)
        rw [f1]
        refine ⟨true, s2, _, insD i (sp.now + if b = true then 0 else (s1.timers i).period) D1, rfl, .start hh.2 hp, ?_, by show s2.max = s.max; rw [f3.max, e3.max], by rw [f3.log, e3.log]⟩
        have : (set (set sp.due i none) i (some (sp.now + if b = true then 0 else (s1.timers i).period)) : Nat → Option Nat) = set sp.due i (some (sp.now + if b = true then 0 else (s.timers i).period)) := by
          funext j; by_cases hj : j = i <;> simp [set, hj, e3.period]
        rw [← this]; exact f2
    · rw [if_pos hh.1]; exact ⟨_, _, _, _, rfl, .startNot (fun p r hc => by rw [hh.2] at hc; cases hc), h, rfl, rfl⟩

theorem unregister_R {s : St} {sp : Sp} {D : DL} (h : R s sp D) {i : Nat} (hi : i < s.max ∨ i = NO) :
    ∃ r s' sp' D', unregister s i = .ok (r, s') ∧ SpecOp s.max sp (.unregister i) (.bool r) sp' ∧ R s' sp' D' ∧ Keeps s s' := by
  rw [unregister]
  by_cases hN : i = NO
  · rw [if_pos hN]; exact ⟨_, _, _, _, rfl, .unregisterNot (by rw [hN, cfg_NO h]), h, rfl, rfl⟩
  · have hi : i < s.max := hi.resolve_right hN
    rw [if_neg hN, if_neg (fun hc => hc hi)]
    rcases h.cfg i hi with hh | hh
    · rw [if_neg (by rw [hh.1]; exact hN)]
      obtain ⟨s1, D1, e1, e2, e3, e4⟩ := deactivate_R h hi hh.1
      rw [e1]
      refine ⟨_, _, _, D1, rfl, .unregister hh.2, ?_, e3.max, e3.log⟩
      have hi1 : i < s1.max := by rw [e3.max]; exact hi
      have hid1 : (s1.timers i).id = i := by rw [e3.id]; exact hh.1
      exact e2.configure hi1 e4 {} none _ (.inr ⟨rfl, rfl⟩) rfl (by decide) (by rw [cnt_upd_sub (by rw [hid1]; exact hN) rfl _ hi1, e2.reg])
    · rw [if_pos hh.1]; exact ⟨_, _, _, _, rfl, .unregisterNot hh.2, h, rfl, rfl⟩

theorem setPeriod_R {s : St} {sp : Sp} {D : DL} (h : R s sp D) {i p : Nat} (hi : i < s.max ∨ i = NO) (hp : p ≤ Inactive) :
    ∃ r s' sp' D', setPeriod s i p = .ok (r, s') ∧ SpecOp s.max sp (.setPeriod i p) (.bool r) sp' ∧ R s' sp' D' ∧ Keeps s s' := by
  rw [setPeriod]
  rcases stop_R h hi with ⟨e1, e2⟩ | ⟨s1, D1, hi, hid, hc, e1, e2, e3, e4⟩
  · rw [e2]; exact ⟨_, _, _, _, rfl, .setPeriodNot e1, h, rfl, rfl⟩
  · rw [e1]
    refine ⟨_, _, _, D1, rfl, .setPeriod hc, ?_, e3.max, e3.log⟩
    have hi1 : i < s1.max := by rw [e3.max]; exact hi
    have hid1 : (s1.timers i).id = i := by rw [e3.id]; exact hid
    exact e2.configure hi1 e4 { s1.timers i with period := p } _ s1.registered (.inl ⟨hid1, by rw [e3.repeating]⟩) (e2.idle i hi1 e4) hp
      (by rw [cnt_congr (t := s1.timers) _ (fun j _ => by by_cases hj : j = i <;> simp [upd, hj])]; exact e2.reg)

theorem setMode_R {s : St} {sp : Sp} {D : DL} (h : R s sp D) {i : Nat} {r : Bool} (hi : i < s.max ∨ i = NO) :
    ∃ b s' sp' D', setMode s i r = .ok (b, s') ∧ SpecOp s.max sp (.setMode i r) (.bool b) sp' ∧ R s' sp' D' ∧ Keeps s s' := by
  rw [setMode]
  rcases stop_R h hi with ⟨e1, e2⟩ | ⟨s1, D1, hi, hid, hc, e1, e2, e3, e4⟩
  · rw [e2]; exact ⟨_, _, _, _, rfl, .setModeNot e1, h, rfl, rfl⟩
  · rw [e1]
    refine ⟨_, _, _, D1, rfl, .setMode hc, ?_, e3.max, e3.log⟩
    have hi1 : i < s1.max := by rw [e3.max]; exact hi
    have hid1 : (s1.timers i).id = i := by rw [e3.id]; exact hid
    exact e2.configure hi1 e4 { s1.timers i with repeating := r } _ s1.registered (.inl ⟨hid1, by rw [e3.period]⟩) (e2.idle i hi1 e4) (e2.per i)
      (by rw [cnt_congr (t := s1.timers) _ (fun j _ => by by_cases hj : j = i <;> simp [upd, hj])]; exact e2.reg)

/-- Every call answers and does what the specification says. -/
theorem apply_R {s : St} {sp : Sp} {D : DL} (h : R s sp D) {o : Op} (ho : OpOk s.max o) :
    ∃ r s' sp' D', apply s o = .ok (r, s') ∧ SpecOp s.max sp o r sp' ∧ R s' sp' D' ∧ Keeps s s' := by
  cases o with
  | register p r =>
    obtain ⟨sp', e1, e2, e3⟩ := register_R (r := r) h ho
    exact ⟨_, _, _, _, rfl, e1, e2, e3⟩
  | unregister i =>
    obtain ⟨r, s', sp', D', e1, e2, e3, e4⟩ := unregister_R h ho
    exact ⟨_, s', sp', D', by simp only [apply, e1, ret], e2, e3, e4⟩
  | start i b =>
    obtain ⟨r, s', sp', D', e1, e2, e3, e4⟩ := start_R (b := b) h ho
    exact ⟨_, s', sp', D', by simp only [apply, e1, ret], e2, e3, e4⟩
  | stop i =>
    rcases stop_R h ho with ⟨e1, e2⟩ | ⟨s1, D1, hi, hid, hc, e1, e2, e3, e4⟩
    · exact ⟨_, s, sp, D, by simp only [apply, e2, ret], .stopNot e1, h, rfl, rfl⟩
    · exact ⟨_, s1, _, D1, by simp only [apply, e1, ret], .stop hc, e2, e3.max, e3.log⟩
  | setPeriod i p =>
    obtain ⟨r, s', sp', D', e1, e2, e3, e4⟩ := setPeriod_R h ho.1 ho.2
    exact ⟨_, s', sp', D', by simp only [apply, e1, ret], e2, e3, e4⟩
  | setMode i r =>
    obtain ⟨b, s', sp', D', e1, e2, e3, e4⟩ := setMode_R (r := r) h ho
    exact ⟨_, s', sp', D', by simp only [apply, e1, ret], e2, e3, e4⟩
  | clear =>
    refine ⟨_, _, _, [], rfl, .clear, ?_, rfl, rfl⟩
    refine ⟨⟨rfl, rfl, trivial, by simp [ids], by simp [ids], h.lst.max⟩, by simp, ?_, by simp, by simp, ?_, ?_, ?_, h.en⟩
    · intro i hi
      have hi : i < s.max := hi
      refine .inr ⟨?_, rfl⟩
      show (if i < s.max then ({} : Timer) else s.timers i).id = NO
      rw [if_pos hi]
    · intro i hi _
      have hi : i < s.max := hi
      show (if i < s.max then ({} : Timer) else s.timers i).delta = Inactive
      rw [if_pos hi]
    · intro i
      show (if i < s.max then ({} : Timer) else s.timers i).period ≤ Inactive
      split
      · decide
      · exact h.per i
    · show 0 = cnt (fun i => if i < s.max then ({} : Timer) else s.timers i) s.max
      have : ∀ n, n ≤ s.max → cnt (fun i => if i < s.max then ({} : Timer) else s.timers i) n = 0 := by
        intro n; induction n with
        | zero => intro _; rfl
        | succ n ih => intro hn; simp only [cnt]; rw [ih (by omega)]; simp [show n < s.max by omega]
      exact (this _ (Nat.le_refl _)).symm
  | enable b => exact ⟨_, _, _, D, rfl, .enable, ⟨⟨h.lst.head, h.lst.tail, h.lst.rep, h.lst.nodup, h.lst.lt, h.lst.max⟩, h.due, h.cfg, h.out, h.act, h.idle, h.per, h.reg, rfl⟩, rfl, rfl⟩

theorem applyAll_R : ∀ {os : List Op} {s : St} {sp : Sp} {D : DL}, R s sp D → (∀ o ∈ os, OpOk s.max o) → ∃ s' sp' D', applyAll s os = .ok s' ∧ SpecOps s.max sp os sp' ∧ R s' sp' D' ∧ Keeps s s'
  | [], s, sp, D, h, _ => ⟨s, sp, D, rfl, .nil, h, rfl, rfl⟩
  | o :: os, s, sp, D, h, ho => by
    obtain ⟨r, s1, sp1, D1, e1, e2, e3, e4⟩ := apply_R h (ho o (by simp))
    obtain ⟨s2, sp2, D2, f1, f2, f3, f4⟩ := applyAll_R (os := os) e3 (fun o ho' => by rw [e4.1]; exact ho o (by simp [ho']))
    refine ⟨s2, sp2, D2, by rw [applyAll, e1]; exact f1, .cons e2 (by rw [e4.1] at f2; exact f2), f3, f4.1.trans e4.1, f4.2.trans e4.2⟩

/-- Moving on in time without reaching a deadline. -/
theorem advance_R {s : St} {sp : Sp} {D : DL} (h : R s sp D) {c : Nat} (hc : ∀ i d, sp.due i = some d → sp.now + c < d) (hne : D ≠ []) :
    ∃ s', put s s.head (fun t => { t with delta := t.delta - c }) = .ok s' ∧ R s' { sp with now := sp.now + c } D ∧ Keeps s s' := by
  cases D with
  | nil => exact absurd rfl hne
  | cons x D =>
    obtain ⟨x, d⟩ := x
    have hx := h.lst.lt x (by simp [ids])
    have hh : s.head = x := h.lst.head
    have hcd := hc x d ((h.due x d).2 (by simp))
    have hrep := h.lst.rep
    have hxr : (s.timers x).prev = NO ∧ (s.timers x).next = hd NO D ∧ (s.timers x).delta = d - sp.now := by simp only [Rep] at hrep; exact ⟨hrep.1, hrep.2.1, hrep.2.2.2.1⟩
    have hxD : x ∉ ids D := by have := h.lst.nodup; simp only [ids, List.map_cons, List.nodup_cons] at this; exact this.1
    rw [hh, put_ok _ hx.1]
    refine ⟨_, rfl, ?_, rfl, rfl⟩
    have hs : Same s { s with timers := upd s.timers x { s.timers x with delta := (s.timers x).delta - c } } :=
      ⟨rfl, rfl, rfl, rfl, fun y => by grind [upd], fun y => by grind [upd], fun y => by grind [upd]⟩
    refine h.of_same hs ⟨h.lst.head, h.lst.tail, ?_, h.lst.nodup, ?_, h.lst.max⟩ h.due ?_ ?_
    · refine rep_first hrep hxD (by omega) ?_ ?_ ?_ ?_
      · show (upd s.timers x _ x).prev = NO; rw [upd_same]; exact hxr.1
      · show (upd s.timers x _ x).next = _; rw [upd_same]
      · show (upd s.timers x _ x).delta = _; rw [upd_same]; show (s.timers x).delta - c = _; rw [hxr.2.2]; omega
      · intro y hy; exact upd_other _ _ (by rintro rfl; exact hxD hy)
    · intro y hy
      have := h.lst.lt y hy
      exact ⟨this.1, by rw [hs.id]; exact this.2⟩
    · intro j e he
      have := h.act j e he; omega
    · intro j hj hn
      have h1 : j ≠ x := by rintro rfl; exact hn (by simp [ids])
      show (upd s.timers x _ j).delta = _
      rw [upd_other _ _ h1]; exact h.idle j hj hn

/-- One firing. -/
theorem fire_R {cb : Nat → List Nat → List Op} {s : St} {sp : Sp} {D : DL} {x d : Nat} (h : R s sp ((x, d) :: D)) (hcb : ∀ i l, ∀ o ∈ cb i l, OpOk s.max o) :
    ∃ s' sp' D' p r, fire cb s = .ok s' ∧ sp.cfg x = some (p, r) ∧
      SpecOps s.max { sp with now := d, due := set sp.due x (if r then some (d + p) else none) } (cb x (s.log ++ [x])) sp' ∧ R s' sp' D' ∧ s'.max = s.max ∧ s'.log = s.log ++ [x] := by
  have hx := h.lst.lt x (by simp [ids])
  have hh : s.head = x := h.lst.head
  have hxN : x ≠ NO := lt_ne_NO h hx.1
  have hcfg : sp.cfg x = some ((s.timers x).period, (s.timers x).repeating) := by
    rcases h.cfg x hx.1 with hc | hc
    · exact hc.2
    · exact absurd (hx.2.symm.trans hc.1) hxN
  have hact := h.act x d (by simp)
  obtain ⟨s1, e1, e2, e3⟩ := remove_R (A := []) true h (by simp)
  simp only [if_true, List.nil_append] at e2
  have hn1 : x ∉ ids D := by have := h.lst.nodup; simp only [ids, List.map_cons, List.nodup_cons] at this; exact this.1
  have hi1 : x < s1.max := by rw [e3.max]; exact hx.1
  have hid1 : (s1.timers x).id = x := by rw [e3.id]; exact hx.2
  obtain ⟨s2, D2, f1, f2, f3⟩ : ∃ s2 D2, rearm s1 x = .ok s2 ∧ R s2 { sp with now := d, due := set sp.due x (if (s.timers x).repeating then some (d + (s.timers x).period) else none) } D2 ∧ Same s1 s2 := by
    rw [rearm]
    by_cases hr : (s.timers x).repeating = true
    · rw [if_pos (by rw [e3.repeating]; exact hr), if_pos hr, put_ok _ hi1]
      simp only
      rw [show (upd s1.timers x { s1.timers x with delta := (s1.timers x).period } x).id = x by rw [upd_same]; exact hid1]
      obtain ⟨s2, f1, f2, f3⟩ := insert_R (v := (s1.timers x).period) e2 hi1 hid1 hn1 (Nat.le_refl _) (by rw [e3.period]; exact hact.2)
      refine ⟨s2, insD x (d + (s1.timers x).period) D, f1, ?_, f3⟩
      have : (set (set sp.due x none) x (some (d + (s1.timers x).period)) : Nat → Option Nat) = set sp.due x (some (d + (s.timers x).period)) := by
        funext j; by_cases hj : j = x <;> simp [set, hj, e3.period]
      rw [← this]; exact f2
    · rw [if_neg (by rw [e3.repeating]; exact hr), if_neg hr]
      exact ⟨s1, D, rfl, e2, Same.refl _⟩
  have hid2 : (s2.timers x).id = x := by rw [f3.id]; exact hid1
  have hlog : s2.log = s.log := f3.log.trans e3.log
  have hmax : s2.max = s.max := f3.max.trans e3.max
  have f2' : R { s2 with log := s2.log ++ [x] } { sp with now := d, due := set sp.due x (if (s.timers x).repeating then some (d + (s.timers x).period) else none) } D2 :=
    ⟨⟨f2.lst.head, f2.lst.tail, f2.lst.rep, f2.lst.nodup, f2.lst.lt, f2.lst.max⟩, f2.due, f2.cfg, f2.out, f2.act, f2.idle, f2.per, f2.reg, f2.en⟩
  obtain ⟨s3, sp3, D3, g1, g2, g3, g4⟩ := applyAll_R (os := cb x (s.log ++ [x])) f2' (fun o ho => by show OpOk s2.max o; rw [hmax]; exact hcb _ _ o ho)
  refine ⟨s3, sp3, D3, _, _, ?_, hcfg, ?_, g3, ?_, ?_⟩
  · rw [fire, hh, hx.2, e1]
    simp only
    rw [f1]
    simp only
    rw [hid2, hlog]
    rw [hlog] at g1
    exact g1
  · rw [← hmax]; exact g2
  · rw [g4.1]; exact hmax
  · rw [g4.2]; show s2.log ++ [x] = _; rw [hlog]

theorem head_none {s : St} {sp : Sp} {D : DL} (h : R s sp D) : s.head = NO ↔ D = [] := by
  rw [h.lst.head]
  cases D with
  | nil => simp [hd]
  | cons x D =>
    obtain ⟨x, d⟩ := x
    have := lt_ne_NO h (h.lst.lt x (by simp [ids])).1
    simpa [hd] using this

theorem tickLoop_R {cb : Nat → List Nat → List Op} : ∀ (fuel count : Nat) {s : St} {sp : Sp} {D : DL} {h : Trace}, R s sp D → (∀ i l, ∀ o ∈ cb i l, OpOk s.max o) → s.log = h.map Prod.fst →
    tickLoop cb fuel count s = .error .diverge ∨
    ∃ s' sp' D' h', tickLoop cb fuel count s = .ok s' ∧ SpecTick s.max cb (sp.now + count) sp h sp' h' ∧ R s' sp' D' ∧ s'.log = h'.map Prod.fst ∧ s'.max = s.max
  | 0, _, _, _, _, _, _, _, _ => .inl rfl
  | fuel + 1, count, s, sp, D, h, hR, hcb, hlog => by
    rw [tickLoop]
    by_cases hN : s.head = NO
    · rw [if_pos hN]
      have hD := (head_none hR).1 hN
      subst hD
      refine .inr ⟨s, { sp with now := sp.now + count }, [], h, rfl, .done (fun i d hd => absurd ((hR.due i d).1 hd) (by simp)), ?_, hlog, rfl⟩
      exact ⟨⟨hR.lst.head, hR.lst.tail, trivial, hR.lst.nodup, hR.lst.lt, hR.lst.max⟩, hR.due, hR.cfg, hR.out, by simp, hR.idle, hR.per, hR.reg, hR.en⟩
    · rw [if_neg hN]
      cases D with
      | nil => exact absurd ((head_none hR).2 rfl) hN
      | cons y D =>
        obtain ⟨x, d⟩ := y
        have hh : s.head = x := hR.lst.head
        have hx := hR.lst.lt x (by simp [ids])
        have hrep := hR.lst.rep
        have hxd : (s.timers x).delta = d - sp.now ∧ sp.now ≤ d := by simp only [Rep] at hrep; exact ⟨hrep.2.2.2.1, hrep.2.2.1⟩
        have hmin : ∀ j e, sp.due j = some e → d ≤ e := by
          intro j e hj
          have hm := (hR.due j e).1 hj
          have hs := rep_sorted hrep
          rcases List.mem_cons.1 hm with hm | hm
          · injection hm with _ hm; omega
          · exact (List.pairwise_cons.1 hs).1 _ hm
        rw [hh, if_neg (fun hc => hc hx.1)]
        by_cases hc : count ≥ (s.timers x).delta
        · rw [if_pos hc]
          obtain ⟨s1, sp1, D1, p, r, f1, f2, f3, f4, f5, f6⟩ := fire_R hR hcb
          rw [f1]
          simp only
          have hlog1 : s1.log = (h ++ [(x, d)]).map Prod.fst := by rw [f6, hlog]; simp
          have hnow : sp1.now = d := specOps_now f3
          rcases tickLoop_R fuel (count - (s.timers x).delta) f4 (by rw [f5]; exact hcb) hlog1 with g | ⟨s', sp', D', h', g1, g2, g3, g4, g5⟩
          · exact .inl g
          · refine .inr ⟨s', sp', D', h', g1, ?_, g3, g4, g5.trans f5⟩
            rw [f5, hnow, show d + (count - (s.timers x).delta) = sp.now + count by omega] at g2
            refine .fire ((hR.due x d).2 (by simp)) (by omega) hmin f2 ?_ g2
            rw [← hlog]; exact f3
        · rw [if_neg hc]
          have hlt : ∀ i e, sp.due i = some e → sp.now + count < e := fun i e he => by have := hmin i e he; omega
          obtain ⟨s', e1, e2, e3⟩ := advance_R hR hlt (by simp)
          rw [hh] at e1
          exact .inr ⟨s', _, _, h, e1, .done hlt, e2, by rw [e3.2]; exact hlog, e3.1⟩

end Etl.Timer
