import Verif.MsgTimer.Model
import Verif.MsgTimer.Spec
import Verif.TimerIsr.Sim

/-!
# The message timers do what `DoesRun` says
-/
namespace Etl.MsgTimer
open Etl.Timer

/-- The deadlines of a list, earlier by `k`. -/
def earlier (k : Nat) (D : DL) : DL := D.map (fun x => (x.1, x.2 - k))

theorem ids_earlier (k : Nat) (D : DL) : ids (earlier k D) = ids D := by simp [ids, earlier, Function.comp_def]

theorem hd_earlier (q k : Nat) : ∀ D : DL, hd q (earlier k D) = hd q D
  | [] => rfl
  | _ :: _ => rfl

theorem last_earlier (q k : Nat) : ∀ D : DL, last q (earlier k D) = last q D
  | [] => rfl
  | x :: D => last_earlier x.1 k D

theorem rep_earlier {t : Nat → Timer} (k : Nat) : ∀ {D : DL} {p b q : Nat}, Rep t p b q D → k ≤ b → Rep t p (b - k) q (earlier k D)
  | [], _, _, _, _, _ => trivial
  | (x, d) :: D, p, b, q, h, hk => by
    simp only [Rep] at h
    obtain ⟨h1, h2, h3, h4, h5⟩ := h
    show Rep t p (b - k) q ((x, d - k) :: earlier k D)
    simp only [Rep]
    refine ⟨h1, by rw [hd_earlier]; exact h2, by omega, by omega, rep_earlier k h5 (by omega)⟩

/-- Timer `i` with its time taken away. -/
def zero (i : Nat) (s : St) : St := { s with timers := upd s.timers i { s.timers i with delta := 0 } }

theorem put_zero {s : St} {i j : Nat} {f f' : Timer → Timer} (hj : j ≠ i) (hf : f' (s.timers j) = f (s.timers j)) :
    put (zero i s) j f' = (match put s j f with | .ok s1 => .ok (zero i s1) | .error u => .error u) ∧ ∀ s1, put s j f = .ok s1 → s1.timers i = s.timers i ∧ s1.max = s.max ∧ s1.tail = s.tail ∧ s1.head = s.head := by
  unfold put
  by_cases h : j < s.max
  · rw [if_pos h, if_pos (show j < (zero i s).max from h)]
    refine ⟨?_, ?_⟩
    · simp only [zero]
      congr 2; funext k; simp only [upd]; grind
    · intro s1 h1; injection h1 with h1; subst h1; exact ⟨upd_other _ _ (Ne.symm hj), rfl, rfl, rfl⟩
  · rw [if_neg h, if_neg (show ¬ j < (zero i s).max from h)]
    exact ⟨rfl, by intro s1 h1; cases h1⟩

theorem zero_timer (i : Nat) (s : St) : (zero i s).timers i = { s.timers i with delta := 0 } := upd_same ..

theorem unlinkPrev_zero {s : St} {i : Nat} (hp : (s.timers i).prev ≠ i) :
    unlinkPrev (zero i s) i = (match unlinkPrev s i with | .ok s1 => .ok (zero i s1) | .error u => .error u) ∧ ∀ s1, unlinkPrev s i = .ok s1 → s1.timers i = s.timers i ∧ s1.max = s.max := by
  unfold unlinkPrev
  rw [zero_timer]
  by_cases h : s.head = i
  · rw [if_pos h, if_pos (show (zero i s).head = i from h)]
    exact ⟨rfl, by intro s1 h1; injection h1 with h1; subst h1; exact ⟨rfl, rfl⟩⟩
  · rw [if_neg h, if_neg (show ¬ (zero i s).head = i from h)]
    have := put_zero (s := s) (i := i) (j := (s.timers i).prev) (f := fun t => { t with next := (s.timers i).next }) (f' := fun t => { t with next := (s.timers i).next }) hp rfl
    exact ⟨this.1, fun s1 h1 => ⟨(this.2 s1 h1).1, (this.2 s1 h1).2.1⟩⟩

theorem unlinkNext_zero {s : St} {i : Nat} (hp : (s.timers i).next ≠ i) :
    unlinkNext (zero i s) i = (match unlinkNext s i with | .ok s1 => .ok (zero i s1) | .error u => .error u) ∧ ∀ s1, unlinkNext s i = .ok s1 → s1.timers i = s.timers i ∧ s1.max = s.max := by
  unfold unlinkNext
  rw [zero_timer]
  by_cases h : s.tail = i
  · rw [if_pos h, if_pos (show (zero i s).tail = i from h)]
    exact ⟨rfl, by intro s1 h1; injection h1 with h1; subst h1; exact ⟨rfl, rfl⟩⟩
  · rw [if_neg h, if_neg (show ¬ (zero i s).tail = i from h)]
    have := put_zero (s := s) (i := i) (j := (s.timers i).next) (f := fun t => { t with prev := (s.timers i).prev }) (f' := fun t => { t with prev := (s.timers i).prev }) hp rfl
    exact ⟨this.1, fun s1 h1 => ⟨(this.2 s1 h1).1, (this.2 s1 h1).2.1⟩⟩

/-- Removing a timer without giving its time to the next one is the same as first taking its time away. -/
theorem remove_true_eq {s : St} {i : Nat} (hne : (s.timers i).next ≠ i) (hnp : (s.timers i).prev ≠ i) (hnx : (s.timers i).next < s.max ∨ (s.timers i).next = NO) (hb : (s.timers i).next ≠ NO → ∀ s1 s2, unlinkPrev s i = .ok s1 → unlinkNext s1 i = .ok s2 → (s2.timers (s.timers i).next).delta < 4294967296) :
    remove s i true = remove (zero i s) i false := by
  unfold remove
  by_cases hi : i < s.max
  · rw [if_pos hi, if_pos (show i < (zero i s).max from hi)]
    simp only [bind, Except.bind]
    have h1 := unlinkPrev_zero hnp
    rw [h1.1]
    cases e1 : unlinkPrev s i with
    | error u => rfl
    | ok s1 =>
      have h1' := h1.2 s1 e1
      have h2 := unlinkNext_zero (s := s1) (i := i) (by rw [h1'.1]; exact hne)
      simp only
      rw [h2.1]
      cases e2 : unlinkNext s1 i with
      | error u => rfl
      | ok s2 =>
        have h2' := h2.2 s2 e2
        have ht : s2.timers i = s.timers i := h2'.1.trans h1'.1
        have hm : s2.max = s.max := h2'.2.trans h1'.2
        have g1 : giveDelta s2 i true = .ok s2 := by unfold giveDelta; simp
        have g2 : giveDelta (zero i s2) i false = .ok (zero i s2) := by
          unfold giveDelta
          rw [zero_timer, ht]
          by_cases hN : (s.timers i).next = NO
          · rw [if_neg (by simp [hN])]
          · rw [if_pos (show false = false ∧ (s.timers i).next ≠ NO from ⟨rfl, hN⟩)]
            have hlt := hnx.resolve_right hN
            have hd := hb hN s1 s2 e1 e2
            have := (put_zero (s := s2) (i := i) (j := (s.timers i).next) (f := fun t => t) (f' := fun t => { t with delta := (t.delta + 0) % 4294967296 }) hne (by
              show ({ s2.timers (s.timers i).next with delta := ((s2.timers (s.timers i).next).delta + 0) % 4294967296 } : Timer) = s2.timers (s.timers i).next
              rw [Nat.add_zero, Nat.mod_eq_of_lt hd])).1
            rw [this]
            unfold put
            rw [if_pos (by rw [hm]; exact hlt)]
            have e : upd s2.timers (s.timers i).next (s2.timers (s.timers i).next) = s2.timers := by funext k; simp only [upd]; split <;> simp_all
            rw [e]
        simp only
        rw [g1, g2]
        simp only
        unfold put
        rw [if_pos (by rw [hm]; exact hi), if_pos (show i < (zero i s2).max by show i < s2.max; rw [hm]; exact hi)]
        congr 1
        simp only [zero]
        congr 1
        funext k; simp only [upd]; grind
  · rw [if_neg hi, if_neg (show ¬ i < (zero i s).max from hi)]

theorem put_delta {s s' : St} {i : Nat} {f : Timer → Timer} (hf : ∀ t, (f t).delta = t.delta) (h : put s i f = .ok s') (j : Nat) : (s'.timers j).delta = (s.timers j).delta := by
  unfold put at h
  split at h
  · injection h with h; subst h
    show (upd s.timers i (f (s.timers i)) j).delta = _
    by_cases hj : j = i
    · subst hj; rw [upd_same]; exact hf _
    · rw [upd_other _ _ hj]
  · cases h

theorem unlinkPrev_delta {s s' : St} {i : Nat} (h : unlinkPrev s i = .ok s') (j : Nat) : (s'.timers j).delta = (s.timers j).delta := by
  unfold unlinkPrev at h
  split at h
  · injection h with h; subst h; rfl
  · exact put_delta (by intro t; rfl) h j

theorem unlinkNext_delta {s s' : St} {i : Nat} (h : unlinkNext s i = .ok s') (j : Nat) : (s'.timers j).delta = (s.timers j).delta := by
  unfold unlinkNext at h
  split at h
  · injection h with h; subst h; rfl
  · exact put_delta (by intro t; rfl) h j

theorem lastd_ge {t : Nat → Timer} : ∀ {A : DL} {p b q : Nat}, Rep t p b q A → b ≤ lastd b A ∧ ∀ x ∈ A, x.2 ≤ lastd b A
  | [], _, _, _, _ => ⟨Nat.le_refl _, by simp⟩
  | (x, d) :: A, p, b, q, h => by
    simp only [Rep] at h
    have := lastd_ge h.2.2.2.2
    refine ⟨Nat.le_trans h.2.2.1 this.1, ?_⟩
    intro y hy
    rcases List.mem_cons.1 hy with rfl | hy
    · exact this.1
    · exact this.2 y hy

theorem lastd_mem (b : Nat) : ∀ A : DL, lastd b A = b ∧ A = [] ∨ ∃ x ∈ A, x.2 = lastd b A
  | [] => .inl ⟨rfl, rfl⟩
  | (x, d) :: A => by
    rcases lastd_mem d A with ⟨h, rfl⟩ | ⟨y, hy, he⟩
    · exact .inr ⟨(x, d), by simp, rfl⟩
    · exact .inr ⟨y, by simp [hy], he⟩

theorem mem_earlier {k x d : Nat} {B : DL} (h : ∀ y ∈ B, k ≤ y.2) : (x, d) ∈ earlier k B ↔ (x, d + k) ∈ B := by
  unfold earlier
  rw [List.mem_map]
  constructor
  · rintro ⟨⟨y, e⟩, hy, he⟩
    injection he with h1 h2
    have := h _ hy
    simp only at h1 h2 this
    subst h1; rw [show d + k = e by omega]; exact hy
  · intro hx
    exact ⟨_, hx, by simp⟩

/-- Where the deadlines go when the running timer `i` is unregistered. -/
def moved (due : Nat → Option Nat) (i k : Nat) (before : Nat → Bool) : Nat → Option Nat :=
  fun j => if j = i then none else if before j then due j else (due j).map (fun d => d - k)

theorem drop_R {s : St} {sp : Sp} {A B : DL} {i e : Nat} (h : R s sp (A ++ (i, e) :: B)) :
    ∃ s', remove s i true = .ok s' ∧ R s' { sp with due := moved sp.due i (e - lastd sp.now A) (fun j => decide (j ∈ ids A)) } (A ++ earlier (e - lastd sp.now A) B) ∧ Same s s' := by
  have hrep := (rep_append _ _ _ _ _ _).1 h.lst.rep
  have hxr : (s.timers i).prev = last NO A ∧ (s.timers i).next = hd NO B ∧ lastd sp.now A ≤ e ∧ (s.timers i).delta = e - lastd sp.now A ∧ Rep s.timers i e NO B := by
    have := hrep.2; simp only [Rep] at this; exact ⟨this.1, this.2.1, this.2.2.1, this.2.2.2.1, this.2.2.2.2⟩
  have hla := lastd_ge hrep.1
  generalize hb : lastd sp.now A = b at *
  have hnd := h.lst.nodup
  have hnd' := hnd
  rw [ids_append] at hnd
  change (ids A ++ i :: ids B).Nodup at hnd
  have hxA : i ∉ ids A := fun hm => (List.nodup_append.1 hnd).2.2 i hm i (by simp) rfl
  have hxB : i ∉ ids B := (List.nodup_cons.1 (List.nodup_append.1 hnd).2.1).1
  have hdisj : ∀ y ∈ ids A, y ∉ ids B := fun y h1 h2 => (List.nodup_append.1 hnd).2.2 y h1 y (by simp [h2]) rfl
  have hi := h.lst.lt i (by simp [ids])
  have hiN : i ≠ NO := lt_ne_NO h hi.1
  have hnx : (s.timers i).next < s.max ∨ (s.timers i).next = NO := by
    rw [hxr.2.1]
    cases B with
    | nil => exact .inr rfl
    | cons y B => exact .inl (h.lst.lt y.1 (by simp [ids])).1
  have hne : (s.timers i).next ≠ i := by
    rw [hxr.2.1]
    cases B with
    | nil => exact Ne.symm hiN
    | cons y B => rintro e'; exact hxB (by rw [← e']; simp [ids, hd])
  have hnp : (s.timers i).prev ≠ i := by
    rw [hxr.1]
    by_cases hA : A = []
    · subst hA; exact Ne.symm hiN
    · intro e'; exact hxA (by have := last_mem NO A hA; rw [e'] at this; exact this)
  have hdl : (s.timers i).next ≠ NO → ∀ s1 s2, unlinkPrev s i = .ok s1 → unlinkNext s1 i = .ok s2 → (s2.timers (s.timers i).next).delta < 4294967296 := by
    intro hN s1 s2 h1 h2
    rw [unlinkNext_delta h2, unlinkPrev_delta h1, hxr.2.1]
    cases B with
    | nil => exact absurd hxr.2.1 hN
    | cons y B =>
      have := h.delta_lt (i := y.1) (d := y.2) (by simp)
      show (s.timers y.1).delta < _
      unfold Inactive at this; omega
  have hBge : ∀ y ∈ B, e ≤ y.2 := rep_base_le hxr.2.2.2.2
  have hk : ∀ y ∈ B, e - b ≤ y.2 := fun y hy => by have := hBge y hy; omega
  rw [remove_true_eq hne hnp hnx hdl]
  -- the state with the time taken away
  have hsame : Same s (zero i s) := ⟨rfl, rfl, rfl, rfl, fun y => by simp only [zero]; grind [upd], fun y => by simp only [zero]; grind [upd], fun y => by simp only [zero]; grind [upd]⟩
  have hids : ids (A ++ (i, b) :: earlier (e - b) B) = ids (A ++ (i, e) :: B) := by
    rw [ids_append, ids_append]
    show ids A ++ i :: ids (earlier (e - b) B) = ids A ++ i :: ids B
    rw [ids_earlier]
  have hlst : Lst (zero i s) sp.now (A ++ (i, b) :: earlier (e - b) B) := by
    refine ⟨?_, ?_, ?_, by rw [hids]; exact hnd', ?_, h.lst.max⟩
    · show s.head = _; rw [h.lst.head, hd_append, hd_append]; rfl
    · show s.tail = _; rw [h.lst.tail, last_append, last_append]; show last i B = last i (earlier (e - b) B); rw [last_earlier]
    · rw [rep_append, hb]
      refine ⟨rep_frame hrep.1 (fun y hy => upd_other _ _ (by rintro rfl; exact hxA hy)), ?_⟩
      simp only [Rep]
      rw [zero_timer]
      refine ⟨hxr.1, by show (s.timers i).next = _; rw [hd_earlier]; exact hxr.2.1, Nat.le_refl _, by show 0 = b - b; omega, ?_⟩
      have := rep_earlier (e - b) hxr.2.2.2.2 (by omega)
      rw [show e - (e - b) = b by omega] at this
      exact rep_frame this (fun y hy => upd_other _ _ (by rintro rfl; rw [ids_earlier] at hy; exact hxB hy))
    · intro y hy
      rw [hids] at hy
      have := h.lst.lt y hy
      exact ⟨this.1, by rw [hsame.id]; exact this.2⟩
  have hR : R (zero i s) { sp with due := fun j => if j = i then some b else if j ∈ ids A then sp.due j else (sp.due j).map (fun d => d - (e - b)) } (A ++ (i, b) :: earlier (e - b) B) := by
    refine h.of_same hsame hlst ?_ ?_ ?_
    · intro j d
      by_cases hji : j = i
      · subst hji
        rw [if_pos rfl]
        constructor
        · intro hh; injection hh with hh; subst hh; simp
        · intro hh
          rw [mem_unique (by rw [hids]; exact hnd') hh (show (j, b) ∈ _ by simp)]
      · rw [if_neg hji]
        by_cases hjA : j ∈ ids A
        · rw [if_pos hjA, h.due]
          have h1 : (j, d) ∉ B := fun hm => hdisj j hjA (mem_ids hm)
          have h2 : (j, d) ∉ earlier (e - b) B := fun hm => hdisj j hjA (by have := mem_ids hm; rwa [ids_earlier] at this)
          simp [hji, h1, h2]
        · rw [if_neg hjA]
          have h1 : ∀ d, (j, d) ∉ A := fun d hm => hjA (mem_ids hm)
          rw [Option.map_eq_some_iff]
          simp only [List.mem_append, List.mem_cons, h1, false_or, Prod.mk.injEq, hji, false_and, mem_earlier hk]
          constructor
          · rintro ⟨d', hd', he⟩
            have hm := (h.due j d').1 hd'
            simp only [List.mem_append, List.mem_cons, h1, false_or, Prod.mk.injEq, hji, false_and] at hm
            have := hk _ hm
            simp only at this
            rw [show d + (e - b) = d' by omega]; exact hm
          · intro hm
            exact ⟨d + (e - b), (h.due _ _).2 (by simp [hm]), by omega⟩
    · intro j d hm
      simp only [List.mem_append, List.mem_cons, mem_earlier hk] at hm
      rcases hm with hm | hm | hm
      · exact h.act j d (by simp [hm])
      · injection hm with h1 h2; subst h1; subst h2
        have := h.act j e (by simp)
        exact ⟨by omega, this.2⟩
      · have := h.act j _ (show (j, d + (e - b)) ∈ A ++ (i, e) :: B by simp [hm])
        exact ⟨by omega, this.2⟩
    · intro j hj hn
      rw [hids] at hn
      have hji : j ≠ i := by rintro rfl; exact hn (by simp [ids])
      show (upd s.timers i _ j).delta = _
      rw [upd_other _ _ hji]; exact h.idle j hj hn
  obtain ⟨s', f1, f2, f3⟩ := remove_R false hR (by simp)
  refine ⟨s', f1, ?_, hsame.trans f3⟩
  have : moved sp.due i (e - b) (fun j => decide (j ∈ ids A)) = Timer.set (fun j => if j = i then some b else if j ∈ ids A then sp.due j else (sp.due j).map (fun d => d - (e - b))) i none := by
    funext j
    by_cases hj : j = i
    · subst hj; simp [moved, Timer.set]
    · simp [moved, Timer.set, hj]
  rw [this]
  exact f2

theorem unregister_R {s : St} {sp : Sp} {D : DL} (h : R s sp D) {i : Nat} (hi : i < s.max ∨ i = NO) :
    ∃ r s' sp' D', unregister s i = .ok (r, s') ∧ DoesOp s.max sp (.unregister i) (.bool r) sp' ∧ R s' sp' D' ∧ Keeps s s' := by
  by_cases hact : i < s.max ∧ (s.timers i).delta ≠ Inactive
  · obtain ⟨hi, ha⟩ := hact
    have hm := (h.active_iff hi).1 ha
    have hreg := h.lst.lt i hm
    have hN := lt_ne_NO h hi
    obtain ⟨e, he⟩ := mem_ids_iff.1 hm
    obtain ⟨A, B, rfl⟩ := mem_split he
    obtain ⟨s1, e1, e2, e3⟩ := drop_R h
    have hrep := (rep_append _ _ _ _ _ _).1 h.lst.rep
    have hla := lastd_ge hrep.1
    have hxr : lastd sp.now A ≤ e ∧ Rep s.timers i e NO B := by
      have := hrep.2; simp only [Rep] at this; exact ⟨this.2.2.1, this.2.2.2.2⟩
    have hcfg : sp.cfg i = some ((s.timers i).period, (s.timers i).repeating) := by
      rcases h.cfg i hi with hc | hc
      · exact hc.2
      · exact absurd (hreg.2.symm.trans hc.1) hN
    have hni : i ∉ ids (A ++ earlier (e - lastd sp.now A) B) := by
      have := due_none e2 (i := i)
      exact this.1 (by simp [moved])
    have hi1 : i < s1.max := by rw [e3.max]; exact hi
    have hid1 : (s1.timers i).id = i := by rw [e3.id]; exact hreg.2
    have hnd := h.lst.nodup
    rw [unregister, if_neg hN, if_neg (fun hc => hc hi), if_neg (by rw [hreg.2]; exact hN), drop, if_pos ha, hreg.2, e1]
    refine ⟨true, _, { sp with cfg := Timer.set sp.cfg i none, due := moved sp.due i (e - lastd sp.now A) (fun j => decide (j ∈ ids A)) }, A ++ earlier (e - lastd sp.now A) B, rfl, ?_, ?_, e3.max, e3.log⟩
    · refine DoesOp.unregisterRunning (fun j => decide (j ∈ ids A)) hcfg ((h.due i e).2 (by simp)) ?_ ?_ hxr.1 ?_ hla.1
      · intro j d _ hd hb
        have hjA : j ∈ ids A := of_decide_eq_true hb
        obtain ⟨d', hd'⟩ := mem_ids_iff.1 hjA
        rw [mem_unique hnd ((h.due j d).1 hd) (show (j, d') ∈ _ by simp [hd'])]
        exact hla.2 _ hd'
      · intro j d hji hd hb
        have hjA : j ∉ ids A := of_decide_eq_false hb
        have hm := (h.due j d).1 hd
        simp only [List.mem_append, List.mem_cons, Prod.mk.injEq, hji, false_and, false_or] at hm
        rcases hm with hm | hm
        · exact absurd (mem_ids hm) hjA
        · exact rep_base_le hxr.2 _ hm
      · rcases lastd_mem sp.now A with ⟨hh, _⟩ | ⟨x, hx, he'⟩
        · exact .inl hh
        · refine .inr ⟨x.1, ?_, by simp [mem_ids (show (x.1, x.2) ∈ A from hx)], (h.due _ _).2 (by rw [← he']; simp [hx])⟩
          rintro e'
          rw [ids_append] at hnd
          exact (List.nodup_append.1 hnd).2.2 x.1 (mem_ids (show (x.1, x.2) ∈ A from hx)) x.1 (by simp [ids, e']) rfl
    · exact e2.configure hi1 hni {} none _ (.inr ⟨rfl, rfl⟩) rfl (by decide) (by rw [cnt_upd_sub (by rw [hid1]; exact hN) rfl _ hi1, e2.reg])
  · have heq : unregister s i = Timer.unregister s i := by
      unfold unregister Timer.unregister
      by_cases hN : i = NO
      · rw [if_pos hN, if_pos hN]
      · have hi' := hi.resolve_right hN
        have : ¬ (s.timers i).delta ≠ Inactive := fun hc => hact ⟨hi', hc⟩
        rw [drop, deactivate, if_neg this, if_neg this]
    rw [heq]
    obtain ⟨r, s', sp', D', e1, e2, e3, e4⟩ := Timer.unregister_R h hi
    refine ⟨r, s', sp', D', e1, .other ?_ e2, e3, e4⟩
    intro j hj; injection hj with hj; subst hj
    rw [due_none h]
    intro hm
    have := h.lst.lt i hm
    exact hact ⟨this.1, (h.active_iff this.1).2 hm⟩

theorem apply_R {s : St} {sp : Sp} {D : DL} (h : R s sp D) {o : Op} (ho : OpOk s.max o) :
    ∃ r s' sp' D', apply s o = .ok (r, s') ∧ DoesOp s.max sp o r sp' ∧ R s' sp' D' ∧ Keeps s s' := by
  by_cases hu : ∃ i, o = .unregister i
  · obtain ⟨i, rfl⟩ := hu
    obtain ⟨r, s', sp', D', e1, e2, e3, e4⟩ := unregister_R h ho
    exact ⟨_, s', sp', D', by simp only [apply, e1, ret], e2, e3, e4⟩
  · obtain ⟨r, s', sp', D', e1, e2, e3, e4⟩ := Timer.apply_R h ho
    refine ⟨r, s', sp', D', ?_, .other (fun i hi => absurd ⟨i, hi⟩ hu) e2, e3, e4⟩
    cases o <;> first | exact e1 | exact absurd ⟨_, rfl⟩ hu

theorem applyAll_R : ∀ {os : List Op} {s : St} {sp : Sp} {D : DL}, R s sp D → (∀ o ∈ os, OpOk s.max o) → ∃ s' sp' D', applyAll s os = .ok s' ∧ DoesOps s.max sp os sp' ∧ R s' sp' D' ∧ Keeps s s'
  | [], s, sp, D, h, _ => ⟨s, sp, D, rfl, .nil, h, rfl, rfl⟩
  | o :: os, s, sp, D, h, ho => by
    obtain ⟨r, s1, sp1, D1, e1, e2, e3, e4⟩ := apply_R h (ho o (by simp))
    obtain ⟨s2, sp2, D2, f1, f2, f3, f4⟩ := applyAll_R (os := os) e3 (fun o ho' => by rw [e4.1]; exact ho o (by simp [ho']))
    refine ⟨s2, sp2, D2, by rw [applyAll, e1]; exact f1, .cons e2 (by rw [e4.1] at f2; exact f2), f3, f4.1.trans e4.1, f4.2.trans e4.2⟩

theorem doesOp_now {max : Nat} {s s' : Sp} {o : Op} {r : Ret} (h : DoesOp max s o r s') : s'.now = s.now := by
  cases h with
  | other _ h => exact specOp_now h
  | unregisterRunning => rfl

theorem doesOps_now {max : Nat} {s s' : Sp} {os : List Op} (h : DoesOps max s os s') : s'.now = s.now := by
  induction h with
  | nil => rfl
  | cons h1 _ ih => rw [ih, doesOp_now h1]

/-- A call that leaves timer `i` alone does not start or stop it. -/
theorem doesOp_leaves {max : Nat} {s s' : Sp} {o : Op} {r : Ret} {i : Nat} (h : DoesOp max s o r s') (hl : Leaves i o) : (s.due i = none → s'.due i = none) ∧ (s.cfg i ≠ none → s'.cfg i = s.cfg i) := by
  cases h with
  | other _ h => exact ⟨fun hd => by rw [(specOp_leaves h hl).1]; exact hd, (specOp_leaves h hl).2⟩
  | @unregisterRunning j c e b before h1 h2 =>
    have hij : i ≠ j := Ne.symm hl
    refine ⟨fun hd => ?_, fun _ => set_other _ _ hij⟩
    simp only
    rw [if_neg hij, hd]; simp

theorem doesOps_leaves {max : Nat} {s s' : Sp} {os : List Op} {i : Nat} (h : DoesOps max s os s') (hl : ∀ o ∈ os, Leaves i o) (hc : s.cfg i ≠ none) : (s.due i = none → s'.due i = none) ∧ s'.cfg i = s.cfg i := by
  induction h with
  | nil => exact ⟨id, rfl⟩
  | cons h1 _ ih =>
    have h2 := doesOp_leaves h1 (hl _ (by simp))
    have h3 := ih (fun o ho => hl o (by simp [ho])) (by rw [h2.2 hc]; exact hc)
    exact ⟨fun hd => h3.1 (h2.1 hd), h3.2.trans (h2.2 hc)⟩

/-- One firing. -/
theorem fire_R {late : Bool} {cb : Nat → List Nat → List Op} {s : St} {sp : Sp} {D : DL} {x d : Nat} (h : R s sp ((x, d) :: D)) (hcb : ∀ i l, ∀ o ∈ cb i l, OpOk s.max o) (hlate : late = true → ∀ i l, ∀ o ∈ cb i l, Leaves i o) :
    ∃ s' sp' D' p r, fire late cb s = .ok s' ∧ sp.cfg x = some (p, r) ∧
      DoesOps s.max { sp with now := d, due := Timer.set sp.due x (if late = false ∧ r = true then some (d + p) else none) } (cb x (s.log ++ [x])) sp' ∧
      R s' (if late then { sp' with due := Timer.set sp'.due x (if r then some (d + p) else none) } else sp') D' ∧ s'.max = s.max ∧ s'.log = s.log ++ [x] := by
  have hx := h.lst.lt x (by simp [ids])
  have hh : s.head = x := h.lst.head
  have hxN : x ≠ NO := lt_ne_NO h hx.1
  have hcfg : sp.cfg x = some ((s.timers x).period, (s.timers x).repeating) := by
    rcases h.cfg x hx.1 with hc | hc
    · exact hc.2
    · exact absurd (hx.2.symm.trans hc.1) hxN
  have hact := h.act x d (by simp)
  obtain ⟨s1, e1, e2, e3⟩ := remove_R (A := []) true h (by simp)
  simp only [if_true, List.nil_append] at e2
  have hn1 : x ∉ ids D := by have := h.lst.nodup; simp only [ids, List.map_cons, List.nodup_cons] at this; exact this.1
  have hi1 : x < s1.max := by rw [e3.max]; exact hx.1
  obtain ⟨s2, D2, f1, f2, f3⟩ : ∃ s2 D2, (if late = true then .ok s1 else rearm s1 x) = Except.ok s2 ∧
      R s2 { sp with now := d, due := Timer.set sp.due x (if late = false ∧ (s.timers x).repeating = true then some (d + (s.timers x).period) else none) } D2 ∧ Same s1 s2 := by
    cases late with
    | true => exact ⟨s1, D, rfl, by simpa using e2, Same.refl _⟩
    | false =>
      obtain ⟨s2, D2, f1, f2, f3⟩ := TimerIsr.rearm_R e2 hi1 hn1 hcfg hact.2
      refine ⟨s2, D2, f1, ?_, f3⟩
      have : (Timer.set (Timer.set sp.due x none) x (if (s.timers x).repeating = true then some (d + (s.timers x).period) else none) : Nat → Option Nat) =
          Timer.set sp.due x (if false = false ∧ (s.timers x).repeating = true then some (d + (s.timers x).period) else none) := by
        funext j; by_cases hj : j = x <;> simp [Timer.set, hj]
      rw [← this]; exact f2
  have hid2 : (s2.timers x).id = x := by rw [f3.id, e3.id]; exact hx.2
  have hlog : s2.log = s.log := f3.log.trans e3.log
  have hmax : s2.max = s.max := f3.max.trans e3.max
  obtain ⟨s3, sp3, D3, g1, g2, g3, g4⟩ := applyAll_R (os := cb x (s.log ++ [x])) (TimerIsr.R.withLog f2 (s2.log ++ [x])) (fun o ho => by show OpOk s2.max o; rw [hmax]; exact hcb _ _ o ho)
  have hm3 : s3.max = s.max := g4.1.trans hmax
  obtain ⟨s4, D4, k1, k2, k3⟩ : ∃ s4 D4, (if late = true then rearm s3 x else .ok s3) = Except.ok s4 ∧
      R s4 (if late = true then { sp3 with due := Timer.set sp3.due x (if (s.timers x).repeating = true then some (d + (s.timers x).period) else none) } else sp3) D4 ∧ Same s3 s4 := by
    cases late with
    | false => exact ⟨s3, D3, rfl, by simpa using g3, Same.refl _⟩
    | true =>
      have hlv := doesOps_leaves (i := x) g2 (fun o ho => hlate rfl _ _ o ho) (by show sp.cfg x ≠ none; rw [hcfg]; simp)
      have hnow3 : sp3.now = d := doesOps_now g2
      obtain ⟨s4, D4, k1, k2, k3⟩ := TimerIsr.rearm_R g3 (x := x) (by rw [hm3]; exact hx.1) ((due_none g3).1 (hlv.1 (by simp [Timer.set]))) (hlv.2.trans hcfg) hact.2
      rw [hnow3] at k2
      refine ⟨s4, D4, k1, ?_, k3⟩
      simp only [if_true, hnow3]
      exact k2
  refine ⟨s4, sp3, D4, _, _, ?_, hcfg, ?_, k2, k3.max.trans hm3, ?_⟩
  · rw [fire, hh, hx.2, e1]
    simp only
    rw [f1]
    simp only
    rw [hid2, hlog]
    rw [hlog] at g1
    rw [g1]
    exact k1
  · rw [← hmax]; exact g2
  · rw [k3.log, g4.2]; show s2.log ++ [x] = _; rw [hlog]

theorem tickLoop_R {late : Bool} {cb : Nat → List Nat → List Op} : ∀ (fuel count : Nat) {s : St} {sp : Sp} {D : DL} {h : Trace}, R s sp D → (∀ i l, ∀ o ∈ cb i l, OpOk s.max o) → (late = true → ∀ i l, ∀ o ∈ cb i l, Leaves i o) →
    s.log = h.map Prod.fst →
    tickLoop late cb fuel count s = .error .diverge ∨
    ∃ s' sp' D' h', tickLoop late cb fuel count s = .ok s' ∧ DoesTick late s.max cb (sp.now + count) sp h sp' h' ∧ R s' sp' D' ∧ s'.log = h'.map Prod.fst ∧ s'.max = s.max
  | 0, _, _, _, _, _, _, _, _, _ => .inl rfl
  | fuel + 1, count, s, sp, D, h, hR, hcb, hlate, hlog => by
    rw [tickLoop]
    by_cases hN : s.head = NO
    · rw [if_pos hN]
      have hD := (head_none hR).1 hN
      subst hD
      refine .inr ⟨s, { sp with now := sp.now + count }, [], h, rfl, .done (fun i d hd => absurd ((hR.due i d).1 hd) (by simp)), ?_, hlog, rfl⟩
      exact ⟨⟨hR.lst.head, hR.lst.tail, trivial, hR.lst.nodup, hR.lst.lt, hR.lst.max⟩, hR.due, hR.cfg, hR.out, by simp, hR.idle, hR.per, hR.reg, hR.en⟩
    · rw [if_neg hN]
      cases D with
      | nil => exact absurd ((head_none hR).2 rfl) hN
      | cons y D =>
        obtain ⟨x, d⟩ := y
        have hh : s.head = x := hR.lst.head
        have hx := hR.lst.lt x (by simp [ids])
        have hrep := hR.lst.rep
        have hxd : (s.timers x).delta = d - sp.now ∧ sp.now ≤ d := by simp only [Rep] at hrep; exact ⟨hrep.2.2.2.1, hrep.2.2.1⟩
        have hmin : ∀ j e, sp.due j = some e → d ≤ e := by
          intro j e hj
          have hm := (hR.due j e).1 hj
          have hs := rep_sorted hrep
          rcases List.mem_cons.1 hm with hm | hm
          · injection hm with _ hm; omega
          · exact (List.pairwise_cons.1 hs).1 _ hm
        rw [hh, if_neg (fun hc => hc hx.1)]
        by_cases hc : count ≥ (s.timers x).delta
        · rw [if_pos hc]
          obtain ⟨s1, sp1, D1, p, r, f1, f2, f3, f4, f5, f6⟩ := fire_R hR hcb hlate
          rw [f1]
          simp only
          have hlog1 : s1.log = (h ++ [(x, d)]).map Prod.fst := by rw [f6, hlog]; simp
          have hnow : (if late = true then ({ sp1 with due := Timer.set sp1.due x (if r then some (d + p) else none) } : Sp) else sp1).now = d := by
            have : sp1.now = d := doesOps_now f3
            cases late <;> exact this
          rcases tickLoop_R fuel (count - (s.timers x).delta) f4 (by rw [f5]; exact hcb) hlate hlog1 with g | ⟨s', sp', D', h', g1, g2, g3, g4, g5⟩
          · exact .inl g
          · refine .inr ⟨s', sp', D', h', g1, ?_, g3, g4, g5.trans f5⟩
            rw [f5, hnow, show d + (count - (s.timers x).delta) = sp.now + count by omega] at g2
            refine .fire ((hR.due x d).2 (by simp)) (by omega) hmin f2 ?_ g2
            rw [← hlog]; exact f3
        · rw [if_neg hc]
          have hlt : ∀ i e, sp.due i = some e → sp.now + count < e := fun i e he => by have := hmin i e he; omega
          obtain ⟨s', e1, e2, e3⟩ := advance_R hR hlt (by simp)
          rw [hh] at e1
          exact .inr ⟨s', _, _, h, e1, .done hlt, e2, by rw [e3.2]; exact hlog, e3.1⟩

end Etl.MsgTimer
