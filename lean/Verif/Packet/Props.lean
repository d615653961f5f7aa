/-
C96: message_packet.  Specification, theorems, findings.
-/
import Mathlib.Tactic.Linarith
import Verif.Packet.Model
import Verif.VPool.Props

namespace Etl.Packet

/-! ### Specification: a packet variable does not exist, is empty, or holds a message -/

abbrev Vars := Nat → Option (Option Obj)
/-- what moving leaves -/
def leave (c : Cfg) (m : Option Obj) : Option Obj := m.map fun o => { o with val := c.moved o }
/-- packet `i` gets what packet `j` holds -/
def transfer (c : Cfg) (s : Vars) (i j : Nat) (move : Bool) : Vars := fun k =>
  if k = j ∧ move = true ∧ i ≠ j then (s j).map (leave c) else if k = i then s j else s k

def want (c : Cfg) (s : Vars) : Op → Out × Vars
  | .make i => (.unit, upd s i (some none))
  | .makeOf i m => (.unit, upd s i (some (some m)))
  | .makeFrom i m => if ∃ t ∈ c.types, c.id t = c.id m.ty then (.unit, upd s i (some (some m))) else (.unhandled, if c.throws then s else upd s i (some none))
  | .construct i j move => (.unit, transfer c s i j move)
  | .copy i j move => (.unit, transfer c s i j move)
  | .assign i j move => (.unit, transfer c s i j move)
  | .destroy i => (.unit, upd s i none)
  | .get i => (match s i with | some (some o) => .msg o | _ => .unit, s)
  | .write i v => (.unit, upd s i ((s i).map fun m => m.map fun o => { o with val := v }))
  | .isValid i => (.bool (match s i with | some (some _) => true | _ => false), s)
  | .accepts id => (.bool (decide (∃ t ∈ c.types, c.id t = id)), s)

/-- what a program may do: construct a packet that does not exist, use one that does, put in messages whose type is the one of the list with their id, read what is there, `copy` into an empty packet only, and not assign a message to itself -/
def Allowed (c : Cfg) (s : Vars) : Op → Prop
  | .make i => s i = none
  | .makeOf i m => s i = none ∧ m.ty ∈ c.types
  | .makeFrom i m => s i = none ∧ ∀ t ∈ c.types, c.id t = c.id m.ty → t = m.ty
  | .construct i j _ => s i = none ∧ s j ≠ none
  | .copy i j _ => s i = some none ∧ s j ≠ none
  | .assign i j _ => s i ≠ none ∧ s j ≠ none ∧ (i = j → s i = some none)
  | .destroy i => s i ≠ none
  | .get i => ∃ o, s i = some (some o)
  | .write i _ => ∃ o, s i = some (some o)
  | .isValid i => s i ≠ none
  | .accepts _ => True

def wantRun (c : Cfg) : Vars → List Op → List Out × Vars
  | s, [] => ([], s)
  | s, o :: os => ((want c s o).1 :: (wantRun c (want c s o).2 os).1, (wantRun c (want c s o).2 os).2)
def AllAllowed (c : Cfg) : Vars → List Op → Prop
  | _, [] => True
  | s, o :: os => Allowed c s o ∧ AllAllowed c (want c s o).2 os

/-- different types of the list have different ids -/
def Distinct (c : Cfg) : Prop := ∀ t ∈ c.types, ∀ u ∈ c.types, c.id t = c.id u → t = u

def blank : World := ⟨fun _ => none, fun _ => 0, fun _ => 0⟩
/-- the messages a packet holds: none or one -/
def held : Option (Option Obj) → Nat
  | some (some _) => 1
  | _ => 0

/-! ### Proofs -/

def rep : Option (Option Obj) → Option Packet
  | none => none
  | some m => some ⟨m, m.isSome⟩

structure Sim (c : Cfg) (s : Vars) (w : World) : Prop where
  pk : ∀ i, w.pk i = rep (s i)
  ty : ∀ i o, s i = some (some o) → o.ty ∈ c.types
  count : ∀ i, w.built i = w.destroyed i + held (s i)

theorem addNew_ok {c : Cfg} {o : Obj} (w : World) (i : Nat) (p : Packet) (l : List Nat) (hm : o.ty ∈ l) (hu : ∀ t ∈ l, c.id t = c.id o.ty → t = o.ty) : addNew c w i p o l = place w i p o := by
  induction l with
  | nil => simp at hm
  | cons t ts ih =>
    unfold addNew
    by_cases h : c.id t = c.id o.ty
    · rw [if_pos h, if_pos (hu t (by simp) h)]
    · rw [if_neg h]
      refine ih ?_ fun t ht => hu t (by simp [ht])
      rcases List.mem_cons.mp hm with e | e
      · rw [e] at h; exact absurd rfl h
      · exact e

theorem delete_ok {c : Cfg} {o : Obj} (w : World) (i : Nat) (p : Packet) (hp : p.data = some o) (l : List Nat) (hm : o.ty ∈ l) (hu : ∀ t ∈ l, c.id t = c.id o.ty → t = o.ty) : deleteMessage c w i p l = kill w i p := by
  induction l with
  | nil => simp at hm
  | cons t ts ih =>
    unfold deleteMessage
    rw [hp]
    simp only
    by_cases h : c.id t = c.id o.ty
    · rw [if_pos h, if_pos (hu t (by simp) h)]
    · rw [if_neg h]
      refine ih ?_ fun t ht => hu t (by simp [ht])
      rcases List.mem_cons.mp hm with e | e
      · rw [e] at h; exact absurd rfl h
      · exact e

theorem accepts_iff (c : Cfg) (id : Nat) : accepts c id = decide (∃ t ∈ c.types, c.id t = id) := by
  unfold accepts
  rw [Bool.eq_iff_iff]; simp

/-- the effect of `delete_current_message` -/
theorem deleteCurrent_ok {c : Cfg} (hd : Distinct c) {s : Vars} {w : World} (h : Sim c s w) (i : Nat) (m : Option Obj) (hi : s i = some m) :
    deleteCurrent c w i ⟨m, m.isSome⟩ = .ok ({ w with destroyed := upd w.destroyed i (w.destroyed i + held (s i)) }, ⟨none, m.isSome⟩) := by
  unfold deleteCurrent
  cases m with
  | none =>
    have : upd w.destroyed i (w.destroyed i + held (s i)) = w.destroyed := by
      funext k; unfold upd; split
      · next e => subst e; simp [hi, held]
      · rfl
    rw [this]; simp
  | some o =>
    simp only [Option.isSome_some, if_true]
    have hk : kill w i ⟨some o, true⟩ = .ok ({ w with destroyed := upd w.destroyed i (w.destroyed i + held (s i)) }, ⟨none, true⟩) := by
      simp [kill, hi, held]
    cases c.virt
    · simp only [Bool.false_eq_true, if_false]
      rw [delete_ok w i _ rfl _ (h.ty i o hi) (fun t ht e => hd t ht _ (h.ty i o hi) e)]
      exact hk
    · exact hk

/-- the effect of filling an empty packet -/
theorem fill_ok {c : Cfg} (hd : Distinct c) {s : Vars} {w : World} (i j : Nat) (move v : Bool) (hij : i = j → v = false)
    (hpk : ∀ k, k ≠ i → w.pk k = rep (s k)) (hty : ∀ k o, k ≠ i → s k = some (some o) → o.ty ∈ c.types) (hcount : ∀ k, w.built k = w.destroyed k + if k = i then 0 else held (s k)) (hj : s j ≠ none) (hsi : i = j → s j = some none) :
    ∃ w', fill c w i ⟨none, v⟩ j move = .ok w' ∧ Sim c (transfer c s i j move) w' := by
  obtain ⟨m, hm⟩ := Option.ne_none_iff_exists'.mp hj
  by_cases e : i = j
  · subst e
    have hv := hij rfl; subst hv
    have hm' := hsi rfl
    refine ⟨{ w with pk := upd w.pk i (some ⟨none, false⟩) }, ?_, ?_⟩
    · unfold fill; simp; rfl
    · have et : transfer c s i i move = s := by
        funext k; unfold transfer; simp; intro e; rw [e]
      rw [et]
      refine ⟨fun k => ?_, fun k o ho => ?_, fun k => ?_⟩
      · show upd w.pk i _ k = _
        unfold upd; split
        · next e => subst e; rw [hm']; rfl
        · next e => exact hpk k e
      · by_cases e : k = i
        · subst e; rw [hm'] at ho; cases ho
        · exact hty k o e ho
      · have := hcount k
        show w.built k = w.destroyed k + _
        rw [this]; split
        · next e => subst e; rw [hm']; rfl
        · rfl
  · have hne : j ≠ i := fun h => e h.symm
    have pj : w.pk j = some ⟨m, m.isSome⟩ := by rw [hpk j hne, hm]; rfl
    cases m with
    | none =>
      refine ⟨{ w with pk := upd w.pk i (some ⟨none, false⟩) }, ?_, ?_⟩
      · unfold fill; rw [if_neg e]; simp only [packet, pj]; rfl
      · have et : transfer c s i j move = upd s i (some none) := by
          funext k; unfold transfer upd
          by_cases e1 : k = j
          · subst e1
            rw [hm, if_neg hne]
            split <;> rfl
          · rw [if_neg (fun h => e1 h.1), hm]
        rw [et]
        refine ⟨fun k => ?_, fun k o ho => ?_, fun k => ?_⟩
        · show upd w.pk i _ k = _
          unfold upd; split
          · rfl
          · next e => exact hpk k e
        · unfold upd at ho; split at ho
          · cases ho
          · next e => exact hty k o e ho
        · show w.built k = w.destroyed k + _
          rw [hcount k]; unfold upd; split <;> rfl
    | some o =>
      have hot := hty j o hne hm
      obtain ⟨W, hW⟩ : ∃ W : World, W = { w with built := upd w.built i (w.built i + 1), pk := upd w.pk i (some ⟨some o, true⟩) } := ⟨_, rfl⟩
      have hf : fill c w i ⟨none, v⟩ j move = .ok (if move then takeFrom c W j else W) := by
        unfold fill
        rw [if_neg e]
        simp only [packet, pj, get, Option.isSome_some]
        have := addNew_ok w i ⟨none, true⟩ c.types hot (fun t ht e => hd t ht _ hot e)
        simp only [bind, Except.bind]
        rw [if_pos trivial]
        simp only [this, place, hW]
        rfl
      refine ⟨_, hf, ?_⟩
      have hWj : W.pk j = some ⟨some o, true⟩ := by rw [hW]; show upd w.pk i _ j = _; unfold upd; rw [if_neg hne, pj]; rfl
      have et : ∀ k, transfer c s i j move k = if k = j ∧ move = true then some (some { o with val := c.moved o }) else if k = i then some (some o) else s k := by
        intro k; unfold transfer
        rw [hm]
        by_cases h1 : k = j ∧ move = true
        · rw [if_pos h1, if_pos ⟨h1.1, h1.2, e⟩]; rfl
        · rw [if_neg h1, if_neg (fun h => h1 ⟨h.1, h.2.1⟩)]
      have hb : (if move then takeFrom c W j else W).built = W.built ∧ (if move then takeFrom c W j else W).destroyed = W.destroyed ∧ (if move then takeFrom c W j else W).pk = fun k => if k = j ∧ move = true then some ⟨some { o with val := c.moved o }, true⟩ else W.pk k := by
        cases move with
        | false => exact ⟨rfl, rfl, by funext k; simp⟩
        | true =>
          simp only [if_true]
          unfold takeFrom; rw [hWj]
          exact ⟨rfl, rfl, by funext k; simp only [upd, and_true]⟩
      refine ⟨fun k => ?_, fun k o' ho => ?_, fun k => ?_⟩
      · rw [hb.2.2, et k]
        simp only
        split
        · rfl
        · rw [hW]; show upd w.pk i _ k = _; unfold upd; split
          · rfl
          · next e => exact hpk k e
      · rw [et k] at ho
        split at ho
        · cases ho; exact hot
        · split at ho
          · cases ho; exact hot
          · next e => exact hty k o' e ho
      · rw [hb.1, hb.2.1, et k, hW]
        show upd w.built i _ k = w.destroyed k + _
        unfold upd
        by_cases e1 : k = i
        · subst e1
          rw [if_pos rfl, hcount k, if_pos rfl, if_neg (fun h => e h.1), if_pos rfl]; rfl
        · rw [if_neg e1, hcount k, if_neg e1, if_neg e1]
          split
          · next h => rw [h.1, hm]; rfl
          · rfl

theorem sim_upd {c : Cfg} {s : Vars} {w : World} (h : Sim c s w) (i : Nat) (m : Option (Option Obj)) (b d : Nat) (hm : ∀ o, m = some (some o) → o.ty ∈ c.types) (hc : w.built i + b = w.destroyed i + d + held m) :
    Sim c (upd s i m) ⟨upd w.pk i (rep m), upd w.built i (w.built i + b), upd w.destroyed i (w.destroyed i + d)⟩ := by
  refine ⟨fun k => ?_, fun k o ho => ?_, fun k => ?_⟩
  · show upd w.pk i _ k = rep (upd s i m k)
    unfold upd; split
    · rfl
    · exact h.pk k
  · unfold upd at ho; split at ho
    · exact hm o ho
    · exact h.ty k o ho
  · show upd w.built i _ k = upd w.destroyed i _ k + held (upd s i m k)
    unfold upd; split
    · exact hc
    · exact h.count k

theorem upd_self {α : Type} (f : Nat → α) (i : Nat) : upd f i (f i) = f := by funext k; unfold upd; split <;> simp_all

theorem step_ok {c : Cfg} (hd : Distinct c) {s : Vars} {w : World} (h : Sim c s w) (o : Op) (ha : Allowed c s o) : ∃ w', step c w o = .ok ((want c s o).1, w') ∧ Sim c (want c s o).2 w' := by
  have hfresh : ∀ i, s i = none → fresh w i = .ok () := fun i hi => by unfold fresh; rw [h.pk i, hi]; rfl
  have hpacket : ∀ i m, s i = some m → packet w i = .ok ⟨m, m.isSome⟩ := fun i m hi => by unfold packet; rw [h.pk i, hi]; rfl
  have hzero : ∀ i, s i = none → w.built i = w.destroyed i := fun i hi => by rw [h.count i, hi]; rfl
  cases o with
  | make i =>
    have ha : s i = none := ha
    refine ⟨_, by simp only [step, hfresh i ha]; rfl, ?_⟩
    have := sim_upd h i (some none) 0 0 (fun o e => by cases e) (by rw [hzero i ha]; rfl)
    simp only [Nat.add_zero, upd_self] at this
    exact this
  | makeOf i m =>
    have ha : s i = none ∧ m.ty ∈ c.types := ha
    refine ⟨_, by simp only [step, hfresh i ha.1, place]; rfl, ?_⟩
    have := sim_upd h i (some (some m)) 1 0 (fun o e => by cases e; exact ha.2) (by rw [hzero i ha.1]; rfl)
    simp only [Nat.add_zero, upd_self] at this
    exact this
  | makeFrom i m =>
    have ha : s i = none ∧ ∀ t ∈ c.types, c.id t = c.id m.ty → t = m.ty := ha
    by_cases he : ∃ t ∈ c.types, c.id t = c.id m.ty
    · obtain ⟨t, ht, e⟩ := he
      have hty : m.ty ∈ c.types := by rw [← ha.2 t ht e]; exact ht
      have hw : want c s (.makeFrom i m) = (.unit, upd s i (some (some m))) := by unfold want; exact if_pos ⟨t, ht, e⟩
      rw [hw]
      refine ⟨⟨upd w.pk i (some ⟨some m, true⟩), upd w.built i (w.built i + 1), w.destroyed⟩, ?_, ?_⟩
      · simp only [step, hfresh i ha.1, accepts_iff, bind, Except.bind]
        rw [if_pos (by simpa using ⟨t, ht, e⟩), addNew_ok w i _ c.types hty ha.2]
        rfl
      · have := sim_upd h i (some (some m)) 1 0 (fun o e => by cases e; exact hty) (by rw [hzero i ha.1]; rfl)
        simp only [Nat.add_zero, upd_self] at this
        exact this
    · have hw : want c s (.makeFrom i m) = (.unhandled, if c.throws then s else upd s i (some none)) := by unfold want; exact if_neg he
      rw [hw]
      refine ⟨if c.throws then w else { w with pk := upd w.pk i (some ⟨none, false⟩) }, ?_, ?_⟩
      · simp only [step, hfresh i ha.1, accepts_iff, bind, Except.bind]
        rw [if_neg (by simpa using he)]
        rfl
      · cases c.throws with
        | true => exact h
        | false =>
          have := sim_upd h i (some none) 0 0 (fun o e => by cases e) (by rw [hzero i ha.1]; rfl)
          simp only [Nat.add_zero, upd_self] at this
          exact this
  | construct i j move =>
    have ha : s i = none ∧ s j ≠ none := ha
    have hne : i ≠ j := fun e => ha.2 (e ▸ ha.1)
    have hc : ∀ k, w.built k = w.destroyed k + if k = i then 0 else held (s k) := by
      intro k; rw [h.count k]; split
      · next e => rw [e, ha.1]; rfl
      · rfl
    obtain ⟨w', e, hs⟩ := fill_ok hd (s := s) (w := w) i j move false (fun e => absurd e hne) (fun k _ => h.pk k) (fun k o _ => h.ty k o) hc ha.2 (fun e => absurd e hne)
    exact ⟨w', by simp only [step, hfresh i ha.1, bind, Except.bind]; rw [e]; rfl, hs⟩
  | copy i j move =>
    have ha : s i = some none ∧ s j ≠ none := ha
    have hc : ∀ k, w.built k = w.destroyed k + if k = i then 0 else held (s k) := by
      intro k; rw [h.count k]; split
      · next e => rw [e, ha.1]; rfl
      · rfl
    obtain ⟨w', e, hs⟩ := fill_ok hd (s := s) (w := w) i j move false (fun _ => rfl) (fun k _ => h.pk k) (fun k o _ => h.ty k o) hc ha.2 (fun e => e ▸ ha.1)
    exact ⟨w', by simp only [step, hpacket i none ha.1, bind, Except.bind]; rw [show (⟨none, (none : Option Obj).isSome⟩ : Packet) = ⟨none, false⟩ from rfl, e]; rfl, hs⟩
  | assign i j move =>
    obtain ⟨hi, hj, hself⟩ : s i ≠ none ∧ s j ≠ none ∧ (i = j → s i = some none) := ha
    obtain ⟨m, hm⟩ := Option.ne_none_iff_exists'.mp hi
    have e1 := deleteCurrent_ok hd h i m hm
    obtain ⟨w', e, hs⟩ := fill_ok hd (s := s) (w := { w with destroyed := upd w.destroyed i (w.destroyed i + held (s i)) }) i j move m.isSome (fun e => by rw [hself e] at hm; cases hm; rfl) (fun k _ => h.pk k) (fun k o _ => h.ty k o)
      (fun k => by
        show w.built k = upd w.destroyed i _ k + _
        rw [h.count k]; unfold upd; split
        · next e => rw [e]; omega
        · rfl) hj (fun e => e ▸ hself e)
    exact ⟨w', by simp only [step, hpacket i m hm, bind, Except.bind]; rw [e1]; simp only; rw [e]; rfl, hs⟩
  | destroy i =>
    have hi : s i ≠ none := ha
    obtain ⟨m, hm⟩ := Option.ne_none_iff_exists'.mp hi
    have e1 := deleteCurrent_ok hd h i m hm
    refine ⟨_, by simp only [step, hpacket i m hm, bind, Except.bind]; rw [e1]; rfl, ?_⟩
    have := sim_upd h i none 0 (held (s i)) (fun o e => by cases e) (by rw [h.count i]; rfl)
    simp only [Nat.add_zero, upd_self] at this
    exact this
  | get i =>
    obtain ⟨o, ho⟩ : ∃ o, s i = some (some o) := ha
    exact ⟨w, by simp only [step, hpacket i _ ho, want, ho, bind, Except.bind, get]; rfl, h⟩
  | write i v =>
    obtain ⟨o, ho⟩ : ∃ o, s i = some (some o) := ha
    refine ⟨_, by simp only [step, hpacket i _ ho, bind, Except.bind, get]; rfl, ?_⟩
    have := sim_upd h i (some (some { o with val := v })) 0 0 (fun o' e => by cases e; exact h.ty i o ho) (by rw [h.count i, ho]; rfl)
    show Sim c (upd s i ((s i).map fun m => m.map fun o => { o with val := v })) _
    rw [ho]
    simp only [Nat.add_zero, upd_self] at this
    exact this
  | isValid i =>
    have hi : s i ≠ none := ha
    obtain ⟨m, hm⟩ := Option.ne_none_iff_exists'.mp hi
    refine ⟨w, ?_, h⟩
    simp only [step, hpacket i m hm, want, hm, bind, Except.bind]
    cases m <;> rfl
  | accepts id => exact ⟨w, by simp only [step, want, accepts_iff]; rfl, h⟩

theorem run_ok {c : Cfg} (hd : Distinct c) (ops : List Op) : ∀ {s : Vars} {w : World}, Sim c s w → AllAllowed c s ops → ∃ w', run c w ops = .ok ((wantRun c s ops).1, w') ∧ Sim c (wantRun c s ops).2 w' := by
  induction ops with
  | nil => intro s w h _; exact ⟨w, rfl, h⟩
  | cons o os ih =>
    intro s w h ha
    obtain ⟨w1, e1, h1⟩ := step_ok hd h o ha.1
    obtain ⟨w2, e2, h2⟩ := ih h1 ha.2
    exact ⟨w2, by unfold run; rw [e1]; simp only; rw [e2]; rfl, h2⟩

theorem sim_blank (c : Cfg) : Sim c (fun _ => none) blank := ⟨fun _ => rfl, fun i o e => absurd e (by simp), fun _ => rfl⟩

/-! ### Theorems -/

/-- C96: for every list of message types with different ids, build, and history over any number of packets: no message is read or destroyed that does not live, none is treated as of another type and none is overwritten alive; everything
the packets return is what variables would return that do not exist, are empty, or hold a message; and each packet has destroyed every message it constructed, save the one it holds. -/
theorem C96_refines (c : Cfg) (hd : Distinct c) (ops : List Op) (ha : AllAllowed c (fun _ => none) ops) :
    ∃ w, run c blank ops = .ok ((wantRun c (fun _ => none) ops).1, w) ∧ ∀ i, w.built i = w.destroyed i + held ((wantRun c (fun _ => none) ops).2 i) := by
  obtain ⟨w, e, h⟩ := run_ok hd ops (sim_blank c) ha
  exact ⟨w, e, h.count⟩

/-- C96: the storage is large enough for every message type and aligned for it, for every list of types whose alignments are powers of two. -/
theorem C96_storage (t : VPool.Ty) (r : List VPool.Ty) (u : VPool.Ty) (hu : u ∈ t :: r) (hp : ∀ u ∈ t :: r, ∃ k, u.align = 2 ^ k) : u.size ≤ storageSize t r ∧ u.align ∣ storageAlign t r := by
  refine ⟨(VPool.largestType_spec t r).2 u hu, ?_⟩
  have h := (VPool.largestAlignment_spec t r)
  obtain ⟨a, ha⟩ := hp u hu
  obtain ⟨b, hb⟩ := hp _ h.1
  have hle := h.2 u hu
  unfold storageAlign
  rw [ha, hb] at hle
  rw [ha, hb]
  exact pow_dvd_pow 2 ((Nat.pow_le_pow_iff_right (by omega)).mp hle)

/-! ### Concrete cases -/

def cfg (virt throws : Bool) : Cfg := ⟨[0, 1, 2], fun t => t * 10, virt, throws, fun _ => 0⟩
example (v t : Bool) : Distinct (cfg v t) := by intro a _ b _ h; simp only [cfg] at h; omega
def sample : List Op := [.makeOf 0 ⟨1, 7⟩, .construct 1 0 true, .get 0, .get 1, .make 2, .isValid 2, .copy 2 1 false, .assign 0 2 false, .get 0, .write 0 9, .get 0, .get 2, .makeFrom 3 ⟨5, 1⟩, .accepts 20, .destroy 0, .destroy 1, .destroy 2]
example (v : Bool) : AllAllowed (cfg v true) (fun _ => none) sample := by
  simp [AllAllowed, sample, Allowed, want, transfer, upd, cfg, leave]
example (v : Bool) : (run (cfg v true) blank sample).map Prod.fst = .ok [.unit, .unit, .msg ⟨1, 0⟩, .msg ⟨1, 7⟩, .unit, .bool false, .unit, .unit, .msg ⟨1, 7⟩, .unit, .msg ⟨1, 9⟩, .msg ⟨1, 7⟩, .unhandled, .bool true, .unit, .unit, .unit] := by cases v <;> rfl

example : storageSize ⟨4, 4⟩ [⟨24, 8⟩, ⟨32, 1⟩] = 32 ∧ storageAlign ⟨4, 4⟩ [⟨24, 8⟩, ⟨32, 1⟩] = 8 ∧ ∀ u ∈ [(⟨4, 4⟩ : VPool.Ty), ⟨24, 8⟩, ⟨32, 1⟩], ∃ k, u.align = 2 ^ k := by
  refine ⟨rfl, rfl, ?_⟩
  simp only [List.mem_cons, List.not_mem_nil, or_false]
  rintro u (rfl | rfl | rfl)
  exacts [⟨2, rfl⟩, ⟨3, rfl⟩, ⟨0, rfl⟩]

/-! ### Findings -/

/-- assigning a packet to itself copies a message that has been destroyed -/
theorem C96_self_assignment (v t : Bool) : (run (cfg v t) blank [.makeOf 0 ⟨1, 7⟩, .assign 0 0 false]).map Prod.fst = .error .dead := by cases v <;> cases t <;> rfl
/-- `copy` into a packet that holds a message constructs on top of it: the old one is never destroyed -/
theorem C96_copy_leaks (v t : Bool) : (run (cfg v t) blank [.makeOf 0 ⟨1, 7⟩, .makeOf 1 ⟨2, 8⟩, .copy 0 1 false]).map Prod.fst = .error .leak := by cases v <;> cases t <;> rfl
/-- nothing checks that the ids differ: a message of the second of two types with one id is copied as one of the first -/
theorem C96_same_id (v t : Bool) : (run ⟨[0, 1], fun _ => 3, v, t, fun _ => 0⟩ blank [.makeOf 0 ⟨1, 7⟩, .construct 1 0 false]).map Prod.fst = .error .wrongType := by cases v <;> cases t <;> rfl

end Etl.Packet
