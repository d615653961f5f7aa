import Verif.Atomic.Prim
import Mathlib.Tactic.Linarith

/-!
# `etl::atomic` of integral types, pointers and bool keeps the contract of `std::atomic` (C89), as far as it does
-/
namespace Etl.Atomic.Prim
variable {w : Nat}

/-! ## Specification: `std::atomic` -/

/-- One, for the type: pointers move by whole objects. -/
def unit : Kind w → BitVec w | .int => 1 | .ptr size => size | .bool => 1

/-- An atomic variable of the C++ standard, used by one thread at a time: `m` before, `m'` after.  Compound assignments return the new value; pointers move by objects; a compare_exchange that fails stores the value in `expected`; the weak one may fail without reason. -/
inductive Std (k : Kind w) : BitVec w → Op w → BitVec w → Resp w → Prop where
  | load (m) : Std k m .load m (.val m)
  | conv (m) : Std k m .conv m (.val m)
  | store (m v) : Std k m (.store v) v .unit
  | assign (m v) : Std k m (.assign v) v (.val v)
  | exchange (m v) : Std k m (.exchange v) v (.val m)
  | preInc (m) : Std k m .preInc (m + unit k) (.val (m + unit k))
  | postInc (m) : Std k m .postInc (m + unit k) (.val m)
  | preDec (m) : Std k m .preDec (m - unit k) (.val (m - unit k))
  | postDec (m) : Std k m .postDec (m - unit k) (.val m)
  | addAssign (m v) : Std k m (.addAssign v) (m + v * unit k) (.val (m + v * unit k))
  | subAssign (m v) : Std k m (.subAssign v) (m - v * unit k) (.val (m - v * unit k))
  | andAssign (m v) : Std k m (.andAssign v) (m &&& v) (.val (m &&& v))
  | orAssign (m v) : Std k m (.orAssign v) (m ||| v) (.val (m ||| v))
  | xorAssign (m v) : Std k m (.xorAssign v) (m ^^^ v) (.val (m ^^^ v))
  | fetchAdd (m v) : Std k m (.fetchAdd v) (m + v * unit k) (.val m)
  | fetchSub (m v) : Std k m (.fetchSub v) (m - v * unit k) (.val m)
  | fetchAnd (m v) : Std k m (.fetchAnd v) (m &&& v) (.val m)
  | fetchOr (m v) : Std k m (.fetchOr v) (m ||| v) (.val m)
  | fetchXor (m v) : Std k m (.fetchXor v) (m ^^^ v) (.val m)
  | weakYes (m d) : Std k m (.casWeak m d) d (.cas true m)
  | weakNo (m e d) : Std k m (.casWeak e d) m (.cas false m)
  | strongYes (m d) : Std k m (.casStrong m d) d (.cas true m)
  | strongNo (m e d) (h : m ≠ e) : Std k m (.casStrong e d) m (.cas false m)

/-- The value is one of the type: bool is 0 or 1. -/
def Valid (k : Kind w) (v : BitVec w) : Prop := match k with | .bool => v = 0 ∨ v = 1 | _ => True

/-- The functions for which the contract is kept.  Not: compound assignments, which return the old value (`C89_finding_assign`); `fetch_add` and `fetch_sub` of pointers (`C89_finding_pointer`); with the `__atomic` builtins compare_exchange of pointers and bool (`C89_finding_expected`).  The members that a type does not have, and arguments that are none of it, are excluded too. -/
def Kept (f : Fam) (k : Kind w) : Op w → Prop
  | .load | .conv => True
  | .store v | .assign v | .exchange v => Valid k v
  | .preInc | .postInc | .preDec | .postDec => (match k with | .bool => False | _ => True)
  | .addAssign _ | .subAssign _ | .andAssign _ | .orAssign _ | .xorAssign _ => False
  | .fetchAdd _ | .fetchSub _ | .fetchAnd _ | .fetchOr _ | .fetchXor _ => (match k with | .int => True | _ => False)
  | .casWeak e d | .casStrong e d => Valid k e ∧ Valid k d ∧ (match f, k with | .sync, _ => True | .atomic, .int => True | .atomic, _ => False)

/-! ## Proof -/

theorem norm_valid {k : Kind w} {v : BitVec w} (h : Valid k v) : norm k v = v := by
  unfold norm
  cases k with
  | int => rfl
  | ptr s => rfl
  | bool =>
    rcases h with h | h
    · subst h; simp
    · subst h
      simp only []
      split
      · next e => exact e.symm
      · rfl
theorem valid_norm (k : Kind w) (v : BitVec w) : Valid k (norm k v) := by
  unfold norm Valid
  cases k with
  | int => trivial
  | ptr s => trivial
  | bool => simp only []; split <;> simp

theorem weakSync_spec {k : Kind w} {m e d : BitVec w} (hm : Valid k m) (he : Valid k e) (hd : Valid k d) : weakSync k m e d = if m = e then (d, true, e) else (m, false, m) := by
  unfold weakSync valCas
  rw [norm_valid he, norm_valid hd]
  simp only [norm_valid hm]
  by_cases h : m = e
  · simp [h]
  · simp [h]

/-- What a thread is about to do keeps the contract. -/
def Good (f : Fam) (k : Kind w) : Pc w → Prop
  | .called o => Kept f k o
  | .cas e d old => Kept f k (.casStrong e d) ∧ f = .sync ∧ old = e
  | _ => True
def phase : Pc w → Phase (Op w) (Resp w)
  | .idle => .out
  | .called o => .before o
  | .cas e d _ => .before (.casStrong e d)
  | .done o r => .after o r

/-- One step of a call either has the effect and the result of the contract, or does nothing and goes on. -/
def StepOk (f : Fam) (k : Kind w) (m : BitVec w) (o : Op w) (x : BitVec w × Pc w) : Prop :=
  (∃ r, x.2 = .done o r ∧ Std k m o x.1 r ∧ Valid k x.1) ∨ (x.1 = m ∧ Good f k x.2 ∧ phase x.2 = .before o ∧ ∃ e d old, x.2 = .cas e d old)

theorem exec_ok {f : Fam} {k : Kind w} {m : BitVec w} (hm : Valid k m) {o : Op w} (h : Kept f k o) (spur : Bool) : StepOk f k m o (exec f k m spur o) := by
  cases o with
  | load => cases f <;> exact .inl ⟨_, rfl, by simpa [exec, norm_valid hm, fetchAdd] using Std.load m, by simpa [exec, fetchAdd] using hm⟩
  | conv => exact .inl ⟨_, rfl, by simpa [exec, norm_valid hm, fetchAdd] using Std.conv m, by simpa [exec, fetchAdd] using hm⟩
  | store v =>
    have hv : norm k v = v := norm_valid h
    cases f <;> exact .inl ⟨_, rfl, by simpa [exec, hv, swap] using Std.store m v, by rw [show Kept _ k _ = Valid k v from rfl] at h; simpa [exec, hv, swap] using h⟩
  | assign v =>
    have hv : norm k v = v := norm_valid h
    cases f <;> exact .inl ⟨_, rfl, by simpa [exec, hv, swap] using Std.assign m v, by rw [show Kept _ k _ = Valid k v from rfl] at h; simpa [exec, hv, swap] using h⟩
  | exchange v =>
    have hv : norm k v = v := norm_valid h
    exact .inl ⟨_, rfl, by simpa [exec, hv, swap, norm_valid hm] using Std.exchange m v, by rw [show Kept _ k _ = Valid k v from rfl] at h; simpa [exec, hv, swap] using h⟩
  | preInc => cases k with
    | bool => exact h.elim
    | int => exact .inl ⟨_, rfl, Std.preInc m, trivial⟩
    | ptr s => exact .inl ⟨_, rfl, Std.preInc m, trivial⟩
  | postInc => cases k with
    | bool => exact h.elim
    | int => exact .inl ⟨_, rfl, Std.postInc m, trivial⟩
    | ptr s => exact .inl ⟨_, rfl, Std.postInc m, trivial⟩
  | preDec => cases k with
    | bool => exact h.elim
    | int => exact .inl ⟨_, rfl, Std.preDec m, trivial⟩
    | ptr s => exact .inl ⟨_, rfl, Std.preDec m, trivial⟩
  | postDec => cases k with
    | bool => exact h.elim
    | int => exact .inl ⟨_, rfl, Std.postDec m, trivial⟩
    | ptr s => exact .inl ⟨_, rfl, Std.postDec m, trivial⟩
  | addAssign v => exact h.elim
  | subAssign v => exact h.elim
  | andAssign v => exact h.elim
  | orAssign v => exact h.elim
  | xorAssign v => exact h.elim
  | fetchAdd v => cases k with
    | int => exact .inl ⟨_, rfl, by simpa [exec, fetchAdd, unit] using Std.fetchAdd (k := .int) m v, trivial⟩
    | _ => exact h.elim
  | fetchSub v => cases k with
    | int => exact .inl ⟨_, rfl, by simpa [exec, fetchSub, unit] using Std.fetchSub (k := .int) m v, trivial⟩
    | _ => exact h.elim
  | fetchAnd v => cases k with
    | int => exact .inl ⟨_, rfl, Std.fetchAnd m v, trivial⟩
    | _ => exact h.elim
  | fetchOr v => cases k with
    | int => exact .inl ⟨_, rfl, Std.fetchOr m v, trivial⟩
    | _ => exact h.elim
  | fetchXor v => cases k with
    | int => exact .inl ⟨_, rfl, Std.fetchXor m v, trivial⟩
    | _ => exact h.elim
  | casWeak e d =>
    obtain ⟨he, hd, hk⟩ := h
    cases f with
    | sync =>
      rw [show exec .sync k m spur (.casWeak e d) = ((weakSync k m e d).1, .done (.casWeak e d) (.cas (weakSync k m e d).2.1 (weakSync k m e d).2.2)) from rfl, weakSync_spec hm he hd]
      by_cases c : m = e
      · subst c; rw [if_pos rfl]; exact .inl ⟨_, rfl, Std.weakYes m d, hd⟩
      · rw [if_neg c]; exact .inl ⟨_, rfl, Std.weakNo m e d, hm⟩
    | atomic =>
      cases k with
      | int =>
        rw [show exec .atomic .int m spur (.casWeak e d) = ((compareExchange m e d true spur).1, .done (.casWeak e d) (.cas (compareExchange m e d true spur).2.1 (compareExchange m e d true spur).2.2)) from rfl]
        unfold compareExchange
        by_cases c : m = e ∧ ¬((true : Bool) ∧ spur)
        · rw [if_pos c]; obtain ⟨rfl, _⟩ := c; exact .inl ⟨_, rfl, Std.weakYes m d, trivial⟩
        · rw [if_neg c]; exact .inl ⟨_, rfl, Std.weakNo m e d, trivial⟩
      | _ => exact hk.elim
  | casStrong e d =>
    cases f with
    | sync => exact .inr ⟨rfl, ⟨h, rfl, rfl⟩, rfl, e, d, e, rfl⟩
    | atomic =>
      obtain ⟨he, hd, hk⟩ := h
      cases k with
      | int =>
        rw [show exec .atomic .int m spur (.casStrong e d) = ((compareExchange m e d false spur).1, .done (.casStrong e d) (.cas (compareExchange m e d false spur).2.1 (compareExchange m e d false spur).2.2)) from rfl]
        unfold compareExchange
        by_cases c : m = e
        · subst c; rw [if_pos (by simp)]; exact .inl ⟨_, rfl, Std.strongYes m d, trivial⟩
        · rw [if_neg (fun x => c x.1)]; exact .inl ⟨_, rfl, Std.strongNo m e d c, trivial⟩
      | _ => exact hk.elim

theorem loop_ok {f : Fam} {k : Kind w} {m e d old : BitVec w} (hm : Valid k m) (h : Good f k (.cas e d old)) : StepOk f k m (.casStrong e d) (loop k m e d old) := by
  obtain ⟨⟨he, hd, hk⟩, rfl, rfl⟩ := h
  refine .inl ?_
  unfold loop
  rw [weakSync_spec hm he hd]
  by_cases c : m = old
  · subst c
    rw [if_pos rfl]
    exact ⟨_, rfl, Std.strongYes m d, hd⟩
  · rw [if_neg c]
    simp only [Bool.false_eq_true, if_false]
    rw [if_pos c]
    exact ⟨_, rfl, Std.strongNo m old d c, hm⟩

structure Inv (f : Fam) (k : Kind w) (v0 : BitVec w) (s : St w) : Prop where
  legal : Legal (Std k) v0 (lins s.trace) s.value
  valid : Valid k s.value
  good : ∀ t, Good f k (s.pc t)
  follows : ∀ t, Follows t s.trace (phase (s.pc t))

theorem inv_goto {f : Fam} {k : Kind w} {v0 : BitVec w} {s : St w} (h : Inv f k v0 s) {t : Nat} {o : Op w} (hp : phase (s.pc t) = .before o) {x : BitVec w × Pc w} (hx : StepOk f k s.value o x) : Inv f k v0 (goto s t x) := by
  obtain ⟨m', p⟩ := x
  have hf := h.follows t
  rw [hp] at hf
  rcases hx with ⟨r, e, hs, hv⟩ | ⟨e1, hg, hph, e, d, old, e2⟩
  · simp only at e hs hv
    subst e
    refine ⟨?_, hv, ?_, ?_⟩
    · show Legal (Std k) v0 (lins (s.trace ++ [.lin t o r])) m'
      rw [lins_append]; exact .snoc h.legal hs
    · intro u
      show Good f k (upd s.pc t (.done o r) u)
      by_cases c : u = t
      · subst c; rw [upd_same]; trivial
      · rw [upd_other _ _ c]; exact h.good u
    · intro u
      show Follows u (s.trace ++ [.lin t o r]) (phase (upd s.pc t (.done o r) u))
      by_cases c : u = t
      · subst c; rw [upd_same]; exact .snoc hf (.lin o r)
      · rw [upd_other _ _ c]; exact .snoc (h.follows u) (.lin' (Ne.symm c))
  · simp only at e1 e2 hg hph
    subst e1 e2
    refine ⟨h.legal, h.valid, ?_, ?_⟩
    · intro u
      show Good f k (upd s.pc t (.cas e d old) u)
      by_cases c : u = t
      · subst c; rw [upd_same]; exact hg
      · rw [upd_other _ _ c]; exact h.good u
    · intro u
      show Follows u s.trace (phase (upd s.pc t (.cas e d old) u))
      by_cases c : u = t
      · subst c; rw [upd_same, hph]; exact hf
      · rw [upd_other _ _ c]; exact h.follows u

/-- Only functions for which the contract is kept are called. -/
def KeptAct (f : Fam) (k : Kind w) : Act w → Prop
  | .call _ o => Kept f k o
  | .step _ _ => True

theorem inv_step {f : Fam} {k : Kind w} {v0 : BitVec w} {s : St w} (h : Inv f k v0 s) {a : Act w} (ha : KeptAct f k a) : Inv f k v0 (step f k s a) := by
  cases a with
  | call t o =>
    simp only [step]
    cases hp : s.pc t with
    | idle =>
      refine ⟨?_, h.valid, ?_, ?_⟩
      · show Legal (Std k) v0 (lins (s.trace ++ [.inv t o])) s.value
        rw [lins_append]; simpa [lins] using h.legal
      · intro u
        show Good f k (upd s.pc t (.called o) u)
        by_cases c : u = t
        · subst c; rw [upd_same]; exact ha
        · rw [upd_other _ _ c]; exact h.good u
      · intro u
        show Follows u (s.trace ++ [.inv t o]) (phase (upd s.pc t (.called o) u))
        by_cases c : u = t
        · subst c
          have := h.follows u
          rw [hp] at this
          rw [upd_same]; exact .snoc this (.inv o)
        · rw [upd_other _ _ c]; exact .snoc (h.follows u) (.inv' (Ne.symm c))
    | _ => exact h
  | step t spur =>
    simp only [step]
    have hg := h.good t
    cases hp : s.pc t with
    | idle => exact h
    | called o => rw [hp] at hg; exact inv_goto h (by rw [hp]; rfl) (exec_ok h.valid hg spur)
    | cas e d old => rw [hp] at hg; exact inv_goto h (by rw [hp]; rfl) (loop_ok h.valid hg)
    | done o r =>
      refine ⟨?_, h.valid, ?_, ?_⟩
      · show Legal (Std k) v0 (lins (s.trace ++ [.ret t o r])) s.value
        rw [lins_append]; simpa [lins] using h.legal
      · intro u
        show Good f k (upd s.pc t .idle u)
        by_cases c : u = t
        · subst c; rw [upd_same]; trivial
        · rw [upd_other _ _ c]; exact h.good u
      · intro u
        show Follows u (s.trace ++ [.ret t o r]) (phase (upd s.pc t .idle u))
        by_cases c : u = t
        · subst c
          have := h.follows u
          rw [hp] at this
          rw [upd_same]; exact .snoc this (.ret o r)
        · rw [upd_other _ _ c]; exact .snoc (h.follows u) (.ret' (Ne.symm c))

theorem inv_run {f : Fam} {k : Kind w} {v0 : BitVec w} (l : List (Act w)) : ∀ {s : St w}, Inv f k v0 s → (∀ a ∈ l, KeptAct f k a) → Inv f k v0 (run f k s l) := by
  induction l with
  | nil => intro s h _; exact h
  | cons a l ih =>
    intro s h hl
    exact ih (inv_step h (hl a List.mem_cons_self)) (fun b hb => hl b (List.mem_cons_of_mem _ hb))

theorem inv_init (f : Fam) (k : Kind w) {v : BitVec w} (hv : Valid k v) : Inv f k v (init k v) := by
  refine ⟨?_, ?_, fun _ => trivial, fun _ => .nil⟩
  · show Legal (Std k) v [] (norm k v)
    rw [norm_valid hv]; exact .nil v
  · show Valid k (norm k v)
    exact valid_norm k v

/-! ## C89 -/

/-- C89: for both families of builtins, all widths, all numbers of threads and all interleavings: calls of the functions of `Kept` are linearizable with the contract of `std::atomic`, and the variable has the value of the sequential execution.  Missing: the functions that `Kept` excludes, for which this is false. -/
theorem C89_linearizable_partial (f : Fam) (k : Kind w) {v0 : BitVec w} (hv : Valid k v0) (l : List (Act w)) (hl : ∀ a ∈ l, KeptAct f k a) :
    Linearizable (Std k) v0 (visible (run f k (init k v0) l).trace) (run f k (init k v0) l).value := by
  have h := inv_run l (inv_init f k hv) hl
  exact ⟨_, rfl, fun t => ⟨_, h.follows t⟩, h.legal⟩

/-- C89: the compound assignments change the variable as the contract says, in one indivisible step. -/
theorem C89_assign_effect_partial (f : Fam) (k : Kind w) (hk : match k with | .bool => False | _ => True) (m v : BitVec w) (spur : Bool) :
    (exec f k m spur (.addAssign v)).1 = m + v * unit k ∧ (exec f k m spur (.subAssign v)).1 = m - v * unit k ∧
    (exec f k m spur (.andAssign v)).1 = m &&& v ∧ (exec f k m spur (.orAssign v)).1 = m ||| v ∧ (exec f k m spur (.xorAssign v)).1 = m ^^^ v := by
  cases k with
  | bool => exact hk.elim
  | int => simp [exec, fetchAdd, fetchSub, fetchAnd, fetchOr, fetchXor, scaled, unit]
  | ptr s => simp [exec, fetchAdd, fetchSub, fetchAnd, fetchOr, fetchXor, scaled, unit]

/-- C89: no call waits for another thread: whatever the others do in between, a call returns after at most three steps of its own. -/
theorem C89_wait_free (f : Fam) (k : Kind w) (o : Op w) (m1 m2 : BitVec w) (spur : Bool) (h : Kept f k o) (h1 : Valid k m1) (h2 : Valid k m2) :
    (∃ r, (exec f k m1 spur o).2 = .done o r) ∨ ∃ e d old r, (exec f k m1 spur o).2 = .cas e d old ∧ (loop k m2 e d old).2 = .done o r := by
  rcases exec_ok h1 h spur with ⟨r, e, _⟩ | ⟨_, hg, hp, e, d, old, hx⟩
  · exact .inl ⟨r, e⟩
  · rw [hx] at hg hp
    have : o = .casStrong e d := by simpa [phase] using hp.symm
    subst this
    obtain ⟨⟨he, hd, hk⟩, rfl, rfl⟩ := hg
    rcases loop_ok (f := .sync) h2 ⟨⟨he, hd, hk⟩, rfl, rfl⟩ with ⟨r, hr, _⟩ | ⟨_, _, _, e', d', old', hl⟩
    · exact .inr ⟨_, _, _, r, hx, hr⟩
    · exfalso
      unfold loop at hl
      rw [weakSync_spec h2 he hd] at hl
      by_cases c : m2 = old
      · rw [if_pos c] at hl; simp at hl
      · rw [if_neg c] at hl; simp only [Bool.false_eq_true, if_false] at hl; rw [if_pos c] at hl; simp at hl

/-! ## Findings -/

/-- `x += v` returns the old value, l.183-235, l.475-497, l.1134-1190: `std::atomic` returns the new one. -/
theorem C89_finding_assign (f : Fam) : (exec f (.int : Kind 8) 1 false (.addAssign 1)).2 = .done (.addAssign 1) (.val 1) ∧ ¬ ∃ m', Std (.int : Kind 8) 1 (.addAssign 1) m' (.val 1) := by
  refine ⟨by cases f <;> rfl, ?_⟩
  rintro ⟨m', h⟩
  generalize hr : (Resp.val 1 : Resp 8) = r at h
  generalize hm : (1 : BitVec 8) = m at h
  cases h
  injection hr with hr
  subst hm
  revert hr; decide
/-- `fetch_add` of a pointer adds bytes, not objects, l.540-558, l.1601-1620, while `+=` and `++` of the same class move by objects: the result may point into the middle of an object. -/
theorem C89_finding_pointer (f : Fam) : (exec f (.ptr 4 : Kind 8) 100 false (.fetchAdd 1)).1 = 101 ∧ (exec f (.ptr 4 : Kind 8) 100 false (.addAssign 1)).1 = 104 := by
  cases f <;> exact ⟨rfl, rfl⟩
/-- With the `__atomic` builtins a compare_exchange of a pointer or bool that fails leaves `expected` as it was, l.569-627, l.713-787, so that the usual loop does not end. -/
theorem C89_finding_expected (k : Kind w) (hk : match k with | .int => False | _ => True) (m e d : BitVec w) (hm : Valid k m) (he : Valid k e) (h : m ≠ e) :
    exec .atomic k m false (.casStrong e d) = (m, .done (.casStrong e d) (.cas false e)) := by
  have h' : keeps k = false := by cases k <;> first | rfl | exact hk.elim
  simp [exec, compareExchange, norm_valid he, h, h']

/-! ## Examples -/

/-- Two threads increment; both increments count. -/
example : (run .sync (.int : Kind 8) (init .int 5) [.call 0 .preInc, .call 1 .postInc, .step 1 false, .step 0 false]).value = 7 := by decide +kernel
/-- compare_exchange_strong with the wrong value: the answer, and the value in `expected`. -/
example : (run .sync (.int : Kind 8) (init .int 5) [.call 0 (.casStrong 4 9), .step 0 false, .call 1 (.store 6), .step 1 false, .step 0 false]).value = 6 := by decide +kernel
example : Kept .sync (.bool : Kind 8) (.casWeak 0 1) := ⟨.inl rfl, .inr rfl, trivial⟩

end Etl.Atomic.Prim
