import Verif.Instance.Model

/-!
# Properties of singletons and counters of instances (C112)
-/
namespace Etl.Instance

/-! ## `singleton` -/

/-- Specification: a variable that holds nothing or an object. -/
def sspec {α : Type} (x : Option α) : SOp α → Option α × Out (Option α)
  | .create v => match x, v with
    | some a, _ => (some a, .val none)
    | none, none => (none, .thrown)
    | none, some a => (some a, .val none)
  | .destroy => (none, .val none)
  | .use f => match x with
    | none => (none, .thrown)
    | some a => (some (f a), .val (some (f a)))
def sspecRun {α : Type} (x : Option α) : List (SOp α) → Option α × List (Out (Option α))
  | [] => (x, [])
  | o :: os => ((sspecRun (sspec x o).1 os).1, (sspec x o).2 :: (sspecRun (sspec x o).1 os).2)

theorem sstep_eq {α : Type} (s : Single α) (o : SOp α) (hv : s.valid = s.cell.isSome) :
    ∃ s', sstep true s o = .ok (s', (sspec s.cell o).2) ∧ s'.cell = (sspec s.cell o).1 ∧ s'.valid = s'.cell.isSome ∧
      s'.built + (if s.cell.isSome then 1 else 0) + s.killed = s.built + s'.killed + (if s'.cell.isSome then 1 else 0) := by
  obtain ⟨valid, cell, b, k⟩ := s
  simp only at hv
  subst hv
  cases o with
  | create v =>
    cases cell with
    | none => cases v <;> exact ⟨_, rfl, rfl, rfl, by simp <;> omega⟩
    | some a => exact ⟨_, rfl, rfl, rfl, by simp <;> omega⟩
  | destroy => cases cell <;> exact ⟨_, rfl, rfl, rfl, by simp <;> omega⟩
  | use f => cases cell <;> exact ⟨_, rfl, rfl, rfl, by simp <;> omega⟩

/-- C112: a singleton is a variable that holds nothing or an object, whatever the history of creations (also ones that throw), destructions and uses: nothing is constructed over a living object, destroyed twice or used when it is not alive; every call gives what it should; `is_valid` tells whether the object lives; and the objects constructed are those destroyed and the living one. -/
theorem C112_singleton {α : Type} (os : List (SOp α)) : ∃ s, srun true (single α) os = .ok (s, (sspecRun none os).2) ∧ s.cell = (sspecRun none os).1 ∧ isValid s = s.cell.isSome ∧
    s.built = s.killed + (if s.cell.isSome then 1 else 0) := by
  have go : ∀ (os : List (SOp α)) (s : Single α), s.valid = s.cell.isSome → s.built = s.killed + (if s.cell.isSome then 1 else 0) →
      ∃ s', srun true s os = .ok (s', (sspecRun s.cell os).2) ∧ s'.cell = (sspecRun s.cell os).1 ∧ s'.valid = s'.cell.isSome ∧ s'.built = s'.killed + (if s'.cell.isSome then 1 else 0) := by
    intro os
    induction os with
    | nil => intro s h1 h2; exact ⟨s, rfl, rfl, h1, h2⟩
    | cons o os ih =>
      intro s h1 h2
      obtain ⟨s1, e1, e2, e3, e4⟩ := sstep_eq s o h1
      obtain ⟨s2, f1, f2, f3, f4⟩ := ih s1 e3 (by omega)
      refine ⟨s2, ?_, ?_, f3, f4⟩
      · simp only [srun, e1, f1, sspecRun, e2]
      · rw [f2, e2]; rfl
  exact go os (single α) rfl rfl

/-! ## `singleton_base` -/

/-- A history that a program can have: an object is constructed when it does not live and destroyed when it does; no copies. -/
def Proper (checks : Bool) (b : Base) : List BOp → Prop
  | [] => True
  | .construct i :: os => b.live i = false ∧ Proper checks (bstep checks b (.construct i)) os
  | .constructThrows i :: os => b.live i = false ∧ Proper checks (bstep checks b (.constructThrows i)) os
  | .destruct i :: os => b.live i = true ∧ Proper checks (bstep checks b (.destruct i)) os
  | .copy _ :: _ => False

/-- C112 (partial: without copies, and a failed assertion throws): at any time at most one object of the type lives, and `instance` gives it; if none lives, `is_valid` is false and `instance` throws. -/
theorem C112_singleton_base_partial (os : List BOp) (h : Proper true base os) :
    let b := brun true base os
    (∀ i, b.live i = true ↔ b.self = some i) ∧ (∀ i j, b.live i = true → b.live j = true → i = j) ∧ (b.isValid = true ↔ ∃ i, b.live i = true) ∧
    b.instance true = .ok (match b.self with | some i => .val i | none => .thrown) := by
  have go : ∀ (os : List BOp) (b : Base), Proper true b os → (∀ i, b.live i = true ↔ b.self = some i) → ∀ i, (brun true b os).live i = true ↔ (brun true b os).self = some i := by
    intro os
    induction os with
    | nil => intro b _ hb; exact hb
    | cons o os ih =>
      intro b hp hb
      cases o with
      | copy i => exact hp.elim
      | construct i =>
        refine ih _ hp.2 ?_
        simp only [bstep, construct]
        split
        · exact hb
        · rename_i hn
          have hn : b.self = none := Classical.byContradiction fun c => hn ⟨c, trivial⟩
          intro j
          by_cases e : j = i
          · subst e; simp
          · have := hb j
            rw [hn] at this
            simp [e, this]; exact fun c => e c.symm
      | constructThrows i =>
        refine ih _ hp.2 ?_
        simp only [bstep, constructThrows]
        split
        · exact hb
        · rename_i hn
          have hn : b.self = none := Classical.byContradiction fun c => hn ⟨c, trivial⟩
          intro j
          have := hb j
          rw [hn] at this
          exact this
      | destruct i =>
        refine ih _ hp.2 ?_
        have hi := (hb i).mp hp.1
        intro j
        show (if j = i then false else b.live j) = true ↔ none = some j
        by_cases e : j = i
        · simp [e]
        · have := hb j
          rw [hi] at this
          simp [e, this]; exact fun c => e c.symm
  have hb := go os base h (fun i => by simp [base])
  intro b
  refine ⟨hb, ?_, ?_, ?_⟩
  · intro i j hi hj
    have h1 := (hb i).mp hi
    have h2 := (hb j).mp hj
    exact Option.some.inj (h1.symm.trans h2)
  · unfold Base.isValid
    constructor
    · intro e
      obtain ⟨i, hi⟩ := Option.isSome_iff_exists.mp e
      exact ⟨i, (hb i).mpr hi⟩
    · rintro ⟨i, hi⟩
      exact Option.isSome_iff_exists.mpr ⟨i, (hb i).mp hi⟩
  · unfold Base.instance
    cases b.self <;> rfl

/-! ## `instance_count` -/

/-- Specification: how many objects live after a history, if `n` lived before. -/
def livingObjects (n : Int) : List COp → Int
  | [] => n
  | .construct :: os => livingObjects (n + 1) os
  | .copy :: os => livingObjects (n + 1) os
  | .destruct :: os => livingObjects (n - 1) os
  | .assign :: os => livingObjects n os
  | .reset :: os => livingObjects n os

theorem living_add (os : List COp) : ∀ n : Int, livingObjects n os = n + livingObjects 0 os := by
  induction os with
  | nil => intro n; simp [livingObjects]
  | cons o os ih =>
    intro n
    cases o <;> simp only [livingObjects]
    · rw [ih (n + 1), ih (0 + 1)]; omega
    · rw [ih (n + 1), ih (0 + 1)]; omega
    · exact ih n
    · rw [ih (n - 1), ih (0 - 1)]; omega
    · exact ih n

theorem sub_of {w : Nat} (n k : Int) : BitVec.ofInt w n - BitVec.ofInt w k = BitVec.ofInt w (n - k) := by
  have : BitVec.ofInt w (n - k) + BitVec.ofInt w k = BitVec.ofInt w n := by
    rw [← BitVec.ofInt_add, Int.sub_add_cancel]
  rw [← this, BitVec.add_sub_cancel]

/-- C112: `get_instance_count` is the number of living objects, whatever the history of constructions, copies, assignments and destructions (modulo the range of the counter). -/
theorem C112_instance_count {w : Nat} (os : List COp) (h : ∀ o ∈ os, (match o with | .reset => False | _ => True)) : ∀ n : Int,
    crun (BitVec.ofInt w n) os = BitVec.ofInt w (livingObjects n os) := by
  induction os with
  | nil => intro n; rfl
  | cons o os ih =>
    intro n
    have ih := ih (fun o ho => h o (List.mem_cons_of_mem _ ho))
    have ho := h o List.mem_cons_self
    have ha : BitVec.ofInt w n + 1#w = BitVec.ofInt w (n + 1) := by rw [BitVec.ofInt_add] <;> first | done | rfl
    have hs : BitVec.ofInt w n - 1#w = BitVec.ofInt w (n - 1) := by rw [← sub_of]; first | done | rfl
    cases o with
    | construct => show crun (BitVec.ofInt w n + 1#w) os = _; rw [ha]; exact ih (n + 1)
    | copy => show crun (BitVec.ofInt w n + 1#w) os = _; rw [ha]; exact ih (n + 1)
    | assign => exact ih n
    | destruct => show crun (BitVec.ofInt w n - 1#w) os = _; rw [hs]; exact ih (n - 1)
    | reset => exact ho.elim

/-- C112: after a reset it is the number of objects that live now, less those that lived then. -/
theorem C112_reset {w : Nat} (c : BitVec w) (os : List COp) (h : ∀ o ∈ os, (match o with | .reset => False | _ => True)) (n : Int) :
    crun c (.reset :: os) = BitVec.ofInt w (livingObjects n os - n) := by
  have := C112_instance_count (w := w) os h 0
  rw [living_add]
  show crun (0#w) os = _
  rw [show (0#w) = BitVec.ofInt w 0 by simp, this]
  congr 1; omega

/-! ## `debug_count` -/

/-- Specification: the count as an integer, and whether it was never decremented below zero. -/
def dspec (n : Int) : List DOp → Int × Bool
  | [] => (n, true)
  | .inc :: os => dspec (n + 1) os
  | .dec :: os => ((dspec (n - 1) os).1, decide (0 ≤ n - 1) && (dspec (n - 1) os).2)
  | .add k :: os => dspec (n + k) os
  | .sub k :: os => dspec (n - k) os
  | .set k :: os => dspec k.toInt os
  | .clear :: os => dspec 0 os
/-- All counts on the way are in the range of `int32_t`. -/
def InRange (n : Int) : List DOp → Prop
  | [] => -2 ^ 31 ≤ n ∧ n < 2 ^ 31
  | .inc :: os => (-2 ^ 31 ≤ n ∧ n < 2 ^ 31) ∧ InRange (n + 1) os
  | .dec :: os => (-2 ^ 31 ≤ n ∧ n < 2 ^ 31) ∧ InRange (n - 1) os
  | .add k :: os => (-2 ^ 31 ≤ n ∧ n < 2 ^ 31) ∧ InRange (n + k) os
  | .sub k :: os => (-2 ^ 31 ≤ n ∧ n < 2 ^ 31) ∧ InRange (n - k) os
  | .set k :: os => (-2 ^ 31 ≤ n ∧ n < 2 ^ 31) ∧ InRange k.toInt os
  | .clear :: os => (-2 ^ 31 ≤ n ∧ n < 2 ^ 31) ∧ InRange 0 os

theorem inRange_head (os : List DOp) : ∀ n, InRange n os → -2 ^ 31 ≤ n ∧ n < 2 ^ 31 := by
  intro n h
  cases os with
  | nil => exact h
  | cons o os => cases o <;> exact h.1

theorem toInt_of (n : Int) (h : -2 ^ 31 ≤ n ∧ n < 2 ^ 31) : (BitVec.ofInt 32 n).toInt = n := by
  rw [BitVec.toInt_ofInt, Int.bmod_eq_of_le] <;> omega

/-- C112: while the counts stay in the range of `int32_t`, `debug_count` is the exact count; an assertion fails exactly when a decrement goes below zero; and the assertion of the destructor fails exactly when the count is not zero. -/
theorem C112_debug_count (os : List DOp) : ∀ n : Int, InRange n os →
    (drun (BitVec.ofInt 32 n) os).1.toInt = (dspec n os).1 ∧ (drun (BitVec.ofInt 32 n) os).2 = (dspec n os).2 ∧
    (destructOk (drun (BitVec.ofInt 32 n) os).1 = true ↔ (dspec n os).1 = 0) := by
  have key : ∀ (os : List DOp) (n : Int), InRange n os → (drun (BitVec.ofInt 32 n) os).1.toInt = (dspec n os).1 ∧ (drun (BitVec.ofInt 32 n) os).2 = (dspec n os).2 := by
    intro os
    induction os with
    | nil => intro n h; exact ⟨toInt_of n h, rfl⟩
    | cons o os ih =>
      intro n h
      have h1 : BitVec.ofInt 32 n + 1 = BitVec.ofInt 32 (n + 1) := by rw [BitVec.ofInt_add]; rfl
      have h2 : BitVec.ofInt 32 n - 1 = BitVec.ofInt 32 (n - 1) := sub_of n 1
      cases o with
      | inc => simp only [drun, dstep, dspec, h1, Bool.true_and]; exact ih _ h.2
      | dec =>
        simp only [drun, dstep, dspec, h2]
        obtain ⟨i1, i2⟩ := ih _ h.2
        rw [i1, i2, toInt_of _ (inRange_head os _ h.2)]
        exact ⟨rfl, rfl⟩
      | add k => simp only [drun, dstep, dspec, Bool.true_and, ← BitVec.ofInt_add]; exact ih _ h.2
      | sub k => simp only [drun, dstep, dspec, Bool.true_and, sub_of]; exact ih _ h.2
      | set k =>
        simp only [drun, dstep, dspec, Bool.true_and]
        have := ih k.toInt h.2
        rw [BitVec.ofInt_toInt] at this; exact this
      | clear =>
        simp only [drun, dstep, dspec, Bool.true_and]
        exact ih 0 h.2
  intro n h
  obtain ⟨k1, k2⟩ := key os n h
  refine ⟨k1, k2, ?_⟩
  rw [← k1]
  unfold destructOk
  rw [beq_iff_eq]
  constructor
  · intro e; rw [e]; rfl
  · intro e; exact BitVec.eq_of_toInt_eq e

theorem C112_swap (c d : BitVec 32) : dswap c d = (d, c) := rfl

/-! ## Examples and findings -/

example : Proper true base [.construct 1, .constructThrows 2, .destruct 1, .construct 2] := by
  refine ⟨rfl, rfl, rfl, rfl, trivial⟩
example : (srun true (single Nat) [.create none, .create (some 3), .create (some 4), .use (· + 1), .destroy, .use id]).toOption.map (·.2) = some [.thrown, .val none, .val none, .val (some 4), .val none, .thrown] := by decide
example : InRange 0 [.inc, .add 5, .dec, .sub 5] := by simp [InRange]

/-- Without checks `instance` of nothing reads a dead object, or dereferences the null pointer. -/
theorem singleton_unchecked : instanceUse false (single Nat) id = .error .deadAccess := rfl
theorem singleton_base_unchecked : Base.instance false base = .error .nullDeref := rfl
/-- FINDING: a copy of the instance is not registered, but its destruction makes the singleton invalid although the instance lives. -/
theorem copy_kills_registration : (brun true base [.construct 1, .copy 2, .destruct 2]).live 1 = true ∧ (brun true base [.construct 1, .copy 2, .destruct 2]).isValid = false := ⟨rfl, rfl⟩
/-- FINDING: when a failed assertion does not throw, a second object takes the place of the first, and its destruction leaves the first one living and not registered. -/
theorem second_object_unchecked : (brun false base [.construct 1, .construct 2]).self = some 2 ∧ (brun false base [.construct 1, .construct 2, .destruct 2]).live 1 = true ∧
    (brun false base [.construct 1, .construct 2, .destruct 2]).isValid = false := ⟨rfl, rfl, rfl⟩
/-- FINDING: `-=` below zero is not asserted. -/
theorem sub_below_zero : drun 0 [.sub 5] = (-5, true) := by decide

end Etl.Instance
