import Verif.TPacket.Model
import Mathlib.Data.Nat.Prime.Basic

/-!
# packet.h (C117)
-/
namespace Etl.TPacket

/-- The specification: a packet is used well if every object stored is of a type that fits, whose `TBase` is at its beginning, is copied from elsewhere and without an exception;
and `TBase` has a virtual destructor or nothing derived from it is stored. -/
def TypeOk (c : Cfg) (t : Nat) : Prop :=
  (c.ty t).derived = true ∧ (c.ty t).size ≤ c.size ∧ (c.ty t).align ≤ c.align ∧ (∃ k, (c.ty t).align = 2 ^ k) ∧ (∃ k, c.align = 2 ^ k) ∧ (c.ty t).offset = 0 ∧ (c.virt = true ∨ t = c.base)

def OpOk (c : Cfg) : Op → Prop
  | .assign t a => TypeOk c t ∧ ∃ v, a = .fresh v false
  | .get => True

/-- What `get` must show: the object stored last. -/
def shown : Obj → List Op → List Obj
  | _, [] => []
  | o, .assign t (.fresh v _) :: ops => shown ⟨o.id + 1, t, v⟩ ops
  | o, .assign _ .self :: ops => shown o ops
  | o, .get :: ops => o :: shown o ops

/-- The types of the objects stored, in order. -/
def stored : List Op → List Nat
  | [] => []
  | .assign t _ :: ops => t :: stored ops
  | .get :: ops => stored ops

/-- The life of objects that follow each other: each is made, and destroyed by its own destructor before the next is made. -/
def lives : Nat → List Nat → List Ev
  | _, [] => []
  | n, t :: ts => .made n t :: .destroyed n t :: lives (n + 1) ts

theorem pow_mod {a b : Nat} (h : 2 ^ a ≤ 2 ^ b) : 2 ^ b % 2 ^ a = 0 := by
  have : a ≤ b := (Nat.pow_le_pow_iff_right (by omega)).1 h
  exact Nat.mod_eq_zero_of_dvd (Nat.pow_dvd_pow 2 this)

theorem accepts_of_ok {c : Cfg} {t : Nat} (h : TypeOk c t) : accepts c t = true := by
  obtain ⟨h1, h2, h3, ⟨k, hk⟩, ⟨l, hl⟩, _, _⟩ := h
  have : c.align % (c.ty t).align = 0 := by rw [hk, hl] at h3; rw [hk, hl]; exact pow_mod h3
  simp [accepts, h1, h2, h3, this]

theorem destroy_ok {c : Cfg} {s : S} {o : Obj} (hc : s.cell = some o) (h : TypeOk c o.ty) : destroy c s = .ok ⟨none, s.next, s.log ++ [.destroyed o.id o.ty]⟩ := by
  obtain ⟨_, _, _, _, _, h1, h2⟩ := h
  have hv : (c.virt || decide (o.ty = c.base)) = true := by
    rcases h2 with h2 | h2 <;> simp [h2]
  simp only [destroy, hc]
  rw [if_neg (by simp [h1]), if_pos hv]

theorem run_ok (c : Cfg) : ∀ (ops : List Op) (o : Obj) (log : List Ev), TypeOk c o.ty → (∀ p ∈ ops, OpOk c p) →
    ∃ s, run c ⟨some o, o.id + 1, log⟩ ops = .ok (shown o ops, s) ∧ s.cell = none ∧ s.log = log ++ .destroyed o.id o.ty :: lives (o.id + 1) (stored ops)
  | [], o, log, ho, _ => by
    refine ⟨⟨none, o.id + 1, log ++ [.destroyed o.id o.ty]⟩, ?_, rfl, rfl⟩
    simp only [run, destroy_ok (s := ⟨some o, o.id + 1, log⟩) rfl ho, shown]
  | .get :: ops, o, log, ho, hops => by
    obtain ⟨s, e1, e2, e3⟩ := run_ok c ops o log ho (fun p hp => hops p (by simp [hp]))
    refine ⟨s, ?_, e2, e3⟩
    have hg : get c ⟨some o, o.id + 1, log⟩ = .ok o := by
      simp only [get]
      rw [if_neg (by simp [ho.2.2.2.2.2.1])]
    simp only [run, hg, e1, shown]
  | .assign t a :: ops, o, log, ho, hops => by
    obtain ⟨ht, v, rfl⟩ := hops (.assign t a) (by simp)
    obtain ⟨s, e1, e2, e3⟩ := run_ok c ops ⟨o.id + 1, t, v⟩ (log ++ [.destroyed o.id o.ty] ++ [.made (o.id + 1) t]) ht (fun p hp => hops p (by simp [hp]))
    refine ⟨s, ?_, e2, ?_⟩
    · simp only [run, assign, destroy_ok (s := ⟨some o, o.id + 1, log⟩) rfl ho, construct, accepts_of_ok ht, if_true, Bool.false_eq_true, if_false, shown]
      exact e1
    · rw [e3]; simp [stored, lives]

/-- **C117** for packets used well: whatever is stored in a packet, in whatever order, `get` shows the object stored last; every object is destroyed exactly once, by its own destructor and before the next is made; nothing is left at the end. -/
theorem C117_packet_partial (c : Cfg) (t v : Nat) (ht : TypeOk c t) (ops : List Op) (hops : ∀ p ∈ ops, OpOk c p) :
    ∃ s, life c t (.fresh v false) ops = .ok (shown ⟨0, t, v⟩ ops, s) ∧ s.cell = none ∧ s.log = lives 0 (t :: stored ops) := by
  obtain ⟨s, e1, e2, e3⟩ := run_ok c ops ⟨0, t, v⟩ [.made 0 t] ht hops
  refine ⟨s, ?_, e2, by rw [e3]; rfl⟩
  simp only [life, construct, accepts_of_ok ht, if_true, Bool.false_eq_true, if_false]
  exact e1

/-- What is rejected: exactly the types that are not derived from `TBase` or do not fit (alignments are powers of two); in particular nothing larger than the storage is ever built in it. -/
theorem C117_rejects (c : Cfg) (s : S) (t : Nat) (a : Arg) (hk : ∃ k, (c.ty t).align = 2 ^ k) (hl : ∃ k, c.align = 2 ^ k) :
    assign c s t a = .rejected ↔ ¬ ((c.ty t).derived = true ∧ (c.ty t).size ≤ c.size ∧ (c.ty t).align ≤ c.align) := by
  have hacc : accepts c t = true ↔ (c.ty t).derived = true ∧ (c.ty t).size ≤ c.size ∧ (c.ty t).align ≤ c.align := by
    constructor
    · intro h
      simp only [accepts, Bool.and_eq_true, decide_eq_true_eq] at h
      exact ⟨h.1.1.1, h.1.1.2, h.1.2⟩
    · rintro ⟨h1, h2, h3⟩
      obtain ⟨k, hk⟩ := hk
      obtain ⟨l, hl⟩ := hl
      have : c.align % (c.ty t).align = 0 := by rw [hk, hl] at h3; rw [hk, hl]; exact pow_mod h3
      simp [accepts, h1, h2, h3, this]
  rw [← hacc]
  cases h : accepts c t with
  | false => simp [assign, h]
  | true =>
    have hcon : ∀ s, construct c s t a ≠ .rejected := by
      intro s
      simp only [construct, h, if_true]
      cases a with
      | fresh v thr => cases thr <;> simp
      | self =>
        cases s.cell with
        | none => simp
        | some o =>
          simp only
          split <;> simp
    have hd : destroy c s ≠ .rejected := by
      unfold destroy
      cases s.cell with
      | none => simp
      | some o =>
        simp only
        split
        · simp
        · split <;> simp
    simp only [assign, h, if_true, not_true_eq_false, iff_false]
    cases hx : destroy c s with
    | ok s1 => exact hcon s1
    | threw s1 => simp
    | rejected => exact absurd hx hd
    | ub => simp

/-- Every object accepted lies where its alignment wants it: the storage is at a multiple of `ALIGNMENT`. -/
theorem C117_aligned (c : Cfg) (t address : Nat) (h : accepts c t = true) (ha : isAligned address c.align = true) : isAligned address (c.ty t).align = true := by
  simp only [accepts, Bool.and_eq_true, decide_eq_true_eq] at h
  simp only [isAligned, decide_eq_true_eq] at *
  exact Nat.mod_eq_zero_of_dvd (Nat.dvd_trans (Nat.dvd_of_mod_eq_zero h.2) (Nat.dvd_of_mod_eq_zero ha))

/-- `is_aligned` says whether the address is a multiple of the alignment. -/
theorem C117_is_aligned (address required : Nat) : isAligned address required = true ↔ ∃ k, address = required * k := by
  simp only [isAligned, decide_eq_true_eq]
  constructor
  · intro h; exact Nat.dvd_of_mod_eq_zero h
  · intro h; exact Nat.mod_eq_zero_of_dvd h

/-- Four types: `TBase` is number 0; 3 has its `TBase` behind eight bytes of another base. -/
def demoTypes : Nat → Ty
  | 0 => ⟨true, 8, 8, 0⟩
  | 1 => ⟨true, 16, 8, 0⟩
  | 2 => ⟨true, 12, 4, 0⟩
  | 3 => ⟨true, 16, 8, 8⟩
  | _ => ⟨false, 4, 4, 0⟩

def demoCfg (virt : Bool) : Cfg := ⟨16, 8, demoTypes, 0, virt⟩

theorem demo_ok (t : Nat) (h : t ≤ 2) : TypeOk (demoCfg true) t := by
  match t, h with
  | 0, _ => exact ⟨rfl, by decide, by decide, ⟨3, rfl⟩, ⟨3, rfl⟩, rfl, .inl rfl⟩
  | 1, _ => exact ⟨rfl, by decide, by decide, ⟨3, rfl⟩, ⟨3, rfl⟩, rfl, .inl rfl⟩
  | 2, _ => exact ⟨rfl, by decide, by decide, ⟨2, rfl⟩, ⟨3, rfl⟩, rfl, .inl rfl⟩

/-- The hypotheses of `C117_packet_partial` are met by a packet that holds objects of three types one after the other. -/
example : ∃ s, life (demoCfg true) 1 (.fresh 5 false) [.get, .assign 2 (.fresh 6 false), .get, .get, .assign 0 (.fresh 7 false), .get] = .ok ([⟨0, 1, 5⟩, ⟨1, 2, 6⟩, ⟨1, 2, 6⟩, ⟨2, 0, 7⟩], s) ∧ s.cell = none ∧
    s.log = [.made 0 1, .destroyed 0 1, .made 1 2, .destroyed 1 2, .made 2 0, .destroyed 2 0] :=
  C117_packet_partial (demoCfg true) 1 5 (demo_ok 1 (by omega)) _ (by
    intro p hp
    simp only [List.mem_cons, List.not_mem_nil, or_false] at hp
    rcases hp with rfl | rfl | rfl | rfl | rfl | rfl
    · trivial
    · exact ⟨demo_ok 2 (by omega), 6, rfl⟩
    · trivial
    · trivial
    · exact ⟨demo_ok 0 (by omega), 7, rfl⟩
    · trivial)

example : assign (demoCfg true) { cell := some ⟨0, 1, 5⟩ } 4 (.fresh 5 false) = .rejected := by decide +kernel

/-- **Finding**: assigning a packet's own object to it, `p = static_cast<T&>(p.get())`, copies from an object that has just been destroyed. -/
theorem C117_self_assignment (c : Cfg) (s : S) (o : Obj) (hs : s.cell = some o) (h : TypeOk c o.ty) : assign c s o.ty .self = .ub := by
  simp only [assign, accepts_of_ok h, if_true, destroy_ok hs h, construct]

/-- **Finding**: if the constructor of the new object throws, the old one is gone, and the packet has no object; whatever is done with it then, at the latest its destruction, is undefined, unless something new is assigned, and even that destroys the old object a second time. -/
theorem C117_throwing_assignment (c : Cfg) (s : S) (o : Obj) (hs : s.cell = some o) (h : TypeOk c o.ty) (t v : Nat) (ht : TypeOk c t) (ops : List Op) (hops : ∀ p ∈ ops, OpOk c p) :
    (∃ s', assign c s t (.fresh v true) = .threw s' ∧ s'.cell = none) ∧ run c s (.assign t (.fresh v true) :: ops) = .ub := by
  have key : run c ⟨none, s.next, s.log ++ [.destroyed o.id o.ty]⟩ ops = .ub := by
    cases ops with
    | nil => rfl
    | cons p ops =>
      cases p with
      | get => rfl
      | assign t' a => simp only [run, assign, accepts_of_ok (hops (.assign t' a) (by simp)).1, if_true, destroy]
  refine ⟨⟨⟨none, s.next, s.log ++ [.destroyed o.id o.ty]⟩, ?_, rfl⟩, ?_⟩
  · simp only [assign, accepts_of_ok ht, if_true, destroy_ok hs h, construct]
  · simp only [run, assign, accepts_of_ok ht, if_true, destroy_ok hs h, construct]
    exact key

/-- **Finding**: the packet takes the address of the storage for that of the `TBase`.  An object of a type whose `TBase` is not at its beginning (a second base class) is accepted, but neither `get` nor the destructor finds its `TBase`. -/
theorem C117_second_base (c : Cfg) (t v : Nat) (h : accepts c t = true) (ho : (c.ty t).offset ≠ 0) : life c t (.fresh v false) [] = .ub ∧ ∀ ops, life c t (.fresh v false) (.get :: ops) = .ub := by
  constructor
  · simp only [life, construct, h, if_true, Bool.false_eq_true, if_false, run, destroy, ho, ne_eq, not_false_eq_true]
  · intro ops
    simp only [life, construct, h, if_true, Bool.false_eq_true, if_false, run, get, ho, ne_eq, not_false_eq_true]

example : accepts (demoCfg true) 3 = true ∧ (demoTypes 3).offset ≠ 0 := by decide

/-- **Finding**: nothing requires the destructor of `TBase` to be virtual; if it is not, what a derived class adds is never destroyed. -/
theorem C117_not_virtual : ∃ s, life (demoCfg false) 1 (.fresh 5 false) [.assign 2 (.fresh 6 false)] = .ok ([], s) ∧ s.log = [.made 0 1, .baseDestroyed 0 1, .made 1 2, .baseDestroyed 1 2] :=
  ⟨⟨none, 2, [.made 0 1, .baseDestroyed 0 1, .made 1 2, .baseDestroyed 1 2]⟩, by decide +kernel, rfl⟩

end Etl.TPacket
