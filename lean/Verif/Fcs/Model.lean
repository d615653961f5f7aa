import Verif.Common.Res
/-!
# `etl::frame_check_sequence<TPolicy>` (include/etl/frame_check_sequence.h)

The generic streaming wrapper of every CRC, checksum and of fnv / jenkins.  A policy has its own (mutable) members `π` and an
accumulator type `ν`.
-/
namespace Etl.Fcs

/-- A byte. -/
abbrev Byte := BitVec 8

/-- Why a call does not return normally: undefined behaviour, or a failed `ETL_ASSERT` (the error handler / exception). -/
inductive Fault where
  | ub (u : UB)
  | asserted
  deriving DecidableEq, Repr

/-- The policy concept used by frame_check_sequence.h:95-186: `initial()`, `add(fcs, byte)`, `final(fcs)`.  `initial` and `final` may
change mutable members of the policy (jenkins.h:83-127 does). -/
structure Policy (π ν : Type) where
  initial : π → π × ν
  add : π → ν → Byte → Except Fault ν
  final : π → ν → π × ν

/-- Data members, frame_check_sequence.h:187-190. -/
structure Fcs (π ν : Type) where
  check : ν
  pol : π

variable {π ν : Type}

/-- `reset`, frame_check_sequence.h:124-127. -/
def reset (P : Policy π ν) (s : Fcs π ν) : Fcs π ν := ⟨(P.initial s.pol).2, (P.initial s.pol).1⟩

/-- `add(uint8_t)`, frame_check_sequence.h:149-152 (also what assigning through `input()` does, 80-84). -/
def addByte (P : Policy π ν) (s : Fcs π ν) (b : Byte) : Except Fault (Fcs π ν) :=
  match P.add s.pol s.check b with
  | .ok v => .ok { s with check := v }
  | .error e => .error e

/-- `add(begin, end)`: `while (begin != end)`, frame_check_sequence.h:134-144. -/
def addRange (P : Policy π ν) (s : Fcs π ν) : List Byte → Except Fault (Fcs π ν)
  | [] => .ok s
  | b :: bs => match addByte P s b with
    | .ok s' => addRange P s' bs
    | .error e => .error e

/-- `value()` and `operator value_type`, frame_check_sequence.h:157-168. -/
def value (P : Policy π ν) (s : Fcs π ν) : Fcs π ν × ν := ({ s with pol := (P.final s.pol s.check).1 }, (P.final s.pol s.check).2)

/-- The default constructor: members, then `reset()`, frame_check_sequence.h:101-105. -/
def construct (P : Policy π ν) (pol : π) (zero : ν) : Fcs π ν := reset P ⟨zero, pol⟩

/-- Constructor from a range, frame_check_sequence.h:112-119. -/
def constructRange (P : Policy π ν) (pol : π) (zero : ν) (bs : List Byte) : Except Fault (Fcs π ν) := addRange P (construct P pol zero) bs

/-- The calls a client can make. -/
inductive Op where
  | reset
  | add (b : Byte)
  | addRange (bs : List Byte)
  | value
  deriving DecidableEq, Repr

/-- A history of calls; collects what `value()` returned. -/
def run (P : Policy π ν) (s : Fcs π ν) : List Op → Except Fault (Fcs π ν × List ν)
  | [] => .ok (s, [])
  | .reset :: os => run P (reset P s) os
  | .add b :: os => match addByte P s b with
    | .ok s' => run P s' os
    | .error e => .error e
  | .addRange bs :: os => match addRange P s bs with
    | .ok s' => run P s' os
    | .error e => .error e
  | .value :: os => match run P (value P s).1 os with
    | .ok (s', vs) => .ok (s', (value P s).2 :: vs)
    | .error e => .error e

/-! ## Specification of a chunking independent check value -/

/-- What the `value()` calls of a history return if the value is a function `h` of the bytes added since the last reset. -/
def observations (h : List Byte → ν) : List Op → List Byte → List ν
  | [], _ => []
  | .reset :: os, _ => observations h os []
  | .add b :: os, acc => observations h os (acc ++ [b])
  | .addRange bs :: os, acc => observations h os (acc ++ bs)
  | .value :: os, acc => h acc :: observations h os acc

/-! ## Policies without mutable members -/

/-- A policy whose calls cannot fail and that keeps no state of its own, described by a seed, a step and an output function. -/
structure Pure (P : Policy Unit ν) (init : ν) (step : ν → Byte → ν) (out : ν → ν) : Prop where
  initial : P.initial () = ((), init)
  add : ∀ v b, P.add () v b = .ok (step v b)
  final : ∀ v, P.final () v = ((), out v)

theorem addRange_pure {P : Policy Unit ν} {init step out} (h : Pure P init step out) (s : Fcs Unit ν) (bs : List Byte) :
    addRange P s bs = .ok ⟨bs.foldl step s.check, ()⟩ := by
  induction bs generalizing s with
  | nil => rfl
  | cons b bs ih => simp only [addRange, addByte, h.add]; rw [ih]; rfl

theorem run_pure {P : Policy Unit ν} {init step out} (h : Pure P init step out) (ops : List Op) (s : Fcs Unit ν) (acc : List Byte)
    (hs : s.check = acc.foldl step init) : ∃ s', run P s ops = .ok (s', observations (fun bs => out (bs.foldl step init)) ops acc) := by
  induction ops generalizing s acc with
  | nil => exact ⟨s, rfl⟩
  | cons o ops ih =>
    cases o with
    | reset => exact ih (reset P s) [] (by simp [reset, h.initial])
    | add b => 
      obtain ⟨s', e⟩ := ih { s with check := step s.check b } (acc ++ [b]) (by simp [hs])
      exact ⟨s', by simp only [run, addByte, h.add]; exact e⟩
    | addRange bs =>
      obtain ⟨s', e⟩ := ih ⟨bs.foldl step s.check, ()⟩ (acc ++ bs) (by simp [hs])
      exact ⟨s', by simp only [run, addRange_pure h]; exact e⟩
    | value =>
      obtain ⟨s', e⟩ := ih (value P s).1 acc hs
      refine ⟨s', ?_⟩
      simp only [run, e, observations]
      rw [show (value P s).2 = out (acc.foldl step init) by simp [value, h.final, hs]]

end Etl.Fcs
