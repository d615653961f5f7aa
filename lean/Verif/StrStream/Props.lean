/-
C95: string_stream.  Specification, theorems, findings.
-/
import Mathlib.Tactic.Linarith
import Verif.StrStream.Model
import Verif.Arith.Props

namespace Etl.StrStream
open Etl.Arith

/-! ### Specification -/

/-- what an operation sets in the format: numbers are kept modulo 256, everything else as given -/
def change (s : Spec) : Op → Spec
  | .format t => t
  | .setbase n => { s with f := { s.f with base := n % 256 } }
  | .setw n => { s with f := { s.f with width := n % 256 } }
  | .setfill c => { s with f := { s.f with fill := c } }
  | .setprecision n => { s with f := { s.f with precision := n % 256 } }
  | .boolalpha b => { s with boolalpha := b }
  | .uppercase b => { s with f := { s.f with upper := b } }
  | .showbase b => { s with f := { s.f with showBase := b } }
  | .left => { s with f := { s.f with left := true } }
  | .right => { s with f := { s.f with left := false } }
  | .put _ => s
  | .str _ => s
/-- the format in force after a history -/
def inForce (s : Spec) (ops : List Op) : Spec := ops.foldl change s

/-- "true", "false" or a digit; the numeral of C39; the text itself -/
def body (s : Spec) : Item → List Nat
  | .bool true => if s.boolalpha then [116, 114, 117, 101] else [49]
  | .bool false => if s.boolalpha then [102, 97, 108, 115, 101] else [48]
  | .int v => textOf s.f v
  | .ptr p => textOf s.f p
  | .str t => t
/-- the text after a history in a string without limit -/
def written : Spec → List Nat → List Op → List Nat
  | _, text, [] => text
  | s, text, .put i :: os => written s (text ++ padded s.f (body s i)) os
  | s, _, .str t :: os => written s t os
  | s, text, o :: os => written (change s o) text os

/-- a number is printed -/
def Item.number : Item → Prop
  | .int _ => True
  | .ptr _ => True
  | _ => False
/-- whenever a number is printed, the base is at least two -/
def Based (s : Spec) (ops : List Op) : Prop := ∀ p i, p ++ [Op.put i] <+: ops → i.number → 2 ≤ (inForce s p).f.base

/-! ### Proofs -/

theorem mod_mod (n : Nat) : u8 (u8 n) = n % 256 := by unfold u8; omega

theorem step_change (cap : Nat) (ss : Stream) (o : Op) (h : ∀ i, o ≠ .put i) : ∃ t, ss.step cap o = .ok ⟨t, change ss.spec o⟩ ∧ ((∀ s, o ≠ .str s) → t = ss.text) := by
  cases o with
  | put i => exact absurd rfl (h i)
  | str s => exact ⟨_, rfl, fun h => absurd rfl (h s)⟩
  | setbase n => exact ⟨ss.text, by simp only [Stream.step, Spec.base, mod_mod, change], fun _ => rfl⟩
  | setw n => exact ⟨ss.text, by simp only [Stream.step, Spec.width, mod_mod, change], fun _ => rfl⟩
  | setprecision n => exact ⟨ss.text, by simp only [Stream.step, Spec.precision, mod_mod, change], fun _ => rfl⟩
  | _ => exact ⟨ss.text, rfl, fun _ => rfl⟩

theorem padded_length (f : Fmt) (s : List Nat) : (padded f s).length = max s.length f.width := by
  unfold padded; split <;> simp <;> omega

theorem insertEnd_eq (cap : Nat) (pre s : List Nat) (h : pre.length ≤ cap) : insertEnd cap pre s = pre ++ s.take (cap - pre.length) := by
  unfold insertEnd; rw [List.take_append, List.take_of_length_le h]

theorem align_cut (cap : Nat) (f : Fmt) (pre s : List Nat) (h : (pre ++ s).length ≤ cap) : addAlignment cap (pre ++ s) pre.length f = (pre ++ padded f s).take cap := by
  unfold addAlignment padded insertN
  have e : (pre ++ s).length - pre.length = s.length := by simp
  rw [e]
  split
  · cases f.left
    · simp only [Bool.false_eq_true, if_false]
      rw [List.take_left, List.drop_left, List.append_assoc]
    · simp only [if_true]
      rw [List.take_of_length_le (Nat.le_refl _), List.drop_length, List.append_nil, List.append_assoc]
  · next hw =>
    have : f.width - s.length = 0 := by omega
    rw [this]
    cases f.left <;> simp only [List.replicate_zero, List.nil_append, List.append_nil, if_true, Bool.false_eq_true, if_false] <;> exact (List.take_of_length_le h).symm

theorem addString_eq (cap : Nat) (value pre : List Nat) (s : Spec) (h : pre.length ≤ cap) : addString cap value pre s true = (pre ++ padded s.f (value.take (cap - pre.length))).take cap := by
  unfold addString
  simp only [if_true]
  rw [insertEnd_eq cap pre value h]
  exact align_cut cap s.f pre _ (by simp; omega)

theorem push_insertEnd (cap : Nat) (pre : List Nat) (c : Nat) : push cap pre c = insertEnd cap pre [c] := rfl

theorem addBoolean_eq (cap : Nat) (b : Bool) (pre : List Nat) (s : Spec) (h : pre.length ≤ cap) : addBoolean cap b pre s true = (pre ++ padded s.f ((body s (.bool b)).take (cap - pre.length))).take cap := by
  have e : addBoolean cap b pre s true = addAlignment cap (insertEnd cap pre (body s (.bool b))) pre.length s.f := by
    unfold addBoolean
    simp only [if_true, push_insertEnd]
    cases b <;> cases hb : s.boolalpha <;> simp [body, hb]
  rw [e, insertEnd_eq cap pre _ h]
  exact align_cut cap s.f pre _ (by simp; omega)

theorem addPointer_ok {cap : Nat} {s : Spec} (hb : 2 ≤ s.f.base) (p : Nat) (pre : List Nat) (hfit : pre.length + max (textOf s.f p).length s.f.width ≤ cap) : addPointer cap p pre s true = .ok (pre ++ padded s.f (textOf s.f p)) := by
  unfold addPointer
  refine addIntegral_ok hb p false pre true _ ?_ hfit
  unfold textOf
  rw [if_neg (show ¬ (s.f.base = 10 ∧ (p : Int) < 0) by omega), if_neg (show ¬ (s.f.base = 10 ∧ false = true) by simp)]

theorem put_ok {cap : Nat} {ss : Stream} {i : Item} (hb : i.number → 2 ≤ ss.spec.f.base) (hfit : (ss.text ++ padded ss.spec.f (body ss.spec i)).length ≤ cap) :
    ss.put cap i = .ok ⟨ss.text ++ padded ss.spec.f (body ss.spec i), ss.spec⟩ := by
  have hf := hfit
  rw [List.length_append, padded_length] at hf
  cases i with
  | bool b =>
    show Except.ok _ = Except.ok _
    rw [addBoolean_eq cap b ss.text ss.spec (by omega), List.take_of_length_le (i := cap - _) (by omega), List.take_of_length_le hfit]
  | int v => simp only [Stream.put]; rw [C39_text (hb trivial) v ss.text true hf]; rfl
  | ptr p => simp only [Stream.put]; rw [addPointer_ok (hb trivial) p ss.text hf]; rfl
  | str t =>
    show Except.ok _ = Except.ok _
    rw [addString_eq cap t ss.text ss.spec (by omega), List.take_of_length_le (i := cap - _) (by simp only [body] at hf; omega), List.take_of_length_le (by exact hfit)]
    rfl

theorem based_tail {s : Spec} {o : Op} {os : List Op} (h : Based s (o :: os)) : Based (change s o) os := by
  intro p i hp hi
  have := h (o :: p) i (by simpa using hp) hi
  exact this
theorem based_head {s : Spec} {i : Item} {os : List Op} (h : Based s (.put i :: os)) (hi : i.number) : 2 ≤ s.f.base := h [] i (by simp) hi

/-! ### Theorems -/

/-- C95: for every capacity, string, format and history of manipulators, formats, insertions and resets: if the text fits after every step, and the base is at least two whenever a number is printed, nothing fails, the string is
the text it had (or was reset to) followed by every inserted item, in order, in the format in force when it was inserted, padded to the width, and the format is the last one set, item by item. -/
theorem C95_text (cap : Nat) (ss : Stream) (ops : List Op) (hfit : ∀ p, p <+: ops → (written ss.spec ss.text p).length ≤ cap) (hb : Based ss.spec ops) :
    ss.run cap ops = .ok ⟨written ss.spec ss.text ops, inForce ss.spec ops⟩ := by
  induction ops generalizing ss with
  | nil => rfl
  | cons o os ih =>
    have tail : ∀ p, p <+: os → (written ss.spec ss.text (o :: p)).length ≤ cap := fun p hp => hfit (o :: p) (by simpa using hp)
    have one := hfit [o] (by simp)
    unfold Stream.run
    cases ho : o with
    | put i =>
      subst ho
      have e : ss.step cap (.put i) = .ok ⟨ss.text ++ padded ss.spec.f (body ss.spec i), ss.spec⟩ := put_ok (based_head hb) one
      rw [e]
      exact ih ⟨_, ss.spec⟩ tail (based_tail hb)
    | str t =>
      subst ho
      have e : ss.step cap (.str t) = .ok ⟨t, ss.spec⟩ := by
        show Except.ok _ = Except.ok _
        rw [List.take_of_length_le (by exact one)]
      rw [e]
      exact ih ⟨t, ss.spec⟩ tail (based_tail hb)
    | _ =>
      obtain ⟨t, e, ht⟩ := step_change cap ss o (by intro i; rw [ho]; exact fun h => nomatch h)
      have := ht (by intro i; rw [ho]; exact fun h => nomatch h)
      subst this
      rw [ho] at e
      rw [e]
      subst ho
      exact ih ⟨ss.text, _⟩ tail (based_tail hb)

/-- digits pushed into a string that may be full -/
theorem push_prefix {cap : Nat} {pre s : List Nat} {c : Nat} (h : pre <+: s) (hc : s.length ≤ cap) : pre <+: push cap s c ∧ (push cap s c).length ≤ cap := by
  obtain ⟨t, rfl⟩ := h
  refine ⟨?_, by simp [push]⟩
  unfold push
  rw [List.append_assoc, List.take_append, List.take_of_length_le (by simp at hc; omega)]
  exact List.prefix_append _ _

theorem digitLoop_prefix {cap : Nat} {f : Fmt} (hb : 2 ≤ f.base) (fuel : Nat) : ∀ (v : Int) (pre s : List Nat), v.natAbs < fuel → pre <+: s → s.length ≤ cap →
    ∃ r, digitLoop cap f fuel v s = .ok r ∧ pre <+: r ∧ r.length ≤ cap := by
  induction fuel with
  | zero => intro v pre s h; omega
  | succ fuel ih =>
    intro v pre s h hp hc
    simp only [digitLoop]
    by_cases hv : v = 0
    · rw [if_pos hv]; exact ⟨s, rfl, hp, hc⟩
    · rw [if_neg hv, if_neg (by omega)]
      have hpos : 0 < v.natAbs := Int.natAbs_pos.mpr hv
      have e2 : (v.tdiv f.base).natAbs = v.natAbs / f.base := by rw [Int.natAbs_tdiv]; rfl
      have hh := push_prefix (c := digitChar f.upper (v.tmod f.base).natAbs) hp hc
      exact ih _ pre _ (by rw [e2]; have := Nat.div_lt_self hpos (show 1 < f.base by omega); omega) hh.1 hh.2

theorem align_prefix {cap : Nat} {f : Fmt} {pre s : List Nat} (hp : pre <+: s) (hc : s.length ≤ cap) : pre <+: addAlignment cap s pre.length f ∧ (addAlignment cap s pre.length f).length ≤ cap := by
  obtain ⟨t, rfl⟩ := hp
  rw [align_cut cap f pre t hc, List.take_append, List.take_of_length_le (by simp at hc; omega)]
  exact ⟨List.prefix_append _ _, by simp at hc ⊢; omega⟩

theorem addBase_prefix {cap : Nat} {f : Fmt} {pre s : List Nat} (hp : pre <+: s) (hc : s.length ≤ cap) : pre <+: addBase cap f s ∧ (addBase cap f s).length ≤ cap := by
  unfold addBase
  split
  · split
    · have h := push_prefix (c := if f.upper then 66 else 98) hp hc; exact push_prefix h.1 h.2
    · split
      · exact push_prefix hp hc
      · split
        · have h := push_prefix (c := if f.upper then 88 else 120) hp hc; exact push_prefix h.1 h.2
        · exact ⟨hp, hc⟩
  · exact ⟨hp, hc⟩

theorem addIntegral_prefix {cap : Nat} {f : Fmt} (hb : 2 ≤ f.base) (v : Int) (neg : Bool) (pre : List Nat) (hc : pre.length ≤ cap) :
    ∃ r, addIntegral cap v pre f true neg = .ok r ∧ pre <+: r ∧ r.length ≤ cap := by
  unfold addIntegral
  simp only [if_true]
  by_cases hv : v = 0
  · rw [if_pos hv]
    refine ⟨_, rfl, ?_⟩
    have h1 : pre <+: (if f.base = 10 ∧ neg = true then push cap pre 45 else pre) ∧ (if f.base = 10 ∧ neg = true then push cap pre 45 else pre).length ≤ cap := by
      split
      · exact push_prefix (List.prefix_refl _) hc
      · exact ⟨List.prefix_refl _, hc⟩
    have h2 := push_prefix (c := 48) h1.1 h1.2
    exact align_prefix h2.1 h2.2
  · rw [if_neg hv]
    obtain ⟨r, hr, hp, hl⟩ := digitLoop_prefix (cap := cap) hb (v.natAbs + 1) v pre pre (by omega) (List.prefix_refl _) hc
    rw [hr]
    refine ⟨_, rfl, ?_⟩
    have h1 : pre <+: (if f.base = 10 ∧ neg = true then push cap r 45 else r) ∧ (if f.base = 10 ∧ neg = true then push cap r 45 else r).length ≤ cap := by
      split
      · exact push_prefix hp hl
      · exact ⟨hp, hl⟩
    have h2 := addBase_prefix (f := f) h1.1 h1.2
    obtain ⟨t, ht⟩ := h2.1
    have hl2 := h2.2
    rw [← ht] at hl2 ⊢
    rw [List.take_left, List.drop_left]
    exact align_prefix (List.prefix_append _ _) (by simpa using hl2)

/-- C95: whether or not it fits, an insertion does not fail, keeps the text before it unchanged in front, never exceeds the capacity and does not change the format; a string or boolean that does not fit is cut to the room there is, then padded, then cut again. -/
theorem C95_cut (cap : Nat) (ss : Stream) (i : Item) (h : ss.text.length ≤ cap) (hb : i.number → 2 ≤ ss.spec.f.base) :
    ∃ t, ss.put cap i = .ok ⟨t, ss.spec⟩ ∧ ss.text <+: t ∧ t.length ≤ cap ∧
      (¬ i.number → t = (ss.text ++ padded ss.spec.f ((body ss.spec i).take (cap - ss.text.length))).take cap) := by
  have pre : ∀ w : List Nat, ss.text <+: (ss.text ++ w).take cap := fun w => by
    rw [List.take_append, List.take_of_length_le h]; exact List.prefix_append _ _
  cases i with
  | bool b => exact ⟨_, rfl, by rw [addBoolean_eq cap b _ _ h]; exact pre _, by rw [addBoolean_eq cap b _ _ h]; simp, fun _ => addBoolean_eq cap b _ _ h⟩
  | str t => exact ⟨_, rfl, by rw [addString_eq cap t _ _ h]; exact pre _, by rw [addString_eq cap t _ _ h]; simp, fun _ => addString_eq cap t _ _ h⟩
  | int v =>
    obtain ⟨r, hr, hp, hl⟩ := addIntegral_prefix (cap := cap) (hb trivial) v (decide (v < 0)) ss.text h
    refine ⟨r, ?_, hp, hl, fun h => absurd trivial h⟩
    simp only [Stream.put, Arith.toString]
    rw [hr]
  | ptr p =>
    obtain ⟨r, hr, hp, hl⟩ := addIntegral_prefix (cap := cap) (hb trivial) (p : Int) false ss.text h
    refine ⟨r, ?_, hp, hl, fun h => absurd trivial h⟩
    simp only [Stream.put, addPointer]
    rw [hr]

/-- C95: no history takes the text beyond the capacity, and without a reset what was there at the start stays in front; the format is always the one in force. -/
theorem C95_bounded (cap : Nat) (ss : Stream) (ops : List Op) (h : ss.text.length ≤ cap) (hb : Based ss.spec ops) :
    ∃ t, ss.run cap ops = .ok ⟨t, inForce ss.spec ops⟩ ∧ t.length ≤ cap ∧ ((∀ s, Op.str s ∉ ops) → ss.text <+: t) := by
  induction ops generalizing ss with
  | nil => exact ⟨ss.text, rfl, h, fun _ => List.prefix_refl _⟩
  | cons o os ih =>
    unfold Stream.run
    have key : ∃ t, ss.step cap o = .ok ⟨t, change ss.spec o⟩ ∧ t.length ≤ cap ∧ ((∀ s, o ≠ .str s) → ss.text <+: t) := by
      by_cases hp : ∃ i, o = .put i
      · obtain ⟨i, rfl⟩ := hp
        obtain ⟨t, e, h1, h2, _⟩ := C95_cut cap ss i h (based_head hb)
        exact ⟨t, e, h2, fun _ => h1⟩
      · by_cases hs : ∃ s, o = .str s
        · obtain ⟨s, rfl⟩ := hs
          exact ⟨s.take cap, rfl, by simp, fun h => absurd rfl (h s)⟩
        · obtain ⟨t, e, ht⟩ := step_change cap ss o (fun i hi => hp ⟨i, hi⟩)
          have := ht (fun s h => hs ⟨s, h⟩)
          subst this
          exact ⟨_, e, h, fun _ => List.prefix_refl _⟩
    obtain ⟨t, e, hl, hpre⟩ := key
    rw [e]
    obtain ⟨t2, e2, hl2, hpre2⟩ := ih ⟨t, change ss.spec o⟩ hl (based_tail hb)
    refine ⟨t2, e2, hl2, fun hn => (hpre fun s hs => hn s (by rw [hs]; simp)).trans (hpre2 fun s hs => hn s (by simp [hs]))⟩

/-- C95: two formats are equal exactly if every setting is, `clear` gives a default one, and each setter changes only its own setting (numbers below 256 are kept). -/
theorem C95_format (a b : Spec) : (a.eq b = true ↔ a = b) ∧ a.clear = {} ∧ (∀ n < 256, a.base n = { a with f := { a.f with base := n } } ∧ a.width n = { a with f := { a.f with width := n } } ∧ a.precision n = { a with f := { a.f with precision := n } }) := by
  refine ⟨?_, rfl, ?_⟩
  · constructor
    · intro h
      obtain ⟨⟨_, _, _, _, _, _, _⟩, _⟩ := a
      obtain ⟨⟨_, _, _, _, _, _, _⟩, _⟩ := b
      simp only [Spec.eq, Bool.and_eq_true, beq_iff_eq] at h
      obtain ⟨⟨⟨⟨⟨⟨⟨h1, h2⟩, h3⟩, h4⟩, h5⟩, h6⟩, h7⟩, h8⟩ := h
      subst h1 h2 h3 h4 h5 h6 h7 h8
      rfl
    · rintro rfl; simp [Spec.eq]
  · intro n hn
    simp only [Spec.base, Spec.width, Spec.precision, u8, Nat.mod_eq_of_lt hn, and_self]

/-! ### Concrete cases -/

/-- `ss << "x=" << setw(6) << setfill('.') << hex << showbase << 31 << setw(0) << boolalpha << true` -/
def sample : List Op := [.put (.str [120, 61]), .setw 6, .setfill 46, .setbase 16, .showbase true, .put (.int 31), .setw 0, .boolalpha true, .put (.bool true)]
def textOfRun (cap : Nat) (ss : Stream) (ops : List Op) : Option (List Nat) := ((ss.run cap ops).toOption).map Stream.text
/-- "x=..0x1ftrue" -/
example : textOfRun 20 ⟨[], {}⟩ sample = some [120, 61, 46, 46, 48, 120, 49, 102, 116, 114, 117, 101] := by decide +kernel
example : written {} [] sample = [120, 61, 46, 46, 48, 120, 49, 102, 116, 114, 117, 101] := by
  simp [written, sample, padded, body, change, textOf, basePrefix, numeral, figure, List.replicate]
/-- the hypotheses of C95_text -/
example : ∀ p, p <+: [Op.put (.str [120, 61]), .setw 6, .put (.bool true)] → (written {} [] p).length ≤ 8 := by
  intro p hp
  rw [← List.mem_inits] at hp
  simp only [List.inits, List.map_cons, List.map_nil, List.mem_cons, List.not_mem_nil, or_false] at hp
  rcases hp with rfl | rfl | rfl | rfl <;> simp [written, padded, body, change]
example : Based {} sample := by
  intro p i hp hi
  rw [← List.mem_inits] at hp
  simp only [sample, List.inits, List.map_cons, List.map_nil, List.mem_cons, List.not_mem_nil, or_false] at hp
  rcases p with _ | ⟨a, _ | ⟨b, _ | ⟨c, _ | ⟨d, _ | ⟨e, _ | ⟨f, _ | ⟨g, _ | ⟨h, _ | ⟨k, l⟩⟩⟩⟩⟩⟩⟩⟩⟩ <;> simp at hp <;> simp_all [inForce, change] <;> simp_all [Item.number]

/-! ### Findings -/

/-- a width of 256 is no width at all, and a base of 256 a division by zero -/
theorem C95_width_wraps : textOfRun 400 ⟨[], {}⟩ [.setw 256, .put (.str [97])] = some [97] ∧ (Stream.run 400 ⟨[], {}⟩ [.setbase 256, .put (.int 1)]).map Stream.text = .error .divByZero := ⟨by decide +kernel, by rfl⟩
/-- unlike the standard stream, the width stays in force after an insertion -/
theorem C95_width_stays : textOfRun 20 ⟨[], {}⟩ [.setw 3, .put (.int 1), .put (.int 2)] = some [32, 32, 49, 32, 32, 50] := by decide +kernel
/-- a text that is cut before it is padded on the left loses more: "abcdefg" in eight columns of a string of five is three blanks and "ab" -/
theorem C95_padding_pushes_out : textOfRun 5 ⟨[], {}⟩ [.setw 8, .put (.str [97, 98, 99, 100, 101, 102, 103])] = some [32, 32, 32, 97, 98] := by decide +kernel

end Etl.StrStream
