import Verif.Str.More

/-!
# C37, C60: histories of all calls of etl::string

The histories of `Props` together with `assign` of a part, `uninitialized_resize` (not beyond the size), `fill`, `initialize_free_space` and `resize_and_overwrite`.
-/
namespace Etl.Str

/-! ### Specification -/

/-- `part`: another string with the characters `m`, behind which the memory is `junk`.  `overwrite`: the operation writes `w`, as much of it as there is room for. -/
inductive Op2 where
  | base (o : Op)
  | part (m junk : List Nat) (sub : Nat) (len : Option Nat) (t sec : Bool)
  | shrink (n : Nat)
  | fill (c : Nat)
  | initFree
  | overwrite (n : Nat) (w : List Nat)
def Op2.Legal (l : List Nat) : Op2 → Prop
  | .base o => o.Legal l
  | .part m _ sub len _ _ => ∀ n, len = some n → sub + n ≤ m.length ∨ m.length < sub
  | .shrink n => n ≤ l.length
  | _ => True
/-- what a call does to a bounded string with a flag -/
def Spec.step2 (N : Nat) (x : Spec) : Op2 → Spec
  | .base o => x.step N o
  | .part m _ sub len t _ => if sub ≤ m.length then ⟨(Str.part m sub len).take N, decide (N < (Str.part m sub len).length) || t⟩ else x
  | .shrink n => ⟨x.chars.take n, x.flag⟩
  | .fill c => ⟨List.replicate x.chars.length c, x.flag⟩
  | .initFree => ⟨x.chars, false⟩
  | .overwrite n w => if n ≤ N then ⟨w.take n, x.flag⟩ else x
def Spec.run2 (N : Nat) : Spec → List Op2 → Spec
  | x, [] => x
  | x, o :: os => Spec.run2 N (x.step2 N o) os
def LegalRun2 (N : Nat) : Spec → List Op2 → Prop
  | _, [] => True
  | x, o :: os => o.Legal x.chars ∧ LegalRun2 N (x.step2 N o) os

/-! ### The calls on the model -/

def exec2 (s : St) : Op2 → Res (Option St)
  | .base o => exec? s o
  | .part m junk sub len t sec => assignSub s (m ++ junk) m.length sub len t sec
  | .shrink n => lift (uninitializedResize s n)
  | .fill c => lift (fillAll s c)
  | .initFree => lift (initializeFreeSpace s)
  | .overwrite n w => resizeAndOverwrite s n (writeOp w)
/-- a history: after an error the string is as before -/
def run2 (s : St) : List Op2 → Res St
  | [] => .ok s
  | o :: os => match exec2 s o with
    | .error u => .error u
    | .ok none => run2 s os
    | .ok (some s) => run2 s os
/-- the calls that keep the memory behind the characters zero -/
def Op2.Quiet : Op2 → Prop
  | .shrink _ => False
  | _ => True
/-- the calls that make it zero -/
def Op2.wipes (N : Nat) : Op2 → Bool
  | .base o => o.wipes
  | .part m _ sub _ _ _ => decide (sub ≤ m.length)
  | .overwrite n _ => decide (n ≤ N)
  | .initFree => true
  | _ => false

/-! ### One call -/

structure Done2 (s : St) (x : Spec) (o : Op2) (s' : St) : Prop where
  cap : s'.cap = s.cap
  rep : Rep s' (x.step2 s.cap o).chars
  flag : s'.trunc = (x.step2 s.cap o).flag
  sec : s.secure = true → s'.secure = true
  clean : o.Quiet → s.secure = true → Clean s → Clean s'
  wipe : o.wipes s.cap = true → s.secure = true → Clean s'

theorem write_eq (w : List Nat) (b : Nat → Nat) (n : Nat) : (List.range (writeOp w b n).2).map (writeOp w b n).1 = w.take n := by
  refine List.ext_getElem? ?_
  intro i
  rw [List.getElem?_map, List.getElem?_take]
  show Option.map _ ((List.range (min n w.length))[i]?) = _
  by_cases hi : i < min n w.length
  · rw [List.getElem?_range hi, if_pos (by omega), ch_get (by omega)]
    show some (if i < min n w.length then ch w i else b i) = _
    rw [if_pos hi]
  · rw [List.getElem?_eq_none (by rw [List.length_range]; omega)]
    by_cases hn : i < n
    · rw [if_pos hn, List.getElem?_eq_none (by omega)]; rfl
    · rw [if_neg hn]; rfl

theorem rep_zero {s : St} {l : List Nat} (h : Rep s l) : s.buf s.size = 0 := by rw [h.len, h.at_ _ (Nat.le_refl _)]; exact ch_out (Nat.le_refl _)

/-- one call: what the result or, after an error, the unchanged string is -/
theorem exec2_ok {s : St} {x : Spec} (h : Rep s x.chars) (ht : s.trunc = x.flag) (o : Op2) (hl : o.Legal x.chars) : ∃ r, exec2 s o = .ok r ∧ Done2 s x o (r.getD s) := by
  have hlen := h.len
  have hf := h.fits
  cases o with
  | base o =>
    cases hc : o.Checked x.chars with
    | false =>
      have e : x.step s.cap o = x := by unfold Spec.step; rw [hc, if_neg (by simp)]
      have hw : o.wipes = false := by cases o <;> first | rfl | cases hc
      exact ⟨none, exec_none h o hc, ⟨rfl, by show Rep s (x.step s.cap o).chars; rw [e]; exact h, by show s.trunc = (x.step s.cap o).flag; rw [e]; exact ht, id, fun _ _ hq => hq, fun hh => by
        have : o.wipes = true := hh
        rw [hw] at this; cases this⟩⟩
    | true =>
      obtain ⟨s1, e1, d⟩ := exec_ok h o hl hc
      have e : x.step s.cap o = ⟨(o.ideal x.chars).take s.cap, (x.flag && !o.fresh) || decide (s.cap < (o.ideal x.chars).length) || o.inherited⟩ := by unfold Spec.step; rw [if_pos hc]
      exact ⟨some s1, e1, ⟨d.cap, by show Rep s1 (x.step s.cap o).chars; rw [e]; exact d.rep, by show s1.trunc = (x.step s.cap o).flag; rw [e, d.trunc, ht], d.sec, fun _ => d.clean, fun hw hs => wipe_ok h hs o hw e1⟩⟩
  | part m junk sub len t sec =>
    have hm : (m ++ junk).take m.length = m := List.take_left
    show ∃ r, assignSub s (m ++ junk) m.length sub len t sec = .ok r ∧ _
    unfold assignSub
    by_cases hs : sub ≤ m.length
    · have hlen : sub + len.getD (m.length - sub) ≤ m.length := by
        cases len with
        | none => show sub + (m.length - sub) ≤ m.length; omega
        | some n => rcases hl n rfl with h | h
                    · exact h
                    · omega
      have e : ((m ++ junk).drop sub).take (len.getD (m.length - sub)) = Str.part m sub len := by
        rw [List.drop_append_of_le_length hs, List.take_append_of_le_length (by rw [List.length_drop]; omega)]
        cases len with
        | none => show (m.drop sub).take (m.length - sub) = m.drop sub; exact List.take_of_length_le (by rw [List.length_drop])
        | some n => rfl
      rw [if_pos hs, if_pos (by rw [List.length_append]; omega), e]
      obtain ⟨s', h1, h2, h3⟩ := assign_ok s (Str.part m sub len) t sec
      rw [h1]
      have e2 : x.step2 s.cap (.part m junk sub len t sec) = ⟨(Str.part m sub len).take s.cap, decide (s.cap < (Str.part m sub len).length) || t⟩ := if_pos hs
      exact ⟨some s', rfl, ⟨h2.cap, by rw [e2]; exact h2.rep, by rw [e2]; exact h2.trunc, fun hq => by show s'.secure = true; rw [h2.sec, hq]; rfl, fun _ hq _ => h3 (by rw [h2.sec, hq]; rfl), fun _ hq => h3 (by rw [h2.sec, hq]; rfl)⟩⟩
    · rw [if_neg hs]
      have e2 : x.step2 s.cap (.part m junk sub len t sec) = x := if_neg hs
      exact ⟨none, rfl, ⟨rfl, by rw [e2]; exact h, by rw [e2]; exact ht, id, fun _ _ hq => hq, fun hw => absurd (of_decide_eq_true hw) hs⟩⟩
  | shrink n =>
    have hn : n ≤ x.chars.length := hl
    show ∃ r, lift (uninitializedResize s n) = .ok r ∧ _
    unfold uninitializedResize
    rw [Nat.min_eq_left (show n ≤ s.cap by omega), put_ok (s := { s with size := n }) (show n ≤ s.cap by omega)]
    refine ⟨_, rfl, ⟨rfl, ⟨?_, ?_, ?_⟩, ht, id, fun hq => hq.elim, fun hw => by cases hw⟩⟩
    · show n = (x.chars.take n).length; rw [List.length_take]; omega
    · show (x.chars.take n).length ≤ s.cap; rw [List.length_take]; omega
    · intro i hi
      show upd s.buf n 0 i = ch (x.chars.take n) i
      have hi : i ≤ (x.chars.take n).length := hi
      rw [List.length_take] at hi
      rw [ch_take]
      by_cases e : i = n
      · rw [e, upd_same, if_neg (by omega)]
      · rw [upd_other _ _ e, if_pos (by omega)]; exact h.at_ i (by omega)
  | fill c =>
    obtain ⟨b, h1, h2⟩ := fill_ok c s.size 0 s (by omega)
    refine ⟨some { s with buf := b }, by show lift (fillLoop c s.size 0 s) = _; rw [h1]; rfl, ⟨rfl, ⟨?_, ?_, ?_⟩, ht, id, fun _ _ hq => ?_, fun hw => by cases hw⟩⟩
    · show s.size = (List.replicate x.chars.length c).length; rw [List.length_replicate]; exact hlen
    · show (List.replicate x.chars.length c).length ≤ s.cap; rw [List.length_replicate]; exact hf
    · intro i hi
      have hi : i ≤ (List.replicate x.chars.length c).length := hi
      rw [List.length_replicate] at hi
      show b i = ch (List.replicate x.chars.length c) i
      rw [h2, ch_replicate]
      by_cases e : i < x.chars.length
      · rw [if_pos (by omega), if_pos e]
      · rw [if_neg (by omega), if_neg e, h.at_ i hi]; exact ch_out (by omega)
    · intro i g1 g2
      show b i = 0
      have g1 : s.size ≤ i := g1
      rw [h2, if_neg (by omega)]; exact hq i g1 g2
  | initFree =>
    obtain ⟨b, h1, h2⟩ := fill_ok 0 (s.cap + 1 - s.size) s.size { s with trunc := false } (by show s.size + (s.cap + 1 - s.size) ≤ s.cap + 1; omega)
    have hcl : Clean { s with trunc := false, buf := b } := by
      intro i g1 g2
      show b i = 0
      have g1 : s.size ≤ i := g1
      have g2 : i < s.cap := g2
      rw [h2, if_pos (by omega)]
    refine ⟨some { s with trunc := false, buf := b }, by show lift (fillLoop 0 (s.cap + 1 - s.size) s.size { s with trunc := false }) = _; rw [h1]; rfl, ⟨rfl, ⟨hlen, hf, ?_⟩, rfl, id, fun _ _ _ => hcl, fun _ _ => hcl⟩⟩
    intro i hi
    have hi : i ≤ x.chars.length := hi
    show b i = ch x.chars i
    rw [h2]
    by_cases e : i < x.chars.length
    · rw [if_neg (by omega)]; exact h.at_ i hi
    · rw [if_pos (by omega)]; exact (ch_out (by omega)).symm
  | overwrite n w =>
    show ∃ r, resizeAndOverwrite s n (writeOp w) = .ok r ∧ _
    unfold resizeAndOverwrite
    by_cases hn : n ≤ s.cap
    · have e2 : x.step2 s.cap (.overwrite n w) = ⟨w.take n, x.flag⟩ := if_pos hn
      have hle : (writeOp w s.buf n).2 ≤ n := Nat.min_le_left _ _
      rw [if_neg (by omega), put_ok (s := { s with buf := (writeOp w s.buf n).1, size := (writeOp w s.buf n).2 }) (show (writeOp w s.buf n).2 ≤ s.cap by omega)]
      have hrep : Rep { s with buf := upd (writeOp w s.buf n).1 (writeOp w s.buf n).2 0, size := (writeOp w s.buf n).2 } (w.take n) := by
        rw [← write_eq w s.buf n]
        refine ⟨?_, ?_, ?_⟩
        · show (writeOp w s.buf n).2 = _; simp
        · show _ ≤ s.cap; simp; omega
        · intro i hi
          show upd (writeOp w s.buf n).1 (writeOp w s.buf n).2 0 i = _
          have hi' : i ≤ (writeOp w s.buf n).2 := by simpa using hi
          by_cases e : i = (writeOp w s.buf n).2
          · rw [e, upd_same]; exact (ch_out (by simp)).symm
          · rw [upd_other _ _ e]; unfold ch; rw [List.getElem?_map, List.getElem?_range (by omega)]; rfl
      obtain ⟨b, h1, h2, h3⟩ := cleanup_ok hrep
      dsimp only
      rw [h1]
      exact ⟨some _, rfl, ⟨rfl, by rw [e2]; exact h2, by rw [e2]; exact ht, id, fun _ hs _ => h3 (.inl hs), fun _ hs => h3 (.inl hs)⟩⟩
    · have e2 : x.step2 s.cap (.overwrite n w) = x := if_neg hn
      rw [if_pos (by omega)]
      exact ⟨none, rfl, ⟨rfl, by rw [e2]; exact h, by rw [e2]; exact ht, id, fun _ _ hq => hq, fun hw => absurd (of_decide_eq_true hw) hn⟩⟩

/-! ### Histories -/

theorem run2_ok (os : List Op2) : ∀ (s : St) (x : Spec), Rep s x.chars → s.trunc = x.flag → LegalRun2 s.cap x os →
    ∃ s', run2 s os = .ok s' ∧ s'.cap = s.cap ∧ Rep s' (x.run2 s.cap os).chars ∧ s'.trunc = (x.run2 s.cap os).flag ∧ (s.secure = true → s'.secure = true) ∧ ((∀ o ∈ os, o.Quiet) → s.secure = true → Clean s → Clean s') := by
  induction os with
  | nil => intro s x h ht _; exact ⟨s, rfl, rfl, h, ht, id, fun _ _ hc => hc⟩
  | cons o os ih =>
    intro s x h ht hl
    obtain ⟨hl1, hl2⟩ := hl
    obtain ⟨r, e1, d⟩ := exec2_ok h ht o hl1
    obtain ⟨s', h1, h2, h3, h4, h5, h6⟩ := ih (r.getD s) (x.step2 s.cap o) d.rep d.flag (by rw [d.cap]; exact hl2)
    rw [d.cap] at h2 h3 h4
    refine ⟨s', ?_, h2, h3, h4, fun hs => h5 (d.sec hs), fun hq hs hcl => h6 (fun o ho => hq o (List.mem_cons_of_mem _ ho)) (d.sec hs) (d.clean (hq o List.mem_cons_self) hs hcl)⟩
    simp only [run2, e1]
    cases r <;> exact h1
theorem run2_append (a b : List Op2) : ∀ s : St, run2 s (a ++ b) = match run2 s a with
    | .error u => .error u
    | .ok s => run2 s b := by
  induction a with
  | nil => intro s; rfl
  | cons o a ih =>
    intro s
    simp only [List.cons_append, run2]
    cases h : exec2 s o with
    | error u => rfl
    | ok r => cases r with
      | none => exact ih s
      | some s1 => exact ih s1
theorem legal2_append (N : Nat) (a b : List Op2) : ∀ x : Spec, LegalRun2 N x (a ++ b) ↔ LegalRun2 N x a ∧ LegalRun2 N (x.run2 N a) b := by
  induction a with
  | nil => intro x; simp [LegalRun2, Spec.run2]
  | cons o a ih => intro x; simp only [List.cons_append, LegalRun2, Spec.run2, ih]; tauto

/-- C37: every history of calls is defined and leaves what the bounded string of the specification holds: the characters, the flag, a null behind the last character. -/
theorem C37_history_all (cap : Nat) (garbage : Nat → Nat) (os : List Op2) (hl : LegalRun2 cap ⟨[], false⟩ os) :
    ∃ s0 s, make cap garbage = .ok s0 ∧ run2 s0 os = .ok s ∧ chars s = (Spec.run2 cap ⟨[], false⟩ os).chars ∧ s.trunc = (Spec.run2 cap ⟨[], false⟩ os).flag ∧
      s.size = (chars s).length ∧ s.size ≤ cap ∧ s.buf s.size = 0 := by
  obtain ⟨s0, h1, h2, h3, h4, _⟩ := make_ok cap garbage
  obtain ⟨s, g1, g2, g3, g4, _⟩ := run2_ok os s0 ⟨[], false⟩ h3 h4 (by rw [h2]; exact hl)
  rw [h2] at g2 g3 g4
  exact ⟨s0, s, h1, g1, g3.chars, g4, by rw [g3.chars]; exact g3.len, by have := g3.fits; rw [g2] at this; rw [g3.len]; exact this, rep_zero g3⟩

/-- C60: after `set_secure` and a call that replaces or resizes the content, no character that is not in the string is left in its memory, whatever was there before and whatever is called afterwards, `uninitialized_resize` apart. -/
theorem C60_secure_all (cap : Nat) (garbage : Nat → Nat) {os1 os2 : List Op2} {w : Op2} (hw : w.wipes cap = true) (hq : ∀ o ∈ os2, o.Quiet) (hl : LegalRun2 cap ⟨[], false⟩ (os1 ++ .base .setSecure :: w :: os2)) :
    ∃ s0 s, make cap garbage = .ok s0 ∧ run2 s0 (os1 ++ .base .setSecure :: w :: os2) = .ok s ∧ ∀ i, s.size ≤ i → i < cap → s.buf i = 0 := by
  obtain ⟨s0, k1, k2, k3, k4, _⟩ := make_ok cap garbage
  rw [legal2_append] at hl
  obtain ⟨l1, l2, l3, l4⟩ := hl
  obtain ⟨s1, g1, g2, g3, g4, _⟩ := run2_ok os1 s0 ⟨[], false⟩ k3 k4 (by rw [k2]; exact l1)
  rw [k2] at g2 g3 g4
  obtain ⟨r2, e2, d2⟩ := exec2_ok g3 g4 (.base .setSecure) l2
  have hr2 : r2 = some { s1 with secure := true } := by
    have : exec2 s1 (.base .setSecure) = .ok (some { s1 with secure := true }) := rfl
    rw [e2] at this; injection this
  obtain ⟨dc, dr, df, -, -, -⟩ := d2
  rw [g2] at dr df
  have hc2 : (r2.getD s1).cap = cap := dc.trans g2
  have hs2 : (r2.getD s1).secure = true := by rw [hr2]; rfl
  have run_step : ∀ (s : St) (r : Option St) (o : Op2) (os : List Op2), exec2 s o = .ok r → run2 s (o :: os) = run2 (r.getD s) os := by
    intro s r o os h
    simp only [run2, h]
    cases r <;> rfl
  obtain ⟨r3, e3, d3⟩ := exec2_ok dr df w l3
  have hs3 := d3.sec hs2
  have cl3 := d3.wipe (by rw [hc2]; exact hw) hs2
  obtain ⟨dc3, dr3, df3, -, -, -⟩ := d3
  rw [hc2] at dr3 df3
  have hc3 : (r3.getD (r2.getD s1)).cap = cap := dc3.trans hc2
  obtain ⟨s4, f1, f2, f3, f4, f5, f6⟩ := run2_ok os2 _ _ dr3 df3 (by rw [hc3]; exact l4)
  exact ⟨s0, s4, k1, by rw [run2_append, g1]; show run2 s1 _ = _; rw [run_step s1 r2 _ _ e2, run_step _ r3 _ _ e3]; exact f1, fun i h5 h6 => f6 hq hs3 cl3 i h5 (by rw [f2, hc3]; exact h6)⟩

/-- a history of all kinds of calls, with an error in between -/
def tour : List Op2 := [.base (.assign [9, 9, 9, 9, 9, 9, 9] false false), .base .setSecure, .overwrite 5 [1, 2, 3], .part [7, 8] [0, 0] 3 none false false, .base (.push 4), .fill 6, .initFree, .base (.append [5] false)]
example : (match make 8 (fun _ => 63) with
    | .error _ => none
    | .ok s => match run2 s tour with
      | .error _ => none
      | .ok s => some (chars s, s.trunc, (List.range 9).map s.buf)) = some ([6, 6, 6, 6, 5], false, [6, 6, 6, 6, 5, 0, 0, 0, 0]) := by decide +kernel
example : LegalRun2 8 ⟨[], false⟩ tour := by
  refine ⟨trivial, trivial, trivial, ?_, trivial, trivial, trivial, trivial, trivial⟩
  intro n h; cases h
/-- the hypotheses of the theorem about secure strings are met -/
example : LegalRun2 8 ⟨[], false⟩ ([.base (.assign [9, 9, 9, 9] false false)] ++ .base .setSecure :: .overwrite 5 [1, 2] :: [.fill 6, .shrink 1, .initFree]) := ⟨trivial, trivial, trivial, trivial, (by decide : 1 ≤ 2), trivial, trivial⟩

end Etl.Str
