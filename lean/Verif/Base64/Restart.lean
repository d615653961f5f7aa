import Verif.Base64.Decode

/-!
# C22: after `restart()` a decoder is as new, and so is an encoder that has not overflowed

What was delivered before stays delivered: the spans of the later calls follow the earlier ones.
-/
namespace Etl.Base64

variable {α : Type}

/-- Earlier deliveries put in front. -/
def Out.after (es : List (List α)) (o : Out α) : Out α := { o with emitted := es ++ o.emitted }
def Dec.after (es : List (List Byte)) (d : Dec) : Dec := { d with out := d.out.after es }
def Enc.after (es : List (List Char)) (e : Enc) : Enc := { e with out := e.out.after es }

theorem push_after (es : List (List α)) (o : Out α) (c : α) : push (o.after es) c = (push o c).after es := by unfold push Out.after; dsimp only; split <;> rfl
theorem sendIfFull_after (es : List (List α)) (o : Out α) : sendIfFull (o.after es) = (sendIfFull o).after es := by
  unfold sendIfFull Out.after; dsimp only
  split
  · split
    · simp
    · rfl
  · rfl
theorem sendFinal_after (es : List (List α)) (o : Out α) : sendFinal (o.after es) = (sendFinal o).after es := by
  unfold sendFinal Out.after; dsimp only
  split
  · split <;> simp
  · rfl

theorem dpush_after (es : List (List Byte)) (d : Dec) (x : Nat) : (d.after es).push x = (d.push x).after es := by unfold Dec.push Dec.after; dsimp only; rw [push_after]
theorem getIndex_after (es : List (List Byte)) (d : Dec) (c : Char) : getIndex (d.after es) c = ((getIndex d c).1.after es, (getIndex d c).2) := by unfold getIndex Dec.after; dsimp only; split <;> rfl

theorem decodeBlock_after (es : List (List Byte)) (d : Dec) : decodeBlock (d.after es) = ((decodeBlock d).1.after es, (decodeBlock d).2) := by
  have key : ∀ X : Dec, (X.after es, !(X.after es).invalid && !(X.after es).out.overflowed) = (X.after es, !X.invalid && !X.out.overflowed) := fun _ => rfl
  unfold decodeBlock
  have hi : (d.after es).inp = d.inp := rfl
  rw [hi]
  match d.inp with
  | [] => rfl
  | [_] => rfl
  | [a, b] => simp only [getIndex_after, dpush_after]; exact key _
  | [a, b, c] => simp only [getIndex_after, dpush_after]; exact key _
  | [a, b, c, e] => simp only [getIndex_after, dpush_after]; exact key _
  | _ :: _ :: _ :: _ :: _ :: _ => rfl

theorem decode1_after (es : List (List Byte)) (d : Dec) (c : Char) : decode1 (d.after es) c = (decode1 d c).map fun r => (r.1.after es, r.2) := by
  have hp : pushIn (d.after es) c = (pushIn d c).map (Dec.after es) := by
    unfold pushIn Dec.after; dsimp only; split
    · rfl
    · split
      · rfl
      · split <;> rfl
  unfold decode1
  rw [hp]
  cases hq : pushIn d c with
  | error u => rfl
  | ok d' =>
    simp only [Except.map]
    have hi : (d'.after es).inp = d'.inp := rfl
    rw [hi]
    by_cases h4 : d'.inp.length = 4
    · rw [if_pos h4, if_pos h4, decodeBlock_after]
      dsimp only
      by_cases hk : (decodeBlock d').2 = true
      · rw [if_pos hk, if_pos hk]
        have : sendIfFull ((decodeBlock d').1.after es).out = (sendIfFull (decodeBlock d').1.out).after es := sendIfFull_after es _
        rw [this]; rfl
      · rw [if_neg hk, if_neg hk]; rfl
    · rw [if_neg h4, if_neg h4]; rfl

theorem decodeRange_after (es : List (List Byte)) (cs : List Char) : ∀ d : Dec, decodeRange (d.after es) cs = (decodeRange d cs).map fun r => (r.1.after es, r.2) := by
  induction cs with
  | nil => intro d; rfl
  | cons c cs ih =>
    intro d
    simp only [decodeRange]
    rw [decode1_after]
    match decode1 d c with
    | .error u => rfl
    | .ok (d', false) => rfl
    | .ok (d', true) => exact ih d'

theorem flushDec_after (es : List (List Byte)) (d : Dec) : flushDec (d.after es) = ((flushDec d).1.after es, (flushDec d).2) := by
  unfold flushDec
  rw [decodeBlock_after]
  dsimp only
  by_cases hk : (decodeBlock d).2 = true
  · rw [if_pos hk, if_pos hk]
    have : sendFinal ((decodeBlock d).1.after es).out = (sendFinal (decodeBlock d).1.out).after es := sendFinal_after es _
    rw [this]; rfl
  · rw [if_neg hk, if_neg hk]; rfl

theorem decodeAll_after (es : List (List Byte)) (ps : List (List Char)) : ∀ d : Dec, decodeAll (d.after es) ps = (decodeAll d ps).map fun r => (r.1.after es, r.2) := by
  induction ps with
  | nil => intro d; simp only [decodeAll, flushDec_after]; rfl
  | cons p ps ih =>
    intro d
    simp only [decodeAll]
    rw [decodeRange_after]
    match decodeRange d p with
    | .error u => rfl
    | .ok (d', false) => rfl
    | .ok (d', true) => exact ih d'

theorem encodeBlock_after (es : List (List Char)) (e : Enc) : encodeBlock (e.after es) = ((encodeBlock e).1.after es, (encodeBlock e).2) := by
  have hp : ∀ (e : Enc) (c : Char), (e.after es).push c = (e.push c).after es := fun e c => by unfold Enc.push Enc.after; dsimp only; rw [push_after]
  have ha : ∀ (e : Enc) (i : Nat), (e.after es).at i = e.at i := fun e i => rfl
  have hd : ∀ e : Enc, (e.after es).pad = e.pad := fun e => rfl
  have key : ∀ X : Enc, (X.after es, !(X.after es).out.overflowed) = (X.after es, !X.out.overflowed) := fun _ => rfl
  unfold encodeBlock
  have hi : (e.after es).inp = e.inp := rfl
  rw [hi]
  match e.inp with
  | [] => rfl
  | [a] => simp only [hp, ha, hd]; split <;> exact key _
  | [a, b] => simp only [hp, ha, hd]; split <;> exact key _
  | [a, b, c] => simp only [hp, ha]; exact key _
  | _ :: _ :: _ :: _ :: _ => rfl

theorem encode1_after (es : List (List Char)) (e : Enc) (b : Byte) : encode1 (e.after es) b = (encode1 e b).map fun r => (r.1.after es, r.2) := by
  unfold encode1
  have hi : (e.after es).inp = e.inp := rfl
  rw [hi]
  by_cases h3 : e.inp.length ≥ 3
  · rw [if_pos h3, if_pos h3]; rfl
  · rw [if_neg h3, if_neg h3]
    have he : ({ e.after es with inp := e.inp ++ [b] } : Enc) = ({ e with inp := e.inp ++ [b] } : Enc).after es := rfl
    rw [he]
    generalize ({ e with inp := e.inp ++ [b] } : Enc) = f
    have hf : (f.after es).inp = f.inp := rfl
    dsimp only
    rw [hf]
    by_cases h4 : f.inp.length = 3
    · rw [if_pos h4, if_pos h4, encodeBlock_after]
      have : sendIfFull ((encodeBlock f).1.after es).out = (sendIfFull (encodeBlock f).1.out).after es := sendIfFull_after es _
      dsimp only
      rw [this]; rfl
    · rw [if_neg h4, if_neg h4]; rfl

theorem encodeRange_after (es : List (List Char)) (bs : List Byte) : ∀ e : Enc, encodeRange (e.after es) bs = (encodeRange e bs).map fun r => (r.1.after es, r.2) := by
  induction bs with
  | nil => intro e; rfl
  | cons b bs ih =>
    intro e
    simp only [encodeRange]
    rw [encode1_after]
    match encode1 e b with
    | .error u => rfl
    | .ok (e', false) => rfl
    | .ok (e', true) => exact ih e'

theorem flushEnc_after (es : List (List Char)) (e : Enc) : flushEnc (e.after es) = ((flushEnc e).1.after es, (flushEnc e).2) := by
  unfold flushEnc
  rw [encodeBlock_after]
  dsimp only
  by_cases hk : (encodeBlock e).2 = true
  · rw [if_pos hk, if_pos hk]
    have : sendFinal ((encodeBlock e).1.after es).out = (sendFinal (encodeBlock e).1.out).after es := sendFinal_after es _
    rw [this]; rfl
  · rw [if_neg hk, if_neg hk]; rfl

theorem encodeAll_after (es : List (List Char)) (ps : List (List Byte)) : ∀ e : Enc, encodeAll (e.after es) ps = (encodeAll e ps).map fun r => (r.1.after es, r.2) := by
  induction ps with
  | nil => intro e; simp only [encodeAll, flushEnc_after]; rfl
  | cons p ps ih =>
    intro e
    simp only [encodeAll]
    rw [encodeRange_after]
    match encodeRange e p with
    | .error u => rfl
    | .ok (e', false) => rfl
    | .ok (e', true) => exact ih e'

/-- C22, decoder, reuse: whatever a decoder has been through (invalid text, a full buffer, an unfinished block, padding), after `restart()` the next text in any pieces is accepted exactly if a new decoder with the same
table, buffer and callback accepts it, with the same bytes in the buffer and the same spans delivered after the earlier ones. -/
theorem C22_decoder_restart (d : Dec) (pieces : List (List Char)) :
    decodeAll (restartDec d) pieces = (decodeAll (decoder d.table d.out.max d.out.cb) pieces).map fun r => ({ r.1 with out := { r.1.out with emitted := d.out.emitted ++ r.1.out.emitted } }, r.2) := by
  have : restartDec d = (decoder d.table d.out.max d.out.cb).after d.out.emitted := by
    unfold restartDec decoder Dec.after Out.after; simp
  rw [this, decodeAll_after]; rfl

/-- C22, encoder, reuse (partial): the same for an encoder that has not overflowed.  Missing, because false: after an overflow (`encoder_restart_keeps_overflow`). -/
theorem C22_encoder_restart_partial (e : Enc) (h : e.out.overflowed = false) (pieces : List (List Byte)) :
    encodeAll (restartEnc e) pieces = (encodeAll (encoder e.table e.pad e.out.max e.out.cb) pieces).map fun r => ({ r.1 with out := { r.1.out with emitted := e.out.emitted ++ r.1.out.emitted } }, r.2) := by
  have : restartEnc e = (encoder e.table e.pad e.out.max e.out.cb).after e.out.emitted := by
    unfold restartEnc encoder Enc.after Out.after; simp [h]
  rw [this, encodeAll_after]; rfl

example : ∃ d, decodeAll (decoder charset1 3 false) ["Zm9vYmE=".toList] = .ok (d, false) ∧ d.error = true ∧ ∃ d', decodeAll (restartDec d) ["Zm8=".toList] = .ok (d', true) ∧ d'.out.buf = [0x66, 0x6f] :=
  ⟨_, by rfl, by rfl, _, by rfl, by rfl⟩

end Etl.Base64
