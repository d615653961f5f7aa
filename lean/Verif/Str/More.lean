import Verif.Str.Props

/-!
# C37, C60: the calls of etl::string outside the histories

`assign` of a part, `uninitialized_resize`, `resize_and_overwrite`, `fill`, `initialize_free_space`, `compare` of a part with a view.
-/
namespace Etl.Str

/-- C37: `assign(other, position, length)` with a part that lies in the other string is the assignment of that part; a position behind the end of the other string raises the error.  `mem` is the memory of the other string, of which the first `osize` are its characters. -/
theorem C37_assign_part {cap : Nat} {os : List Op} {s : St} (_h : After cap os s) (mem : List Nat) (osize sub : Nat) (len : Option Nat) (t sec : Bool) (hm : osize ≤ mem.length) (hin : ∀ n, len = some n → sub + n ≤ osize ∨ osize < sub) :
    (if sub ≤ osize then ∃ s', assignSub s mem osize sub len t sec = .ok (some s') ∧ chars s' = (part (mem.take osize) sub len).take s.cap ∧
        s'.trunc = (decide (s.cap < (part (mem.take osize) sub len).length) || t) ∧ s'.secure = (s.secure || sec) ∧ s'.cap = s.cap ∧ s'.buf s'.size = 0
      else assignSub s mem osize sub len t sec = .ok none) := by
  unfold assignSub
  split
  · next hs =>
    have hlen : sub + len.getD (osize - sub) ≤ osize := by
      cases len with
      | none => show sub + (osize - sub) ≤ osize; omega
      | some n => rcases hin n rfl with h | h
                  · exact h
                  · omega
    have e : (mem.drop sub).take (len.getD (osize - sub)) = part (mem.take osize) sub len := by
      cases len with
      | none => show (mem.drop sub).take (osize - sub) = (mem.take osize).drop sub; rw [List.drop_take]
      | some n =>
        show (mem.drop sub).take n = ((mem.take osize).drop sub).take n
        have : sub + n ≤ osize := hlen
        rw [List.drop_take, List.take_take, Nat.min_eq_left (by omega)]
    rw [if_pos (by omega), e]
    obtain ⟨s', h1, h2, _⟩ := assign_ok s (part (mem.take osize) sub len) t sec
    rw [h1]
    refine ⟨s', rfl, h2.rep.chars, h2.trunc, h2.sec, h2.cap, ?_⟩
    have := h2.rep.at_ _ (Nat.le_refl _)
    rw [h2.rep.len, this]; exact ch_out (Nat.le_refl _)
  · rfl

/-- C37: `uninitialized_resize` leaves the characters that fit, `min n N` characters in all, a null behind them, and the flags. -/
theorem C37_uninitialized_resize {cap : Nat} {os : List Op} {s : St} (h : After cap os s) (n : Nat) :
    ∃ s', uninitializedResize s n = .ok s' ∧ (chars s').length = min n cap ∧ (chars s').take (min n (chars s).length) = (chars s).take (min n cap) ∧
      s'.buf (min n cap) = 0 ∧ s'.size = min n cap ∧ s'.trunc = s.trunc ∧ s'.secure = s.secure ∧ s'.cap = s.cap := by
  obtain ⟨hr, hc, _⟩ := h.rep
  have hl := hr.len
  have hf := hr.fits
  unfold uninitializedResize
  rw [put_ok (s := { s with size := min n s.cap }) (show min n s.cap ≤ s.cap by omega)]
  refine ⟨_, rfl, ?_, ?_, ?_, ?_, rfl, rfl, rfl⟩
  · simp [chars, slice]; omega
  · refine List.ext_getElem? ?_
    intro i
    rw [List.getElem?_take, List.getElem?_take]
    show (if i < min n (chars s).length then ((List.range (min n s.cap)).map (fun i => upd s.buf (min n s.cap) 0 (0 + i)))[i]? else none) = _
    by_cases hi : i < min n (chars s).length
    · rw [if_pos hi, if_pos (by omega), List.getElem?_map, List.getElem?_range (by omega)]
      show some (upd s.buf (min n s.cap) 0 (0 + i)) = _
      rw [Nat.zero_add, upd_other _ _ (by omega), hr.at_ i (by omega), ch_get (by omega)]
    · rw [if_neg hi]
      by_cases hi2 : i < min n cap
      · rw [if_pos hi2, List.getElem?_eq_none (by omega)]
      · rw [if_neg hi2]
  · show upd s.buf (min n s.cap) 0 (min n cap) = 0
    rw [hc, upd_same]
  · show min n s.cap = _; rw [hc]

/-- C37: `fill` makes every character the given one and changes nothing else. -/
theorem C37_fill {cap : Nat} {os : List Op} {s : St} (h : After cap os s) (c : Nat) :
    ∃ s', fillAll s c = .ok s' ∧ chars s' = List.replicate (chars s).length c ∧ s'.buf s'.size = 0 ∧ s'.trunc = s.trunc ∧ s'.secure = s.secure ∧ s'.cap = s.cap := by
  obtain ⟨hr, hc, _⟩ := h.rep
  have hl := hr.len
  have hf := hr.fits
  obtain ⟨b, h1, h2⟩ := fill_ok c s.size 0 s (by omega)
  refine ⟨{ s with buf := b }, h1, ?_, ?_, rfl, rfl, rfl⟩
  · refine List.ext_getElem? ?_
    intro i
    show ((List.range s.size).map (fun i => b (0 + i)))[i]? = _
    rw [List.getElem?_map, List.getElem?_replicate]
    by_cases hi : i < s.size
    · rw [List.getElem?_range hi, if_pos (by omega)]
      show some (b (0 + i)) = _
      rw [h2, if_pos (by omega)]
    · rw [List.getElem?_eq_none (by simpa using hi), if_neg (by omega)]; rfl
  · show b s.size = 0
    rw [h2, if_neg (by omega), hl, hr.at_ _ (Nat.le_refl _)]; exact ch_out (Nat.le_refl _)

/-- C37: `initialize_free_space` sets all memory behind the characters to null, clears the truncation flag and leaves the characters. -/
theorem C37_initialize_free_space {cap : Nat} {os : List Op} {s : St} (h : After cap os s) :
    ∃ s', initializeFreeSpace s = .ok s' ∧ chars s' = chars s ∧ (∀ i, s.size ≤ i → i ≤ cap → s'.buf i = 0) ∧ s'.trunc = false ∧ s'.secure = s.secure ∧ s'.cap = s.cap ∧ s'.size = s.size := by
  obtain ⟨hr, hc, _⟩ := h.rep
  have hl := hr.len
  have hf := hr.fits
  obtain ⟨b, h1, h2⟩ := fill_ok 0 (s.cap + 1 - s.size) s.size { s with trunc := false } (by show s.size + (s.cap + 1 - s.size) ≤ s.cap + 1; omega)
  refine ⟨{ s with buf := b, trunc := false }, h1, ?_, ?_, rfl, rfl, rfl, rfl⟩
  · refine List.map_congr_left ?_
    intro i hi
    rw [List.mem_range] at hi
    show b (0 + i) = s.buf (0 + i)
    rw [h2, if_neg (by have : i < s.size := hi; omega)]
  · intro i h3 h4
    show b i = 0
    rw [h2, if_pos (by omega)]

/-- C37: a part compared with a view: the order of the part and the view, when the part lies in the string. -/
theorem C37_compare_part_view {cap : Nat} {os : List Op} {s : St} (h : After cap os s) (p len : Nat) (l : List Nat) (hp : p + len ≤ (chars s).length) :
    ∃ r, compareView s p len l = .ok r ∧ View.Cmp (fun x y => decide (x < y)) (part (chars s) p (some len)) l r := by
  obtain ⟨hr, hc, _⟩ := h.rep
  have hf := hr.fits
  unfold compareView
  rw [if_pos (by omega), slice_eq hr p len hp]
  exact ⟨_, rfl, View.cmp_lex natTotal (cmp_lexc _ _)⟩

/-- What `resize_and_overwrite` asks of its operation: only the first `n` characters are written, and the size returned is at most `n`. -/
def Overwrites (op : (Nat → Nat) → Nat → (Nat → Nat) × Nat) : Prop := ∀ b n, (op b n).2 ≤ n ∧ ∀ i, n ≤ i → (op b n).1 i = b i

/-- C37, C60: `resize_and_overwrite`: the string holds what the operation wrote, as many characters as it returned, with a null behind; more than the capacity raises the error.  A secure string keeps nothing behind the characters. -/
theorem C37_resize_and_overwrite {cap : Nat} {os : List Op} {s : St} (h : After cap os s) (n : Nat) (op : (Nat → Nat) → Nat → (Nat → Nat) × Nat) (ho : Overwrites op) :
    (if n ≤ cap then ∃ s', resizeAndOverwrite s n op = .ok (some s') ∧ chars s' = (List.range (op s.buf n).2).map (op s.buf n).1 ∧ s'.buf s'.size = 0 ∧ s'.trunc = s.trunc ∧ s'.cap = s.cap ∧ s'.secure = s.secure ∧
        (s.secure = true → ∀ i, s'.size ≤ i → i < cap → s'.buf i = 0)
      else resizeAndOverwrite s n op = .ok none) := by
  obtain ⟨_, hc, _⟩ := h.rep
  obtain ⟨hn, _⟩ := ho s.buf n
  unfold resizeAndOverwrite
  split
  · next hle =>
    rw [if_neg (by omega), put_ok (s := { s with buf := (op s.buf n).1, size := (op s.buf n).2 }) (show (op s.buf n).2 ≤ s.cap by omega)]
    have hrep : Rep { s with buf := upd (op s.buf n).1 (op s.buf n).2 0, size := (op s.buf n).2 } ((List.range (op s.buf n).2).map (op s.buf n).1) := by
      refine ⟨?_, ?_, ?_⟩
      · show (op s.buf n).2 = _; simp
      · show _ ≤ s.cap; simp; omega
      · intro i hi
        show upd (op s.buf n).1 (op s.buf n).2 0 i = _
        have hi' : i ≤ (op s.buf n).2 := by simpa using hi
        by_cases e : i = (op s.buf n).2
        · rw [e, upd_same]; exact (ch_out (by simp)).symm
        · rw [upd_other _ _ e]; unfold ch; rw [List.getElem?_map, List.getElem?_range (by omega)]; rfl
    obtain ⟨b, h1, h2, h3⟩ := cleanup_ok hrep
    dsimp only
    rw [h1]
    refine ⟨_, rfl, h2.chars, ?_, rfl, rfl, rfl, ?_⟩
    · have := h2.at_ _ (Nat.le_refl _)
      rw [← h2.len] at this
      rw [this]; exact ch_out (by rw [← h2.len])
    · intro hs i g1 g2
      exact h3 (.inl hs) i g1 (by show i < s.cap; omega)
  · rw [if_pos (by omega)]

/-- the operation that writes `l` and returns its length, cut to the room -/
def writeOp (l : List Nat) (b : Nat → Nat) (n : Nat) : (Nat → Nat) × Nat := (fun i => if i < min n l.length then ch l i else b i, min n l.length)
/-- a lawful operation exists, -/
theorem writeOp_ok (l : List Nat) : Overwrites (writeOp l) := fun _ n => ⟨Nat.min_le_left _ _, fun _ hi => if_neg (by omega)⟩
/-- the calls on strings a history leaves, -/
def after (os : List Op) (f : St → Res (Option St)) : Option (Option (List Nat × Bool)) := match from_ 8 os with
  | .error _ => none
  | .ok s => match f s with
    | .error _ => none
    | .ok r => some (r.map fun s => (chars s, s.trunc))
example : after [.assign [1, 2, 3] false false] (fun s => assignSub s [7, 8, 9, 0, 5] 3 1 (some 2) true false) = some (some ([8, 9], true)) ∧
    after [.assign [1, 2, 3] false false] (fun s => assignSub s [7, 8, 9, 0, 5] 3 4 (some 2) true false) = some none ∧
    after [.assign [1, 2, 3] false false] (fun s => lift (uninitializedResize s 2)) = some (some ([1, 2], false)) ∧
    after [.assign [1, 2, 3] false false] (fun s => lift (fillAll s 6)) = some (some ([6, 6, 6], false)) ∧
    after [.assign [1, 2, 3, 4, 5, 6, 7, 8, 9] false false] (fun s => lift (initializeFreeSpace s)) = some (some ([1, 2, 3, 4, 5, 6, 7, 8], false)) ∧
    after [.assign [1, 2, 3] false false] (fun s => resizeAndOverwrite s 5 (writeOp [4, 5])) = some (some ([4, 5], false)) ∧
    after [.assign [1, 2, 3] false false] (fun s => resizeAndOverwrite s 9 (writeOp [4, 5])) = some none := by
  refine ⟨?_, ?_, ?_, ?_, ?_, ?_, ?_⟩ <;> decide +kernel

/-- `uninitialized_resize` of a secure string leaves the characters it drops in the memory. -/
theorem C60_finding_uninitialized_resize : (match from_ 8 [.setSecure, .assign [1, 2, 3] false false] with
    | .ok s => (match uninitializedResize s 1 with
      | .ok s => some (s.secure, s.size, s.buf 2)
      | _ => none)
    | .error _ => none) = some (true, 1, 3) := by decide +kernel
/-- `resize_and_overwrite` with an operation that returns too much: the terminator is written behind the buffer. -/
theorem C37_finding_resize_and_overwrite : (match from_ 8 [] with
    | .ok s => (match resizeAndOverwrite s 4 (fun b _ => (b, 9)) with
      | .error _ => true
      | .ok _ => false)
    | .error _ => false) = true := by decide +kernel

end Etl.Str
