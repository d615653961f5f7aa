import Verif.Str.Model
import Verif.View.Props
import Mathlib.Tactic.ByContra
import Mathlib.Tactic.SplitIfs
import Mathlib.Tactic.Set
import Mathlib.Tactic.Tauto

/-!
# C37: etl::string against strings without a bound; C60: secure strings

An ideal string is a list of characters.  The etl::string of capacity `N` holds the first `N` characters of what the ideal operation gives, its flag tells that characters were lost, and behind the characters there is a null.
-/
namespace Etl.Str

/-! ### Specification -/

/-- The operations.  `t` is the truncation flag of a string as source (`false` for pointers, views, ranges), `sec` its security flag.  `len = none` is `npos`.  `ins`, `insN`, `ins1`, `del`, `del1` take iterators: the index must be right;
the others take positions, which are checked. -/
inductive Op where
  | assign (l : List Nat) (t sec : Bool)
  | assignN (n c : Nat)
  | clear
  | clearFlag
  | setSecure
  | push (c : Nat)
  | pop
  | resize (n c : Nat)
  | ins1 (p c : Nat)
  | insN (p n c : Nat)
  | ins (p : Nat) (l : List Nat)
  | insertAt (p : Nat) (l : List Nat) (t : Bool)
  | insertSub (p : Nat) (l : List Nat) (sub : Nat) (len : Option Nat) (t : Bool)
  | insertAtN (p n c : Nat)
  | append (l : List Nat) (t : Bool)
  | appendN (n c : Nat)
  | del1 (p : Nat)
  | del (a b : Nat)
  | erase (p : Nat) (len : Option Nat)
  | replace (p : Nat) (len : Option Nat) (l : List Nat) (t : Bool)
  | replaceSub (p : Nat) (len : Option Nat) (l : List Nat) (sub : Nat) (sublen : Option Nat) (t : Bool)
  | replaceN (p : Nat) (len : Option Nat) (n c : Nat)

/-- a part of a list; `none` is "to the end" -/
def part (l : List Nat) (p : Nat) (len : Option Nat) : List Nat := match len with
  | none => l.drop p
  | some n => (l.drop p).take n
/-- put `m` in the place of the `len` characters from `p` on -/
def splice (l : List Nat) (p : Nat) (len : Option Nat) (m : List Nat) : List Nat := l.take p ++ m ++ (match len with
  | none => []
  | some n => l.drop (p + n))

/-- What the operation does to a string without a bound. -/
def Op.ideal (l : List Nat) : Op → List Nat
  | .assign m _ _ => m
  | .assignN n c => List.replicate n c
  | .clear => []
  | .clearFlag => l
  | .setSecure => l
  | .push c => l ++ [c]
  | .pop => l.dropLast
  | .resize n c => l.take n ++ List.replicate (n - l.length) c
  | .ins1 p c => splice l p (some 0) [c]
  | .insN p n c => splice l p (some 0) (List.replicate n c)
  | .ins p m => splice l p (some 0) m
  | .insertAt p m _ => splice l p (some 0) m
  | .insertSub p m sub len _ => splice l p (some 0) (part m sub len)
  | .insertAtN p n c => splice l p (some 0) (List.replicate n c)
  | .append m _ => l ++ m
  | .appendN n c => l ++ List.replicate n c
  | .del1 p => splice l p (some 1) []
  | .del a b => splice l a (some (b - a)) []
  | .erase p len => splice l p len []
  | .replace p len m _ => splice l p len m
  | .replaceSub p len m sub sublen _ => splice l p len (part m sub sublen)
  | .replaceN p len n c => splice l p len (List.replicate n c)
/-- the truncation flag of the source -/
def Op.inherited : Op → Bool
  | .assign _ t _ | .insertAt _ _ t | .insertSub _ _ _ _ t | .append _ t | .replace _ _ _ t | .replaceSub _ _ _ _ _ t => t
  | _ => false
/-- the operations that begin with a clean flag -/
def Op.fresh : Op → Bool
  | .assign _ _ _ | .assignN _ _ | .clear | .clearFlag => true
  | _ => false
/-- iterators must point into the string, an erased position must exist -/
def Op.Legal (l : List Nat) : Op → Prop
  | .ins1 p _ | .insN p _ _ | .ins p _ => p ≤ l.length
  | .del1 p => p < l.length
  | .del a b => a ≤ b ∧ b ≤ l.length
  | .erase p _ => p ≤ l.length
  | _ => True
/-- the checked positions: otherwise `string_out_of_bounds` -/
def Op.Checked (l : List Nat) : Op → Bool
  | .insertAt p _ _ | .insertAtN p _ _ | .replace p _ _ _ | .replaceN p _ _ _ => decide (p ≤ l.length)
  | .insertSub p m sub _ _ | .replaceSub p _ m sub _ _ => decide (p ≤ l.length) && decide (sub ≤ m.length)
  | _ => true

/-- a bounded string with a flag -/
structure Spec where
  chars : List Nat
  flag : Bool
def Spec.step (N : Nat) (x : Spec) (o : Op) : Spec :=
  if o.Checked x.chars then ⟨(o.ideal x.chars).take N, (x.flag && !o.fresh) || decide (N < (o.ideal x.chars).length) || o.inherited⟩ else x
def Spec.run (N : Nat) : Spec → List Op → Spec
  | x, [] => x
  | x, o :: os => Spec.run N (x.step N o) os
def LegalRun (N : Nat) : Spec → List Op → Prop
  | _, [] => True
  | x, o :: os => o.Legal x.chars ∧ LegalRun N (x.step N o) os

/-! ### The calls on the model -/

def lift (r : Res St) : Res (Option St) := match r with
  | .error u => .error u
  | .ok s => .ok (some s)
/-- `none`: an error was raised -/
def exec? (s : St) : Op → Res (Option St)
  | .assign l t sec => lift (assign s l t sec)
  | .assignN n c => lift (assignN s n c)
  | .clear => lift (clear s)
  | .clearFlag => .ok (some { s with trunc := false })
  | .setSecure => .ok (some { s with secure := true })
  | .push c => lift (pushBack s c)
  | .pop => lift (popBack s)
  | .resize n c => lift (resize s n c)
  | .ins1 p c => lift (insertOne s p c)
  | .insN p n c => lift (insertN s p n c)
  | .ins p l => lift (insertRange s p l.length (.ext l))
  | .insertAt p l t => insertAt s p l t
  | .insertSub p l sub len t => insertSub s p l sub len t
  | .insertAtN p n c => insertAtN s p n c
  | .append l t => insertAt s s.size l t
  | .appendN n c => insertAtN s s.size n c
  | .del1 p => lift (eraseOne s p)
  | .del a b => lift (eraseRange s a b)
  | .erase p len => lift (erase s p len)
  | .replace p len l t => replace s p len l t
  | .replaceSub p len l sub sublen t => replaceSub s p len l sub sublen t
  | .replaceN p len n c => replaceN s p len n c
/-- a history: after an error the string is as before -/
def run (s : St) : List Op → Res St
  | [] => .ok s
  | o :: os => match exec? s o with
    | .error u => .error u
    | .ok none => run s os
    | .ok (some s) => run s os

/-! ### Characters of lists -/

def ch (l : List Nat) (i : Nat) : Nat := (l[i]?).getD 0
theorem ch_append (a b : List Nat) (i : Nat) : ch (a ++ b) i = if i < a.length then ch a i else ch b (i - a.length) := by
  unfold ch; rw [List.getElem?_append]; split_ifs <;> rfl
theorem ch_take (l : List Nat) (n i : Nat) : ch (l.take n) i = if i < n then ch l i else 0 := by
  unfold ch; rw [List.getElem?_take]; split_ifs <;> rfl
theorem ch_drop (l : List Nat) (n i : Nat) : ch (l.drop n) i = ch l (n + i) := by unfold ch; rw [List.getElem?_drop]
theorem ch_replicate (n c i : Nat) : ch (List.replicate n c) i = if i < n then c else 0 := by
  unfold ch; rw [List.getElem?_replicate]; split_ifs <;> rfl
theorem ch_out {l : List Nat} {i : Nat} (h : l.length ≤ i) : ch l i = 0 := by unfold ch; rw [List.getElem?_eq_none h]; rfl
theorem ch_nil (i : Nat) : ch [] i = 0 := ch_out (by simp)
theorem ch_dropLast (l : List Nat) (i : Nat) : ch l.dropLast i = if i < l.length - 1 then ch l i else 0 := by
  rw [List.dropLast_eq_take, ch_take]
theorem ch_get {l : List Nat} {i : Nat} (h : i < l.length) : l[i]? = some (ch l i) := by unfold ch; rw [List.getElem?_eq_getElem h]; rfl

/-- the string holds the list and the null behind it -/
structure Rep (s : St) (l : List Nat) : Prop where
  len : s.size = l.length
  fits : l.length ≤ s.cap
  at_ : ∀ i, i ≤ l.length → s.buf i = ch l i

theorem Rep.chars {s : St} {l : List Nat} (h : Rep s l) : chars s = l := by
  unfold Str.chars slice
  refine List.ext_getElem? ?_
  intro i
  rw [List.getElem?_map, h.len]
  by_cases hi : i < l.length
  · rw [List.getElem?_range hi, ch_get hi]
    show some (s.buf (0 + i)) = _
    rw [Nat.zero_add, h.at_ i (by omega)]
  · rw [List.getElem?_eq_none (by simpa using hi), List.getElem?_eq_none (by omega)]; rfl

/-! ### The loops -/

variable {s : St}

theorem fill_ok (v n : Nat) : ∀ (p : Nat) (s : St), p + n ≤ s.cap + 1 → ∃ b, fillLoop v n p s = .ok { s with buf := b } ∧ ∀ i, b i = if p ≤ i ∧ i < p + n then v else s.buf i := by
  induction n with
  | zero => intro p s _; exact ⟨s.buf, rfl, fun i => by rw [if_neg (by omega)]⟩
  | succ n ih =>
    intro p s h
    obtain ⟨b, h1, h2⟩ := ih (p + 1) { s with buf := upd s.buf p v } (by show p + 1 + n ≤ s.cap + 1; omega)
    refine ⟨b, ?_, ?_⟩
    · simp only [fillLoop, put]; rw [if_pos (by omega)]; exact h1
    · intro i; rw [h2 i]
      by_cases hi : i = p
      · subst hi; rw [if_neg (by omega), if_pos (by omega)]; exact upd_same _ _ _
      · have : (upd s.buf p v) i = s.buf i := upd_other _ _ hi
        by_cases hc : p + 1 ≤ i ∧ i < p + 1 + n
        · rw [if_pos hc, if_pos (by omega)]
        · rw [if_neg hc, if_neg (by omega)]; exact this

theorem copy_ok (n : Nat) : ∀ (src dst : Nat) (s : St), dst < src → src + n ≤ s.cap + 1 → ∃ b, copyLoop n src dst s = .ok { s with buf := b } ∧ ∀ i, b i = if dst ≤ i ∧ i < dst + n then s.buf (i + (src - dst)) else s.buf i := by
  induction n with
  | zero => intro src dst s _ _; exact ⟨s.buf, rfl, fun i => by rw [if_neg (by omega)]⟩
  | succ n ih =>
    intro src dst s hlt h
    obtain ⟨b, h1, h2⟩ := ih (src + 1) (dst + 1) { s with buf := upd s.buf dst (s.buf src) } (by omega) (by show src + 1 + n ≤ s.cap + 1; omega)
    refine ⟨b, ?_, ?_⟩
    · simp only [copyLoop, put, get]; rw [if_pos (by omega)]; dsimp only; rw [if_pos (by omega)]; exact h1
    · intro i; rw [h2 i]
      by_cases hi : i = dst
      · subst hi; rw [if_neg (by omega), if_pos (by omega), show i + (src - i) = src by omega]; exact upd_same _ _ _
      · by_cases hc : dst + 1 ≤ i ∧ i < dst + 1 + n
        · rw [if_pos hc, if_pos (by omega)]
          show upd s.buf dst (s.buf src) (i + (src + 1 - (dst + 1))) = _
          rw [upd_other _ _ (by omega), show src + 1 - (dst + 1) = src - dst by omega]
        · rw [if_neg hc, if_neg (by omega)]; exact upd_other _ _ hi

theorem back_ok (n : Nat) : ∀ (src dst : Nat) (s : St), src ≤ dst → dst + n ≤ s.cap + 1 → ∃ b, backLoop n src dst s = .ok { s with buf := b } ∧ ∀ i, b i = if dst ≤ i ∧ i < dst + n then s.buf (i - (dst - src)) else s.buf i := by
  induction n with
  | zero => intro src dst s _ _; exact ⟨s.buf, rfl, fun i => by rw [if_neg (by omega)]⟩
  | succ n ih =>
    intro src dst s hle h
    obtain ⟨b, h1, h2⟩ := ih src dst { s with buf := upd s.buf (dst + n) (s.buf (src + n)) } hle (by show dst + n ≤ s.cap + 1; omega)
    refine ⟨b, ?_, ?_⟩
    · simp only [backLoop, put, get]; rw [if_pos (by omega)]; dsimp only; rw [if_pos (by omega)]; exact h1
    · intro i; rw [h2 i]
      by_cases hi : i = dst + n
      · subst hi; rw [if_neg (by omega), if_pos (by omega), show dst + n - (dst - src) = src + n by omega]; exact upd_same _ _ _
      · by_cases hc : dst ≤ i ∧ i < dst + n
        · rw [if_pos hc, if_pos (by omega)]
          show upd s.buf (dst + n) (s.buf (src + n)) (i - (dst - src)) = _
          rw [upd_other _ _ (by omega)]
        · rw [if_neg hc, if_neg (by omega)]; exact upd_other _ _ hi

theorem read_ok (l : List Nat) (n : Nat) : ∀ (i p : Nat) (s : St), i + n ≤ l.length → p + n ≤ s.cap + 1 → ∃ b, readLoop (.ext l) n i p s = .ok { s with buf := b } ∧ ∀ j, b j = if p ≤ j ∧ j < p + n then ch l (i + (j - p)) else s.buf j := by
  induction n with
  | zero => intro i p s _ _; exact ⟨s.buf, rfl, fun j => by rw [if_neg (by omega)]⟩
  | succ n ih =>
    intro i p s hi h
    obtain ⟨b, h1, h2⟩ := ih (i + 1) (p + 1) { s with buf := upd s.buf p (ch l i) } (by omega) (by show p + 1 + n ≤ s.cap + 1; omega)
    refine ⟨b, ?_, ?_⟩
    · simp only [readLoop, Src.get, ch_get (show i < l.length by omega), put]; rw [if_pos (by omega)]; exact h1
    · intro j; rw [h2 j]
      by_cases hj : j = p
      · subst hj; rw [if_neg (by omega), if_pos (by omega), Nat.sub_self]; exact upd_same _ _ _
      · by_cases hc : p + 1 ≤ j ∧ j < p + 1 + n
        · rw [if_pos hc, if_pos (by omega)]; congr 1; omega
        · rw [if_neg hc, if_neg (by omega)]; exact upd_other _ _ hj

/-- what an operation leaves: the capacity, the list, the flags; nothing is left behind the characters of a clean string -/
def Clean (s : St) : Prop := ∀ i, s.size ≤ i → i < s.cap → s.buf i = 0
theorem put_ok {i v : Nat} (h : i ≤ s.cap) : put s i v = .ok { s with buf := upd s.buf i v } := by unfold put; rw [if_pos h]
theorem cleanup_ok {l : List Nat} (h : Rep s l) : ∃ b, cleanup s = .ok { s with buf := b } ∧ Rep { s with buf := b } l ∧ ((s.secure = true ∨ Clean s) → Clean { s with buf := b }) := by
  have hl := h.len
  have hf := h.fits
  unfold cleanup
  by_cases hs : s.secure = true
  · obtain ⟨b, h1, h2⟩ := fill_ok 0 (s.cap - s.size) s.size s (by omega)
    refine ⟨b, by rw [if_pos hs]; exact h1, ⟨hl, hf, ?_⟩, ?_⟩
    · intro i hi
      show b i = _
      rw [h2 i]
      by_cases hc : s.size ≤ i ∧ i < s.size + (s.cap - s.size)
      · rw [if_pos hc, ch_out (by omega)]
      · rw [if_neg hc, h.at_ i hi]
    · intro _ i h3 h4
      show b i = 0
      rw [h2 i, if_pos ⟨h3, by have : i < s.cap := h4; omega⟩]
  · refine ⟨s.buf, by rw [if_neg hs], h, ?_⟩
    rintro (hc | hc)
    · exact absurd hc hs
    · exact hc

structure Post (s : St) (l : List Nat) (f q : Bool) (s' : St) : Prop where
  cap : s'.cap = s.cap
  rep : Rep s' l
  trunc : s'.trunc = f
  sec : s'.secure = q
  clean : s.secure = true → Clean s → Clean s'

theorem initialise_ok (s : St) : ∃ b, initialise s = .ok { s with size := 0, buf := b, trunc := false } ∧ b 0 = 0 ∧ (s.secure = true → ∀ i, i < s.cap → b i = 0) := by
  unfold initialise cleanup
  by_cases hs : s.secure = true
  · obtain ⟨b, h1, h2⟩ := fill_ok 0 (s.cap - 0) 0 { s with size := 0 } (by show 0 + (s.cap - 0) ≤ s.cap + 1; omega)
    refine ⟨upd b 0 0, ?_, upd_same _ _ _, ?_⟩
    · rw [if_pos hs]
      show (match fillLoop 0 (s.cap - 0) 0 { s with size := 0 } with
        | .error u => Except.error u
        | .ok s => _) = _
      rw [h1]
      simp only [put]
      rw [if_pos (Nat.zero_le _)]
    · intro _ i hi
      by_cases h0 : i = 0
      · subst h0; exact upd_same _ _ _
      · rw [upd_other _ _ h0, h2 i, if_pos ⟨Nat.zero_le _, by omega⟩]
  · refine ⟨upd s.buf 0 0, ?_, upd_same _ _ _, fun h => absurd h hs⟩
    rw [if_neg (show ¬ ({ s with size := 0 } : St).secure = true from hs)]
    simp only [put]
    rw [if_pos (Nat.zero_le _)]

theorem assignLoop_ok (l : List Nat) : ∀ (s : St), s.size ≤ s.cap → ∃ b, assignLoop l s = .ok (l.drop (s.cap - s.size), { s with buf := b, size := min s.cap (s.size + l.length) }) ∧
    (∀ i, b i = if s.size ≤ i ∧ i < min s.cap (s.size + l.length) then ch l (i - s.size) else s.buf i) := by
  induction l with
  | nil =>
    intro s h
    have e : min s.cap (s.size + 0) = s.size := by omega
    refine ⟨s.buf, ?_, fun i => by rw [if_neg (by simp only [List.length_nil]; omega)]⟩
    simp only [assignLoop, List.length_nil, e, List.drop_nil]
  | cons v l ih =>
    intro s h
    by_cases hc : s.size ≠ s.cap
    · obtain ⟨b, h1, h2⟩ := ih { s with buf := upd s.buf s.size v, size := s.size + 1 } (by show s.size + 1 ≤ s.cap; omega)
      have e1 : min s.cap (s.size + 1 + l.length) = min s.cap (s.size + (v :: l).length) := by rw [List.length_cons]; omega
      refine ⟨b, ?_, ?_⟩
      · simp only [assignLoop, put]
        rw [if_pos hc, if_pos h]
        simp only
        rw [h1]
        show Except.ok (l.drop (s.cap - (s.size + 1)), _) = _
        rw [show s.cap - s.size = (s.cap - (s.size + 1)) + 1 by omega, List.drop_succ_cons]
        simp only [e1]
      · intro i
        rw [h2 i]
        show (if s.size + 1 ≤ i ∧ i < min s.cap (s.size + 1 + l.length) then ch l (i - (s.size + 1)) else upd s.buf s.size v i) = _
        rw [e1]
        by_cases hi : i = s.size
        · subst hi
          rw [if_neg (by omega), if_pos (by rw [List.length_cons]; omega), upd_same, Nat.sub_self]; rfl
        · rw [upd_other _ _ hi]
          by_cases hh : s.size + 1 ≤ i ∧ i < min s.cap (s.size + (v :: l).length)
          · rw [if_pos hh, if_pos (by omega), show i - s.size = (i - (s.size + 1)) + 1 by omega]; rfl
          · rw [if_neg hh, if_neg (by omega)]
    · have hc' : s.size = s.cap := by omega
      refine ⟨s.buf, ?_, ?_⟩
      · have e : min s.cap (s.size + (v :: l).length) = s.size := by omega
        simp only [assignLoop]
        rw [if_neg hc, e, show s.cap - s.size = 0 by omega, List.drop_zero]
      · intro i; rw [if_neg (by omega)]

theorem assign_ok (s : St) (l : List Nat) (t sec : Bool) : ∃ s', assign s l t sec = .ok s' ∧ Post s (l.take s.cap) (decide (s.cap < l.length) || t) (s.secure || sec) s' ∧ (s'.secure = true → Clean s') := by
  obtain ⟨b, h1, h2, h3⟩ := initialise_ok s
  obtain ⟨b2, g1, g2⟩ := assignLoop_ok l { s with size := 0, buf := b, trunc := false } (Nat.zero_le _)
  have hlen : (l.take s.cap).length = min s.cap (0 + l.length) := by rw [List.length_take]; omega
  have e : (!(l.drop (s.cap - 0)).isEmpty || t) = (decide (s.cap < l.length) || t) := by
    congr 1
    rw [Bool.eq_iff_iff]
    simp only [Bool.not_eq_true', List.isEmpty_eq_false_iff, decide_eq_true_eq, ne_eq, List.drop_eq_nil_iff]
    omega
  have hrep : Rep { s with size := min s.cap (0 + l.length), buf := upd b2 (min s.cap (0 + l.length)) 0, trunc := !(l.drop (s.cap - 0)).isEmpty || t, secure := s.secure || sec } (l.take s.cap) := by
    refine ⟨hlen.symm, by rw [List.length_take]; exact Nat.min_le_left _ _, ?_⟩
    intro i hi
    show upd b2 (min s.cap (0 + l.length)) 0 i = _
    rw [hlen] at hi
    by_cases hj : i = min s.cap (0 + l.length)
    · rw [hj, upd_same, ch_out (by omega)]
    · rw [upd_other _ _ hj, g2 i, ch_take, if_pos (by show 0 ≤ i ∧ i < min s.cap (0 + l.length); omega), if_pos (by omega)]; rfl
  obtain ⟨b3, c1, c2, c3⟩ := cleanup_ok hrep
  refine ⟨{ s with size := min s.cap (0 + l.length), buf := b3, trunc := !(l.drop (s.cap - 0)).isEmpty || t, secure := s.secure || sec }, ?_, ⟨rfl, c2, e, rfl, ?_⟩, ?_⟩
  · unfold assign
    simp only [h1, g1]
    unfold assignEnd put
    rw [if_pos (Nat.min_le_left _ _)]
    exact c1
  · intro hs _
    exact c3 (Or.inl (by show (s.secure || sec) = true; rw [hs]; rfl))
  · intro hs; exact c3 (Or.inl hs)

theorem assignN_ok (s : St) (n c : Nat) : ∃ s', assignN s n c = .ok s' ∧ Post s ((List.replicate n c).take s.cap) (decide (s.cap < n)) s.secure s' ∧ (s'.secure = true → Clean s') := by
  obtain ⟨b, h1, h2, h3⟩ := initialise_ok s
  obtain ⟨b2, g1, g2⟩ := fill_ok c (min n s.cap) 0 { s with size := 0, buf := b, trunc := decide (n > s.cap) } (by show 0 + min n s.cap ≤ s.cap + 1; omega)
  have hc : s.secure = true → Clean { s with size := min n s.cap, buf := upd b2 (min n s.cap) 0, trunc := decide (n > s.cap) } := by
    intro hs i h4 h5
    show upd b2 (min n s.cap) 0 i = 0
    have h4' : min n s.cap ≤ i := h4
    have h5' : i < s.cap := h5
    by_cases hj : i = min n s.cap
    · rw [hj, upd_same]
    · rw [upd_other _ _ hj, g2 i, if_neg (by omega)]; exact h3 hs i h5
  refine ⟨{ s with size := min n s.cap, buf := upd b2 (min n s.cap) 0, trunc := decide (n > s.cap) }, ?_, ⟨rfl, ⟨?_, ?_, ?_⟩, rfl, rfl, fun hs _ => hc hs⟩, hc⟩
  · unfold assignN
    simp only [h1, g1]
    unfold put
    rw [if_pos (Nat.min_le_right _ _)]
  · show min n s.cap = _; rw [List.length_take, List.length_replicate]; omega
  · rw [List.length_take]; exact Nat.min_le_left _ _
  · intro i hi
    show upd b2 (min n s.cap) 0 i = _
    rw [List.length_take, List.length_replicate] at hi
    by_cases hj : i = min n s.cap
    · rw [hj, upd_same, ch_out (by rw [List.length_take, List.length_replicate]; omega)]
    · rw [upd_other _ _ hj, g2 i, if_pos (by omega), ch_take, if_pos (by omega), ch_replicate, if_pos (by omega)]

theorem clear_ok (s : St) : ∃ s', clear s = .ok s' ∧ Post s [] false s.secure s' ∧ (s'.secure = true → Clean s') := by
  obtain ⟨b, h1, h2, h3⟩ := initialise_ok s
  exact ⟨{ s with size := 0, buf := b, trunc := false }, h1, ⟨rfl, ⟨rfl, Nat.zero_le _, fun i hi => by
    have : i = 0 := by simpa using hi
    rw [this, ch_nil]; exact h2⟩, rfl, rfl, fun hs _ i _ hi => h3 hs i hi⟩, fun hs i _ hi => h3 hs i hi⟩

theorem resize_ok {l : List Nat} (h : Rep s l) (n c : Nat) : ∃ s', resize s n c = .ok s' ∧ Post s ((l.take n ++ List.replicate (n - l.length) c).take s.cap) (s.trunc || decide (s.cap < n)) s.secure s' ∧ (s'.secure = true → Clean s') := by
  have hl := h.len
  have hf := h.fits
  have hlen : ((l.take n ++ List.replicate (n - l.length) c).take s.cap).length = min n s.cap := by simp only [List.length_take, List.length_append, List.length_replicate]; omega
  have key : ∃ b, (if min n s.cap > s.size then fillLoop c (min n s.cap - s.size) s.size { s with trunc := s.trunc || decide (n > s.cap) } else .ok { s with trunc := s.trunc || decide (n > s.cap) }) = .ok { s with trunc := s.trunc || decide (n > s.cap), buf := b } ∧
      (∀ i, i < min n s.cap → b i = if i < s.size then s.buf i else c) := by
    by_cases hg : min n s.cap > s.size
    · obtain ⟨b, h1, h2⟩ := fill_ok c (min n s.cap - s.size) s.size { s with trunc := s.trunc || decide (n > s.cap) } (by show s.size + (min n s.cap - s.size) ≤ s.cap + 1; omega)
      refine ⟨b, by rw [if_pos hg]; exact h1, ?_⟩
      intro i hi
      rw [h2 i]
      by_cases hs : i < s.size
      · rw [if_neg (by omega), if_pos hs]
      · rw [if_pos (by omega), if_neg hs]
    · exact ⟨s.buf, by rw [if_neg hg], fun i hi => by rw [if_pos (by omega)]⟩
  obtain ⟨b, k1, k2⟩ := key
  have hrep : Rep { s with trunc := s.trunc || decide (n > s.cap), size := min n s.cap, buf := upd b (min n s.cap) 0 } ((l.take n ++ List.replicate (n - l.length) c).take s.cap) := by
    refine ⟨hlen.symm, by rw [hlen]; exact Nat.min_le_right _ _, ?_⟩
    intro i hi
    rw [hlen] at hi
    show upd b (min n s.cap) 0 i = _
    by_cases hj : i = min n s.cap
    · rw [hj, upd_same, ch_out (by omega)]
    · rw [upd_other _ _ hj, k2 i (by omega), ch_take, ch_append, ch_take, ch_replicate, List.length_take]
      by_cases hs : i < s.size
      · rw [if_pos hs, if_pos (show i < s.cap by omega), if_pos (show i < min n l.length by omega), if_pos (show i < n by omega), h.at_ i (by omega)]
      · rw [if_neg hs, if_pos (show i < s.cap by omega), if_neg (show ¬ i < min n l.length by omega), if_pos (by omega)]
  obtain ⟨b3, c1, c2, c3⟩ := cleanup_ok hrep
  refine ⟨{ s with trunc := s.trunc || decide (n > s.cap), size := min n s.cap, buf := b3 }, ?_, ⟨rfl, c2, rfl, rfl, fun hs _ => c3 (Or.inl hs)⟩, fun hs => c3 (Or.inl hs)⟩
  unfold resize
  rw [k1]
  simp only [put]
  rw [if_pos (Nat.min_le_right _ _)]
  exact c1

theorem push_ok {l : List Nat} (h : Rep s l) (c : Nat) : ∃ s', pushBack s c = .ok s' ∧ Post s ((l ++ [c]).take s.cap) (s.trunc || decide (s.cap < (l ++ [c]).length)) s.secure s' := by
  have hl := h.len
  have hf := h.fits
  have ha : (l ++ [c]).length = l.length + 1 := by simp
  by_cases hc : s.size ≠ s.cap
  · refine ⟨{ s with size := s.size + 1, buf := upd (upd s.buf s.size c) (s.size + 1) 0 }, ?_, ⟨rfl, ⟨?_, ?_, ?_⟩, ?_, rfl, ?_⟩⟩
    · unfold pushBack; rw [if_pos hc, put_ok (by omega)]; simp only; rw [put_ok (by show s.size + 1 ≤ s.cap; omega)]
    · show s.size + 1 = _; rw [List.length_take]; omega
    · rw [List.length_take]; exact Nat.min_le_left _ _
    · intro i hi
      rw [List.length_take, ha] at hi
      show upd (upd s.buf s.size c) (s.size + 1) 0 i = _
      rw [ch_take, ch_append]
      by_cases h1 : i = s.size + 1
      · rw [h1, upd_same, if_neg (show ¬ s.size + 1 < l.length by omega), ch_out (show [c].length ≤ s.size + 1 - l.length by simp; omega)]
        split_ifs <;> rfl
      · rw [upd_other _ _ h1]
        by_cases h2 : i = s.size
        · rw [h2, upd_same, if_pos (by omega), if_neg (by omega), hl, Nat.sub_self]; rfl
        · rw [upd_other _ _ h2, if_pos (by omega), if_pos (by omega), h.at_ i (by omega)]
    · show s.trunc = _; rw [ha, decide_eq_false (by omega), Bool.or_false]
    · intro _ hcl i h1 h2
      show upd (upd s.buf s.size c) (s.size + 1) 0 i = 0
      have h1' : s.size + 1 ≤ i := h1
      by_cases h3 : i = s.size + 1
      · rw [h3, upd_same]
      · rw [upd_other _ _ h3, upd_other _ _ (by omega)]; exact hcl i (by omega) h2
  · refine ⟨{ s with trunc := true }, ?_, ⟨rfl, ?_, ?_, rfl, fun _ hcl => hcl⟩⟩
    · unfold pushBack; rw [if_neg hc]
    · rw [List.take_append_of_le_length (by omega), List.take_of_length_le (by omega)]; exact ⟨h.len, h.fits, h.at_⟩
    · show true = _; rw [ha, decide_eq_true (by omega), Bool.or_true]

theorem pop_ok {l : List Nat} (h : Rep s l) : ∃ s', popBack s = .ok s' ∧ Post s l.dropLast s.trunc s.secure s' := by
  have hl := h.len
  have hf := h.fits
  by_cases hc : s.size ≠ 0
  · refine ⟨{ s with size := s.size - 1, buf := upd s.buf (s.size - 1) 0 }, ?_, ⟨rfl, ⟨?_, ?_, ?_⟩, rfl, rfl, ?_⟩⟩
    · unfold popBack; rw [if_pos hc, put_ok (by show s.size - 1 ≤ s.cap; omega)]
    · show s.size - 1 = _; rw [List.length_dropLast]; omega
    · rw [List.length_dropLast]; show _ ≤ s.cap; omega
    · intro i hi
      rw [List.length_dropLast] at hi
      show upd s.buf (s.size - 1) 0 i = _
      rw [ch_dropLast]
      by_cases h1 : i = s.size - 1
      · rw [h1, upd_same, if_neg (by omega)]
      · rw [upd_other _ _ h1, if_pos (by omega), h.at_ i (by omega)]
    · intro _ hcl i h1 h2
      show upd s.buf (s.size - 1) 0 i = 0
      have h1' : s.size - 1 ≤ i := h1
      by_cases h3 : i = s.size - 1
      · rw [h3, upd_same]
      · rw [upd_other _ _ h3]; exact hcl i (by omega) h2
  · refine ⟨s, by unfold popBack; rw [if_neg hc], ⟨rfl, ?_, rfl, rfl, fun _ hcl => hcl⟩⟩
    have : l = [] := List.length_eq_zero_iff.mp (by omega)
    subst this; exact h

theorem splice_zero_len (l m : List Nat) (p : Nat) (hp : p ≤ l.length) : (splice l p (some 0) m).length = l.length + m.length := by
  simp only [splice, List.length_append, List.length_take, List.length_drop]; omega
theorem ch_splice (l m : List Nat) (p i : Nat) (hp : p ≤ l.length) : ch (splice l p (some 0) m) i = if i < p then ch l i else if i < p + m.length then ch m (i - p) else ch l (i - m.length) := by
  simp only [splice]
  rw [ch_append, ch_append, ch_take, ch_drop, List.length_append, List.length_take, Nat.min_eq_left hp]
  by_cases h1 : i < p
  · rw [if_pos (by omega), if_pos h1, if_pos h1, if_pos h1]
  · by_cases h2 : i < p + m.length
    · rw [if_pos h2, if_neg h1, if_neg h1, if_pos h2]
    · rw [if_neg h2, if_neg h1, if_neg h2]; congr 1; omega

/-- what is common to all insertions: the characters of the new string, a null behind them, nothing else changed -/
theorem insert_post {l m : List Nat} (h : Rep s l) {p : Nat} (hp : p ≤ l.length) {b : Nat → Nat} {t : Bool}
    (hb : ∀ i, i < min s.cap (l.length + m.length) → b i = ch (splice l p (some 0) m) i) (hz : b (min s.cap (l.length + m.length)) = 0) (ho : ∀ i, min s.cap (l.length + m.length) < i → b i = s.buf i)
    (ht : t = (s.trunc || decide (s.cap < l.length + m.length))) :
    Post s ((splice l p (some 0) m).take s.cap) (s.trunc || decide (s.cap < (splice l p (some 0) m).length)) s.secure { s with size := min s.cap (l.length + m.length), buf := b, trunc := t } := by
  have hl := h.len
  have hs := splice_zero_len l m p hp
  refine ⟨rfl, ⟨?_, ?_, ?_⟩, by rw [hs]; exact ht, rfl, ?_⟩
  · show min s.cap (l.length + m.length) = _; rw [List.length_take, hs]
  · rw [List.length_take]; exact Nat.min_le_left _ _
  · intro i hi
    rw [List.length_take, hs] at hi
    show b i = _
    rw [ch_take]
    by_cases hc : i < min s.cap (l.length + m.length)
    · rw [hb i hc, if_pos (by omega)]
    · rw [show i = min s.cap (l.length + m.length) by omega, hz]
      split_ifs
      · exact (ch_out (by omega)).symm
      · rfl
  · intro _ hcl i h1 h2
    show b i = 0
    have h1' : min s.cap (l.length + m.length) ≤ i := h1
    have h2' : i < s.cap := h2
    by_cases hc : i = min s.cap (l.length + m.length)
    · rw [hc, hz]
    · rw [ho i (by omega)]; exact hcl i (by omega) h2

theorem ins1_ok {l : List Nat} (h : Rep s l) (p c : Nat) (hp : p ≤ l.length) : ∃ s', insertOne s p c = .ok s' ∧ Post s ((splice l p (some 0) [c]).take s.cap) (s.trunc || decide (s.cap < (splice l p (some 0) [c]).length)) s.secure s' := by
  have hl := h.len
  have hf := h.fits
  by_cases hc : s.size < s.cap
  · have hmin : min s.cap (l.length + [c].length) = s.size + 1 := by simp; omega
    have ht : s.trunc = (s.trunc || decide (s.cap < l.length + [c].length)) := by rw [decide_eq_false (by simp; omega), Bool.or_false]
    by_cases hpe : p ≠ s.size
    · obtain ⟨b, b1, b2⟩ := back_ok (s.size - p) p (p + 1) { s with size := s.size + 1 } (by omega) (by show p + 1 + (s.size - p) ≤ s.cap + 1; omega)
      have hpost := insert_post (s := s) (m := [c]) h hp (b := upd (upd b p c) (s.size + 1) 0) (t := s.trunc) (by
        intro i hi
        rw [hmin] at hi
        rw [upd_other _ _ (by omega), ch_splice l [c] p i hp]
        by_cases h1 : i = p
        · subst h1; rw [upd_same, if_neg (by omega), if_pos (by simp), Nat.sub_self]; rfl
        · rw [upd_other _ _ h1, b2 i]
          by_cases h2 : i < p
          · rw [if_neg (by omega), if_pos h2]; exact h.at_ i (by omega)
          · rw [if_pos (by omega), if_neg h2, if_neg (by simp; omega), show p + 1 - p = 1 by omega]
            show s.buf (i - 1) = ch l (i - 1)
            exact h.at_ _ (by omega)) (by rw [hmin, upd_same]) (by
        intro i hi
        rw [hmin] at hi
        rw [upd_other _ _ (by omega), upd_other _ _ (by omega), b2 i, if_neg (by omega)]) ht
      refine ⟨{ s with size := s.size + 1, buf := upd (upd b p c) (s.size + 1) 0 }, ?_, ?_⟩
      · unfold insertOne insertOneBody
        rw [if_pos hc, if_pos hpe, b1]
        simp only
        rw [put_ok (by show p ≤ s.cap; omega)]
        simp only
        rw [put_ok (by show s.size + 1 ≤ s.cap; omega)]
      · rw [hmin] at hpost; exact hpost
    · have hpe' : p = s.size := by omega
      have hpost := insert_post (s := s) (m := [c]) h hp (b := upd (upd s.buf p c) (s.size + 1) 0) (t := s.trunc) (by
        intro i hi
        rw [hmin] at hi
        rw [upd_other _ _ (by omega), ch_splice l [c] p i hp]
        by_cases h1 : i = p
        · subst h1; rw [upd_same, if_neg (by omega), if_pos (by simp), Nat.sub_self]; rfl
        · rw [upd_other _ _ h1, if_pos (by omega)]; exact h.at_ i (by omega)) (by rw [hmin, upd_same]) (by
        intro i hi
        rw [hmin] at hi
        rw [upd_other _ _ (by omega), upd_other _ _ (by omega)]) ht
      refine ⟨{ s with size := s.size + 1, buf := upd (upd s.buf p c) (s.size + 1) 0 }, ?_, ?_⟩
      · unfold insertOne insertOneBody
        rw [if_pos hc, if_neg hpe, put_ok (by omega)]
        simp only
        rw [put_ok (by show s.size + 1 ≤ s.cap; omega)]
      · rw [hmin] at hpost; exact hpost
  · have hmin : min s.cap (l.length + [c].length) = s.size := by simp; omega
    have ht : true = (s.trunc || decide (s.cap < l.length + [c].length)) := by rw [decide_eq_true (by simp; omega), Bool.or_true]
    by_cases hpe : p ≠ s.size
    · obtain ⟨b, b1, b2⟩ := back_ok (s.size - 1 - p) p (p + 1) s (by omega) (by omega)
      have hpost := insert_post (s := s) (m := [c]) h hp (b := upd (upd b p c) s.size 0) (t := true) (by
        intro i hi
        rw [hmin] at hi
        rw [upd_other _ _ (by omega), ch_splice l [c] p i hp]
        by_cases h1 : i = p
        · subst h1; rw [upd_same, if_neg (by omega), if_pos (by simp), Nat.sub_self]; rfl
        · rw [upd_other _ _ h1, b2 i]
          by_cases h2 : i < p
          · rw [if_neg (by omega), if_pos h2]; exact h.at_ i (by omega)
          · rw [if_pos (by omega), if_neg h2, if_neg (by simp; omega), show p + 1 - p = 1 by omega]
            show s.buf (i - 1) = ch l (i - 1)
            exact h.at_ _ (by omega)) (by rw [hmin, upd_same]) (by
        intro i hi
        rw [hmin] at hi
        rw [upd_other _ _ (by omega), upd_other _ _ (by omega), b2 i, if_neg (by omega)]) ht
      refine ⟨{ s with size := s.size, buf := upd (upd b p c) s.size 0, trunc := true }, ?_, ?_⟩
      · unfold insertOne insertOneBody
        rw [if_neg hc, if_pos hpe, b1]
        simp only
        rw [put_ok (by show p ≤ s.cap; omega)]
        simp only
        rw [put_ok (by show s.size ≤ s.cap; omega)]
      · rw [hmin] at hpost; exact hpost
    · have hpe' : p = s.size := by omega
      have hpost := insert_post (s := s) (m := [c]) h hp (b := upd s.buf s.size 0) (t := true) (by
        intro i hi
        rw [hmin] at hi
        rw [upd_other _ _ (by omega), ch_splice l [c] p i hp, if_pos (by omega)]; exact h.at_ i (by omega)) (by rw [hmin, upd_same]) (by
        intro i hi
        rw [hmin] at hi
        rw [upd_other _ _ (by omega)]) ht
      refine ⟨{ s with size := s.size, buf := upd s.buf s.size 0, trunc := true }, ?_, ?_⟩
      · unfold insertOne insertOneBody
        rw [if_neg hc, if_neg hpe]
        simp only
        rw [put_ok (by show s.size ≤ s.cap; omega)]
      · rw [hmin] at hpost; exact hpost

/-- the two long insertions: `w` writes the new characters, `k` of them, from `p` on -/
theorem long_ok {l m : List Nat} (h : Rep s l) (p : Nat) (hp : p ≤ l.length) (hm : m ≠ []) (hcap : p < s.cap) (w : Nat → St → Res St)
    (hw : ∀ k (s' : St), k ≤ m.length → p + k ≤ s'.cap + 1 → ∃ b, w k s' = .ok { s' with buf := b } ∧ ∀ j, b j = if p ≤ j ∧ j < p + k then ch m (j - p) else s'.buf j) :
    ∃ s', (if p + m.length ≥ s.cap then (match w (s.cap - p) { s with size := s.cap, trunc := s.trunc || decide (s.size + m.length > s.cap) } with
      | Except.error u => Except.error u
      | Except.ok s => put s s.size 0)
    else (match shift s p m.length with
      | Except.error u => Except.error u
      | Except.ok s => match w m.length s with
        | Except.error u => Except.error u
        | Except.ok s => put s s.size 0) : Res St) = .ok s' ∧ Post s ((splice l p (some 0) m).take s.cap) (s.trunc || decide (s.cap < (splice l p (some 0) m).length)) s.secure s' := by
  have hl := h.len
  have hf := h.fits
  have hpos : 0 < m.length := List.length_pos_iff.mpr hm
  by_cases hfill : p + m.length ≥ s.cap
  · have hmin : min s.cap (l.length + m.length) = s.cap := by omega
    obtain ⟨b, b1, b2⟩ := hw (s.cap - p) { s with size := s.cap, trunc := s.trunc || decide (s.size + m.length > s.cap) } (by omega) (by show p + (s.cap - p) ≤ s.cap + 1; omega)
    have hpost := insert_post (s := s) (m := m) h hp (b := upd b s.cap 0) (t := s.trunc || decide (s.size + m.length > s.cap)) (by
      intro i hi
      rw [hmin] at hi
      rw [upd_other _ _ (by omega), b2 i, ch_splice l m p i hp]
      by_cases h1 : i < p
      · rw [if_neg (by omega), if_pos h1]; exact h.at_ i (by omega)
      · rw [if_pos (by omega), if_neg h1, if_pos (by omega)]) (by rw [hmin, upd_same]) (by
      intro i hi
      rw [hmin] at hi
      rw [upd_other _ _ (by omega), b2 i, if_neg (by omega)]) (by rw [hl])
    refine ⟨{ s with size := s.cap, buf := upd b s.cap 0, trunc := s.trunc || decide (s.size + m.length > s.cap) }, ?_, ?_⟩
    · rw [if_pos hfill, b1]
      simp only
      rw [put_ok (Nat.le_refl _)]
    · rw [hmin] at hpost; exact hpost
  · have hsh : shift s p m.length = backLoop (min (s.cap - p - m.length) (s.size - p)) p (p + m.length) { s with size := min s.cap (l.length + m.length), trunc := s.trunc || decide (s.cap < l.length + m.length) } := by
      unfold shift
      by_cases hov : p + m.length + (s.size - p) > s.cap
      · rw [if_pos hov, decide_eq_true (by omega), Bool.or_true, Nat.min_eq_left (a := s.cap) (b := l.length + m.length) (by omega)]
      · rw [if_neg hov, decide_eq_false (by omega), Bool.or_false, Nat.min_eq_right (b := l.length + m.length) (by omega), hl]
    obtain ⟨b, b1, b2⟩ := back_ok (min (s.cap - p - m.length) (s.size - p)) p (p + m.length) { s with size := min s.cap (l.length + m.length), trunc := s.trunc || decide (s.cap < l.length + m.length) } (by omega)
      (by show p + m.length + min (s.cap - p - m.length) (s.size - p) ≤ s.cap + 1; omega)
    obtain ⟨b', g1, g2⟩ := hw m.length { s with size := min s.cap (l.length + m.length), trunc := s.trunc || decide (s.cap < l.length + m.length), buf := b } (Nat.le_refl _) (by show p + m.length ≤ s.cap + 1; omega)
    have hpost := insert_post (s := s) (m := m) h hp (b := upd b' (min s.cap (l.length + m.length)) 0) (t := s.trunc || decide (s.cap < l.length + m.length)) (by
      intro i hi
      rw [upd_other _ _ (by omega), g2 i, ch_splice l m p i hp]
      by_cases h1 : i < p
      · rw [if_neg (by omega), if_pos h1]
        show b i = _
        rw [b2 i, if_neg (by omega)]; exact h.at_ i (by omega)
      · by_cases h2 : i < p + m.length
        · rw [if_pos (by omega), if_neg h1, if_pos h2]
        · rw [if_neg (by omega), if_neg h1, if_neg h2]
          show b i = _
          rw [b2 i, if_pos (by omega), show p + m.length - p = m.length by omega]
          exact h.at_ _ (by omega)) (by rw [upd_same]) (by
      intro i hi
      rw [upd_other _ _ (by omega), g2 i, if_neg (by omega)]
      show b i = _
      rw [b2 i, if_neg (by omega)]) rfl
    refine ⟨{ s with size := min s.cap (l.length + m.length), buf := upd b' (min s.cap (l.length + m.length)) 0, trunc := s.trunc || decide (s.cap < l.length + m.length) }, ?_, hpost⟩
    rw [if_neg hfill, hsh, b1]
    simp only
    rw [g1]
    simp only
    rw [put_ok (Nat.min_le_left _ _)]

theorem long_edge {l m : List Nat} (h : Rep s l) (p : Nat) (hp : p ≤ l.length) (hc : m ≠ [] → p ≥ s.cap) :
    Post s ((splice l p (some 0) m).take s.cap) (s.trunc || decide (s.cap < (splice l p (some 0) m).length)) s.secure (if m.length = 0 then s else { s with trunc := true }) := by
  have hf := h.fits
  have hs := splice_zero_len l m p hp
  by_cases hm : m = []
  · subst hm
    have e : (splice l p (some 0) []).take s.cap = l := by simp only [splice, Nat.add_zero, List.append_nil, List.take_append_drop]; exact List.take_of_length_le hf
    rw [e, hs, decide_eq_false (by simp; omega), Bool.or_false]
    exact ⟨rfl, h, rfl, rfl, fun _ hcl => hcl⟩
  · have hpos : 0 < m.length := List.length_pos_iff.mpr hm
    have hc' := hc hm
    have e : (splice l p (some 0) m).take s.cap = l := by
      simp only [splice]
      rw [List.append_assoc, List.take_append_of_le_length (by rw [List.length_take]; omega), List.take_of_length_le (by rw [List.length_take]; omega), List.take_of_length_le (by omega)]
    rw [e, hs, decide_eq_true (by omega), Bool.or_true, if_neg (by omega)]
    exact ⟨rfl, ⟨h.len, h.fits, h.at_⟩, rfl, rfl, fun _ hcl => hcl⟩

theorem ins_ok {l m : List Nat} (h : Rep s l) (p : Nat) (hp : p ≤ l.length) (m' : List Nat) (hm' : m' ++ [] = m ++ m'.drop m.length) : ∃ s', insertRange s p m.length (.ext m') = .ok s' ∧ Post s ((splice l p (some 0) m).take s.cap) (s.trunc || decide (s.cap < (splice l p (some 0) m).length)) s.secure s' := by
  have hle : m.length ≤ m'.length := by have := congrArg List.length hm'; simp at this; omega
  have hch : ∀ i, i < m.length → ch m' i = ch m i := by
    intro i hi
    have : ch (m' ++ []) i = ch m i := by rw [hm', ch_append, if_pos hi]
    rw [List.append_nil] at this; exact this
  by_cases hm : m = []
  · subst hm
    exact ⟨s, by unfold insertRange; rw [if_pos (show ([] : List Nat).length = 0 from rfl)], long_edge (m := []) h p hp (fun e => absurd rfl e)⟩
  · have hpos : 0 < m.length := List.length_pos_iff.mpr hm
    by_cases hc : p ≥ s.cap
    · have := long_edge (m := m) h p hp (fun _ => hc)
      rw [if_neg (by omega)] at this
      exact ⟨{ s with trunc := true }, by unfold insertRange; rw [if_neg (by omega), if_pos hc], this⟩
    · obtain ⟨s', g1, g2⟩ := long_ok (m := m) h p hp hm (by omega) (fun k s => readLoop (.ext m') k 0 p s) (by
        intro k s' hk hk2
        obtain ⟨b, b1, b2⟩ := read_ok m' k 0 p s' (by omega) hk2
        refine ⟨b, b1, ?_⟩
        intro j
        rw [b2 j]
        by_cases hj : p ≤ j ∧ j < p + k
        · rw [if_pos hj, if_pos hj, Nat.zero_add, hch _ (by omega)]
        · rw [if_neg hj, if_neg hj])
      exact ⟨s', by unfold insertRange; rw [if_neg (by omega), if_neg hc]; exact g1, g2⟩
theorem insN_ok {l : List Nat} (h : Rep s l) (p n c : Nat) (hp : p ≤ l.length) : ∃ s', insertN s p n c = .ok s' ∧ Post s ((splice l p (some 0) (List.replicate n c)).take s.cap) (s.trunc || decide (s.cap < (splice l p (some 0) (List.replicate n c)).length)) s.secure s' := by
  by_cases hn : n = 0
  · subst hn
    exact ⟨s, by unfold insertN; rw [if_pos rfl], long_edge (m := []) h p hp (fun e => absurd rfl e)⟩
  · have hm : List.replicate n c ≠ [] := by simp [hn]
    have hlen : (List.replicate n c).length = n := List.length_replicate
    by_cases hc : p ≥ s.cap
    · have := long_edge (m := List.replicate n c) h p hp (fun _ => hc)
      rw [if_neg (by omega)] at this
      exact ⟨{ s with trunc := true }, by unfold insertN; rw [if_neg hn, if_pos hc], this⟩
    · obtain ⟨s', g1, g2⟩ := long_ok (m := List.replicate n c) h p hp hm (by omega) (fun k s => fillLoop c k p s) (by
        intro k s' hk hk2
        obtain ⟨b, b1, b2⟩ := fill_ok c k p s' hk2
        refine ⟨b, b1, ?_⟩
        intro j
        rw [b2 j]
        by_cases hj : p ≤ j ∧ j < p + k
        · rw [if_pos hj, if_pos hj, ch_replicate, if_pos (by omega)]
        · rw [if_neg hj, if_neg hj])
      rw [hlen] at g1
      exact ⟨s', by unfold insertN; rw [if_neg hn, if_neg hc]; exact g1, g2⟩

/-! ### Erasing and replacing -/

theorem eraseRange_ok {l : List Nat} (h : Rep s l) (a b : Nat) (hab : a ≤ b) (hb : b ≤ l.length) : ∃ s', eraseRange s a b = .ok s' ∧ Post s (l.take a ++ l.drop b) s.trunc s.secure s' := by
  have hl := h.len
  have hf := h.fits
  by_cases he : a = b
  · subst he
    exact ⟨s, by unfold eraseRange; rw [if_pos rfl], ⟨rfl, by rw [List.take_append_drop]; exact h, rfl, rfl, fun _ hc => hc⟩⟩
  · obtain ⟨bf, b1, b2⟩ := copy_ok (s.size - b) b a s (by omega) (by omega)
    have hlen : (l.take a ++ l.drop b).length = l.length - (b - a) := by simp only [List.length_append, List.length_take, List.length_drop]; omega
    have hrep : Rep { s with size := s.size - (b - a), buf := upd bf (s.size - (b - a)) 0 } (l.take a ++ l.drop b) := by
      refine ⟨?_, ?_, ?_⟩
      · show s.size - (b - a) = _; omega
      · show _ ≤ s.cap; omega
      · intro i hi
        show upd bf (s.size - (b - a)) 0 i = _
        by_cases hi' : i = s.size - (b - a)
        · rw [hi', upd_same, ch_out (by omega)]
        · rw [upd_other _ _ hi', b2 i, ch_append, ch_take, ch_drop, List.length_take]
          by_cases h1 : i < a
          · rw [if_neg (by omega), if_pos (by omega), if_pos h1]; exact h.at_ i (by omega)
          · rw [if_pos (by omega), if_neg (by omega), show b + (i - min a l.length) = i + (b - a) by omega]; exact h.at_ _ (by omega)
    obtain ⟨b3, c1, c2, c3⟩ := cleanup_ok hrep
    refine ⟨{ s with size := s.size - (b - a), buf := b3 }, ?_, ⟨rfl, c2, rfl, rfl, fun hs _ => c3 (Or.inl hs)⟩⟩
    unfold eraseRange
    rw [if_neg he, if_neg (by omega), b1]
    simp only
    rw [put_ok (by show s.size - (b - a) ≤ s.cap; omega)]
    exact c1
theorem eraseOne_ok {l : List Nat} (h : Rep s l) (p : Nat) (hp : p < l.length) : ∃ s', eraseOne s p = .ok s' ∧ Post s (l.take p ++ l.drop (p + 1)) s.trunc s.secure s' := by
  have hl := h.len
  have hf := h.fits
  obtain ⟨bf, b1, b2⟩ := copy_ok (s.size - (p + 1)) (p + 1) p s (by omega) (by omega)
  have hlen : (l.take p ++ l.drop (p + 1)).length = l.length - 1 := by simp only [List.length_append, List.length_take, List.length_drop]; omega
  refine ⟨{ s with size := s.size - 1, buf := upd bf (s.size - 1) 0 }, ?_, ⟨rfl, ⟨?_, ?_, ?_⟩, rfl, rfl, ?_⟩⟩
  · unfold eraseOne
    rw [if_pos (by omega), b1]
    simp only
    rw [put_ok (by show s.size - 1 ≤ s.cap; omega)]
  · show s.size - 1 = _; omega
  · show _ ≤ s.cap; omega
  · intro i hi
    show upd bf (s.size - 1) 0 i = _
    by_cases hi' : i = s.size - 1
    · rw [hi', upd_same, ch_out (by omega)]
    · rw [upd_other _ _ hi', b2 i, ch_append, ch_take, ch_drop, List.length_take]
      by_cases h1 : i < p
      · rw [if_neg (by omega), if_pos (by omega), if_pos h1]; exact h.at_ i (by omega)
      · rw [if_pos (by omega), if_neg (by omega), show p + 1 + (i - min p l.length) = i + (p + 1 - p) by omega]; exact h.at_ _ (by omega)
  · intro _ hcl i h1 h2
    have h1' : s.size - 1 ≤ i := h1
    show upd bf (s.size - 1) 0 i = 0
    by_cases hi : i = s.size - 1
    · rw [hi, upd_same]
    · rw [upd_other _ _ hi, b2 i, if_neg (by omega)]; exact hcl i (by omega) h2

theorem lim_splice {l : List Nat} (h : Rep s l) (p : Nat) (len : Option Nat) (hp : p ≤ l.length) (m : List Nat) : p + lim s p len ≤ l.length ∧ splice l p len m = l.take p ++ m ++ l.drop (p + lim s p len) := by
  have hl := h.len
  unfold lim
  rw [if_pos (by omega)]
  refine ⟨by omega, ?_⟩
  cases len with
  | none =>
    simp only [splice, Option.getD_none, Nat.min_self]
    rw [List.drop_of_length_le (by omega)]
  | some n =>
    simp only [splice, Option.getD_some]
    by_cases hn : n ≤ s.size - p
    · rw [Nat.min_eq_left hn]
    · rw [Nat.min_eq_right (by omega), List.drop_of_length_le (by omega), List.drop_of_length_le (by omega)]
theorem lim_lim {l : List Nat} (h : Rep s l) (p : Nat) (len : Option Nat) (hp : p ≤ l.length) : lim s p (some (lim s p len)) = lim s p len := by
  have hl := h.len
  unfold lim
  rw [if_pos (by omega), if_pos (by omega), Option.getD_some]
  omega
theorem erase_ok {l : List Nat} (h : Rep s l) (p : Nat) (len : Option Nat) (hp : p ≤ l.length) : ∃ s', erase s p len = .ok s' ∧ Post s (splice l p len []) s.trunc s.secure s' := by
  obtain ⟨h1, h2⟩ := lim_splice h p len hp []
  rw [h2, List.append_nil]
  exact eraseRange_ok h p _ (by omega) h1

theorem insertAt_ok {l : List Nat} (h : Rep s l) (p : Nat) (m : List Nat) (t : Bool) (hp : p ≤ l.length) :
    ∃ s', insertAt s p m t = .ok (some s') ∧ Post s ((splice l p (some 0) m).take s.cap) (s.trunc || decide (s.cap < (splice l p (some 0) m).length) || t) s.secure s' := by
  obtain ⟨s', h1, h2⟩ := ins_ok (m := m) h p hp m (by simp)
  refine ⟨{ s' with trunc := s'.trunc || t }, ?_, ⟨h2.cap, ⟨h2.rep.len, h2.rep.fits, h2.rep.at_⟩, by show (s'.trunc || t) = _; rw [h2.trunc], h2.sec, h2.clean⟩⟩
  unfold insertAt
  rw [if_pos (by rw [h.len]; exact hp), h1]
theorem part_len (m : List Nat) (sub : Nat) (len : Option Nat) (hs : sub ≤ m.length) : (part m sub len).length = subLen m.length sub len ∧ m.drop sub = part m sub len ++ (m.drop sub).drop (part m sub len).length := by
  cases len with
  | none => simp [part, subLen]; omega
  | some n =>
    simp only [part, subLen]
    refine ⟨?_, ?_⟩
    · rw [List.length_take, List.length_drop]; split_ifs <;> omega
    · rw [List.length_take]
      by_cases hn : n ≤ (m.drop sub).length
      · rw [Nat.min_eq_left hn, List.take_append_drop]
      · rw [Nat.min_eq_right (by omega), List.take_of_length_le (by omega), List.drop_length, List.append_nil]
theorem insertSub_ok {l : List Nat} (h : Rep s l) (p : Nat) (m : List Nat) (sub : Nat) (len : Option Nat) (t : Bool) (hp : p ≤ l.length) (hs : sub ≤ m.length) :
    ∃ s', insertSub s p m sub len t = .ok (some s') ∧ Post s ((splice l p (some 0) (part m sub len)).take s.cap) (s.trunc || decide (s.cap < (splice l p (some 0) (part m sub len)).length) || t) s.secure s' := by
  obtain ⟨e1, e2⟩ := part_len m sub len hs
  obtain ⟨s', h1, h2⟩ := ins_ok (m := part m sub len) h p hp (m.drop sub) (by rw [List.append_nil]; exact e2)
  refine ⟨{ s' with trunc := s'.trunc || t }, ?_, ⟨h2.cap, ⟨h2.rep.len, h2.rep.fits, h2.rep.at_⟩, by show (s'.trunc || t) = _; rw [h2.trunc], h2.sec, h2.clean⟩⟩
  unfold insertSub
  rw [if_pos ⟨by rw [h.len]; exact hp, hs⟩, ← e1, h1]
theorem insertAtN_ok {l : List Nat} (h : Rep s l) (p n c : Nat) (hp : p ≤ l.length) :
    ∃ s', insertAtN s p n c = .ok (some s') ∧ Post s ((splice l p (some 0) (List.replicate n c)).take s.cap) (s.trunc || decide (s.cap < (splice l p (some 0) (List.replicate n c)).length)) s.secure s' := by
  obtain ⟨s', h1, h2⟩ := insN_ok h p n c hp
  refine ⟨s', ?_, h2⟩
  unfold insertAtN
  rw [if_pos (by rw [h.len]; exact hp), h1]

theorem splice_twice (l m : List Nat) (p : Nat) (len : Option Nat) (hp : p ≤ l.length) : splice (splice l p len []) p (some 0) m = splice l p len m := by
  have hlen : (l.take p).length = p := by rw [List.length_take]; omega
  simp only [splice, List.append_nil, Nat.add_zero]
  rw [List.take_append_of_le_length (by omega), List.take_of_length_le (by omega)]
  congr 1
  rw [List.drop_append_of_le_length (by omega), List.drop_of_length_le (by omega), List.nil_append]
theorem splice_erase_len (l : List Nat) (p : Nat) (len : Option Nat) (hp : p ≤ l.length) : p ≤ (splice l p len []).length := by
  simp only [splice, List.append_nil, List.length_append, List.length_take]; omega
theorem Post.then {s1 s2 : St} {l1 l2 : List Nat} {f : Bool} (h1 : Post s l1 s.trunc s.secure s1) (h2 : Post s1 l2 f s1.secure s2) : Post s l2 f s.secure s2 :=
  ⟨h2.cap.trans h1.cap, h2.rep, h2.trunc, h2.sec.trans h1.sec, fun hs hc => h2.clean (by rw [h1.sec]; exact hs) (h1.clean hs hc)⟩

theorem replace_ok {l : List Nat} (h : Rep s l) (p : Nat) (len : Option Nat) (m : List Nat) (t : Bool) (hp : p ≤ l.length) :
    ∃ s', replace s p len m t = .ok (some s') ∧ Post s ((splice l p len m).take s.cap) (s.trunc || decide (s.cap < (splice l p len m).length) || t) s.secure s' := by
  obtain ⟨s1, e1, e2⟩ := erase_ok h p len hp
  obtain ⟨s2, i1, i2⟩ := insertAt_ok e2.rep p m t (splice_erase_len l p len hp)
  rw [splice_twice l m p len hp, e2.cap, e2.trunc] at i2
  refine ⟨s2, ?_, e2.then i2⟩
  unfold replace
  have : erase s p (some (lim s p len)) = .ok s1 := by rw [← e1]; unfold erase; rw [lim_lim h p len hp]
  rw [if_pos (by rw [h.len]; exact hp), this]
  exact i1
theorem part_min (m : List Nat) (sub : Nat) (len : Option Nat) (hs : sub ≤ m.length) : part m sub (some (min (len.getD (m.length - sub)) (m.length - sub))) = part m sub len := by
  cases len with
  | none => simp only [part, Option.getD_none, Nat.min_self]; exact List.take_of_length_le (by rw [List.length_drop])
  | some n =>
    simp only [part, Option.getD_some]
    by_cases hn : n ≤ m.length - sub
    · rw [Nat.min_eq_left hn]
    · rw [Nat.min_eq_right (by omega), List.take_of_length_le (by rw [List.length_drop]), List.take_of_length_le (by rw [List.length_drop]; omega)]
theorem replaceSub_ok {l : List Nat} (h : Rep s l) (p : Nat) (len : Option Nat) (m : List Nat) (sub : Nat) (sublen : Option Nat) (t : Bool) (hp : p ≤ l.length) (hs : sub ≤ m.length) :
    ∃ s', replaceSub s p len m sub sublen t = .ok (some s') ∧ Post s ((splice l p len (part m sub sublen)).take s.cap) (s.trunc || decide (s.cap < (splice l p len (part m sub sublen)).length) || t) s.secure s' := by
  obtain ⟨s1, e1, e2⟩ := erase_ok h p len hp
  obtain ⟨s2, i1, i2⟩ := insertSub_ok e2.rep p m sub (some (min (sublen.getD (m.length - sub)) (m.length - sub))) t (splice_erase_len l p len hp) hs
  rw [part_min m sub sublen hs, splice_twice l _ p len hp, e2.cap, e2.trunc] at i2
  refine ⟨s2, ?_, e2.then i2⟩
  unfold replaceSub
  have : erase s p (some (lim s p len)) = .ok s1 := by rw [← e1]; unfold erase; rw [lim_lim h p len hp]
  rw [if_pos ⟨by rw [h.len]; exact hp, hs⟩, this]
  exact i1
theorem replaceN_ok {l : List Nat} (h : Rep s l) (p : Nat) (len : Option Nat) (n c : Nat) (hp : p ≤ l.length) :
    ∃ s', replaceN s p len n c = .ok (some s') ∧ Post s ((splice l p len (List.replicate n c)).take s.cap) (s.trunc || decide (s.cap < (splice l p len (List.replicate n c)).length)) s.secure s' := by
  obtain ⟨s1, e1, e2⟩ := erase_ok h p len hp
  obtain ⟨s2, i1, i2⟩ := insertAtN_ok e2.rep p n c (splice_erase_len l p len hp)
  rw [splice_twice l _ p len hp, e2.cap, e2.trunc] at i2
  refine ⟨s2, ?_, e2.then i2⟩
  unfold replaceN
  have : erase s p (some (lim s p len)) = .ok s1 := by rw [← e1]; unfold erase; rw [lim_lim h p len hp]
  rw [if_pos (by rw [h.len]; exact hp), this]
  exact i1

/-! ### Histories -/

/-- what a call leaves -/
structure Done (s : St) (l : List Nat) (o : Op) (s' : St) : Prop where
  cap : s'.cap = s.cap
  rep : Rep s' ((o.ideal l).take s.cap)
  trunc : s'.trunc = ((s.trunc && !o.fresh) || decide (s.cap < (o.ideal l).length) || o.inherited)
  sec : s.secure = true → s'.secure = true
  clean : s.secure = true → Clean s → Clean s'

theorem Post.done {s s' : St} {l m : List Nat} {o : Op} {f q : Bool} (h : Post s m f q s') {L : List Nat} {fr inh : Bool} (hL : o.ideal l = L) (hfr : o.fresh = fr) (hin : o.inherited = inh) (hm : m = L.take s.cap)
    (hf : f = ((s.trunc && !fr) || decide (s.cap < L.length) || inh)) (hq : s.secure = true → q = true) : Done s l o s' := by
  subst hL hfr hin
  exact ⟨h.cap, by rw [← hm]; exact h.rep, by rw [← hf]; exact h.trunc, fun hs => by rw [h.sec]; exact hq hs, h.clean⟩

theorem lift_ok {r : Res St} {P : St → Prop} (h : ∃ s', r = .ok s' ∧ P s') : ∃ s', lift r = .ok (some s') ∧ P s' := by
  obtain ⟨s', h1, h2⟩ := h; exact ⟨s', by rw [h1]; rfl, h2⟩

theorem short {l m : List Nat} {c : Nat} (h : m.length ≤ l.length) (hl : l.length ≤ c) : m.take c = m ∧ decide (c < m.length) = false :=
  ⟨List.take_of_length_le (by omega), decide_eq_false (by omega)⟩

theorem splice_nil_len (l : List Nat) (p n : Nat) : (splice l p (some n) []).length ≤ l.length := by
  simp only [splice, List.append_nil, List.length_append, List.length_take, List.length_drop]; omega
theorem splice_none_len (l : List Nat) (p : Nat) : (splice l p none []).length ≤ l.length := by
  simp only [splice, List.append_nil, List.length_take]; omega

theorem splice_end (l m : List Nat) : splice l l.length (some 0) m = l ++ m := by
  simp only [splice, Nat.add_zero]
  rw [List.take_of_length_le (Nat.le_refl _), List.drop_length, List.append_nil]

theorem exec_ok {l : List Nat} (h : Rep s l) (o : Op) (hl : o.Legal l) (hc : o.Checked l = true) : ∃ s', exec? s o = .ok (some s') ∧ Done s l o s' := by
  have hlen := h.len
  have hf := h.fits
  cases o with
  | assign m t sec =>
    obtain ⟨s', h1, h2, _⟩ := assign_ok s m t sec
    exact lift_ok ⟨s', h1, h2.done (L := m) (fr := true) (inh := t) rfl rfl rfl rfl (by simp) (fun hs => by rw [hs]; rfl)⟩
  | assignN n c =>
    obtain ⟨s', h1, h2, _⟩ := assignN_ok s n c
    exact lift_ok ⟨s', h1, h2.done (L := List.replicate n c) (fr := true) (inh := false) rfl rfl rfl rfl (by simp) id⟩
  | clear =>
    obtain ⟨s', h1, h2, _⟩ := clear_ok s
    exact lift_ok ⟨s', h1, h2.done (L := []) (fr := true) (inh := false) rfl rfl rfl (by simp) (by simp) id⟩
  | clearFlag =>
    obtain ⟨e1, e2⟩ := short (Nat.le_refl _) hf
    exact ⟨{ s with trunc := false }, rfl, ⟨rfl, by rw [show Op.ideal l .clearFlag = l from rfl, e1]; exact ⟨h.len, h.fits, h.at_⟩, by show false = _; rw [show decide (s.cap < (Op.ideal l .clearFlag).length) = false from e2]; simp [Op.fresh, Op.inherited], id, fun _ hc => hc⟩⟩
  | setSecure =>
    obtain ⟨e1, e2⟩ := short (Nat.le_refl _) hf
    exact ⟨{ s with secure := true }, rfl, ⟨rfl, by rw [show Op.ideal l .setSecure = l from rfl, e1]; exact ⟨h.len, h.fits, h.at_⟩, by show s.trunc = _; rw [show decide (s.cap < (Op.ideal l .setSecure).length) = false from e2]; simp [Op.fresh, Op.inherited], fun _ => rfl, fun _ hc => hc⟩⟩
  | push c =>
    obtain ⟨s', h1, h2⟩ := push_ok h c
    exact lift_ok ⟨s', h1, h2.done (L := l ++ [c]) (fr := false) (inh := false) rfl rfl rfl rfl (by simp) id⟩
  | pop =>
    obtain ⟨s', h1, h2⟩ := pop_ok h
    obtain ⟨e1, e2⟩ := short (l := l) (m := l.dropLast) (by simp) hf
    exact lift_ok ⟨s', h1, h2.done (L := l.dropLast) (fr := false) (inh := false) rfl rfl rfl e1.symm (by rw [e2]; simp) id⟩
  | resize n c =>
    obtain ⟨s', h1, h2, _⟩ := resize_ok h n c
    refine lift_ok ⟨s', h1, h2.done (L := l.take n ++ List.replicate (n - l.length) c) (fr := false) (inh := false) rfl rfl rfl rfl ?_ id⟩
    have : (l.take n ++ List.replicate (n - l.length) c).length = n := by simp only [List.length_append, List.length_take, List.length_replicate]; omega
    rw [this]; simp
  | ins1 p c =>
    obtain ⟨s', h1, h2⟩ := ins1_ok h p c hl
    exact lift_ok ⟨s', h1, h2.done (L := splice l p (some 0) [c]) (fr := false) (inh := false) rfl rfl rfl rfl (by simp) id⟩
  | insN p n c =>
    obtain ⟨s', h1, h2⟩ := insN_ok h p n c hl
    exact lift_ok ⟨s', h1, h2.done (L := splice l p (some 0) (List.replicate n c)) (fr := false) (inh := false) rfl rfl rfl rfl (by simp) id⟩
  | ins p m =>
    obtain ⟨s', h1, h2⟩ := ins_ok (m := m) h p hl m (by simp)
    exact lift_ok ⟨s', h1, h2.done (L := splice l p (some 0) m) (fr := false) (inh := false) rfl rfl rfl rfl (by simp) id⟩
  | insertAt p m t =>
    obtain ⟨s', h1, h2⟩ := insertAt_ok h p m t (of_decide_eq_true hc)
    exact ⟨s', h1, h2.done (L := splice l p (some 0) m) (fr := false) (inh := t) rfl rfl rfl rfl (by simp) id⟩
  | insertSub p m sub len t =>
    simp only [Op.Checked, Bool.and_eq_true, decide_eq_true_eq] at hc
    obtain ⟨s', h1, h2⟩ := insertSub_ok h p m sub len t hc.1 hc.2
    exact ⟨s', h1, h2.done (L := splice l p (some 0) (part m sub len)) (fr := false) (inh := t) rfl rfl rfl rfl (by simp) id⟩
  | insertAtN p n c =>
    obtain ⟨s', h1, h2⟩ := insertAtN_ok h p n c (of_decide_eq_true hc)
    exact ⟨s', h1, h2.done (L := splice l p (some 0) (List.replicate n c)) (fr := false) (inh := false) rfl rfl rfl rfl (by simp) id⟩
  | append m t =>
    obtain ⟨s', h1, h2⟩ := insertAt_ok h l.length m t (Nat.le_refl _)
    rw [splice_end] at h2
    exact ⟨s', by simp only [exec?]; rw [hlen]; exact h1, h2.done (L := l ++ m) (fr := false) (inh := t) rfl rfl rfl rfl (by simp) id⟩
  | appendN n c =>
    obtain ⟨s', h1, h2⟩ := insertAtN_ok h l.length n c (Nat.le_refl _)
    rw [splice_end] at h2
    exact ⟨s', by simp only [exec?]; rw [hlen]; exact h1, h2.done (L := l ++ List.replicate n c) (fr := false) (inh := false) rfl rfl rfl rfl (by simp) id⟩
  | del1 p =>
    obtain ⟨s', h1, h2⟩ := eraseOne_ok h p hl
    obtain ⟨e1, e2⟩ := short (splice_nil_len l p 1) hf
    exact lift_ok ⟨s', h1, h2.done (L := splice l p (some 1) []) (fr := false) (inh := false) rfl rfl rfl (by rw [e1]; simp [splice]) (by rw [e2]; simp) id⟩
  | del a b =>
    obtain ⟨s', h1, h2⟩ := eraseRange_ok h a b hl.1 hl.2
    obtain ⟨e1, e2⟩ := short (splice_nil_len l a (b - a)) hf
    exact lift_ok ⟨s', h1, h2.done (L := splice l a (some (b - a)) []) (fr := false) (inh := false) rfl rfl rfl (by rw [e1]; simp only [splice, List.append_nil]; rw [show a + (b - a) = b by have := hl.1; omega]) (by rw [e2]; simp) id⟩
  | erase p len =>
    obtain ⟨s', h1, h2⟩ := erase_ok h p len hl
    have hle : (splice l p len []).length ≤ l.length := by
      cases len with
      | none => exact splice_none_len l p
      | some n => exact splice_nil_len l p n
    obtain ⟨e1, e2⟩ := short hle hf
    exact lift_ok ⟨s', h1, h2.done (L := splice l p len []) (fr := false) (inh := false) rfl rfl rfl (by rw [e1]) (by rw [e2]; simp) id⟩
  | replace p len m t =>
    obtain ⟨s', h1, h2⟩ := replace_ok h p len m t (of_decide_eq_true hc)
    exact ⟨s', h1, h2.done (L := splice l p len m) (fr := false) (inh := t) rfl rfl rfl rfl (by simp) id⟩
  | replaceSub p len m sub sublen t =>
    simp only [Op.Checked, Bool.and_eq_true, decide_eq_true_eq] at hc
    obtain ⟨s', h1, h2⟩ := replaceSub_ok h p len m sub sublen t hc.1 hc.2
    exact ⟨s', h1, h2.done (L := splice l p len (part m sub sublen)) (fr := false) (inh := t) rfl rfl rfl rfl (by simp) id⟩
  | replaceN p len n c =>
    obtain ⟨s', h1, h2⟩ := replaceN_ok h p len n c (of_decide_eq_true hc)
    exact ⟨s', h1, h2.done (L := splice l p len (List.replicate n c)) (fr := false) (inh := false) rfl rfl rfl rfl (by simp) id⟩

theorem exec_none {l : List Nat} (h : Rep s l) (o : Op) (hc : o.Checked l = false) : exec? s o = .ok none := by
  have hlen := h.len
  cases o with
  | insertAt p m t => simp only [Op.Checked, decide_eq_false_iff_not] at hc; simp only [exec?, insertAt]; rw [if_neg (by omega)]
  | insertSub p m sub len t =>
    have hc : ¬ (p ≤ l.length ∧ sub ≤ m.length) := by simpa [Op.Checked] using hc
    simp only [exec?, insertSub]; rw [if_neg (by rw [hlen]; exact hc)]
  | insertAtN p n c => simp only [Op.Checked, decide_eq_false_iff_not] at hc; simp only [exec?, insertAtN]; rw [if_neg (by omega)]
  | replace p len m t => simp only [Op.Checked, decide_eq_false_iff_not] at hc; simp only [exec?, replace]; rw [if_neg (by omega)]
  | replaceN p len n c => simp only [Op.Checked, decide_eq_false_iff_not] at hc; simp only [exec?, replaceN]; rw [if_neg (by omega)]
  | replaceSub p len m sub sublen t =>
    have hc : ¬ (p ≤ l.length ∧ sub ≤ m.length) := by simpa [Op.Checked] using hc
    simp only [exec?, replaceSub]; rw [if_neg (by rw [hlen]; exact hc)]
  | _ => cases hc

theorem run_ok (os : List Op) : ∀ (s : St) (x : Spec), Rep s x.chars → s.trunc = x.flag → LegalRun s.cap x os →
    ∃ s', run s os = .ok s' ∧ s'.cap = s.cap ∧ Rep s' (x.run s.cap os).chars ∧ s'.trunc = (x.run s.cap os).flag ∧ (s.secure = true → s'.secure = true) ∧ (s.secure = true → Clean s → Clean s') := by
  induction os with
  | nil => intro s x h ht _; exact ⟨s, rfl, rfl, h, ht, id, fun _ hc => hc⟩
  | cons o os ih =>
    intro s x h ht hl
    obtain ⟨hl1, hl2⟩ := hl
    cases hc : o.Checked x.chars with
    | false =>
      have e : x.step s.cap o = x := by unfold Spec.step; rw [hc, if_neg (by simp)]
      rw [e] at hl2
      obtain ⟨s', h1, h2⟩ := ih s x h ht hl2
      refine ⟨s', ?_, ?_⟩
      · simp only [run, exec_none h o hc]; exact h1
      · simp only [Spec.run]; rw [e]; exact h2
    | true =>
      obtain ⟨s1, e1, d⟩ := exec_ok h o hl1 hc
      have e : x.step s.cap o = ⟨(o.ideal x.chars).take s.cap, (x.flag && !o.fresh) || decide (s.cap < (o.ideal x.chars).length) || o.inherited⟩ := by unfold Spec.step; rw [if_pos hc]
      have ht1 : s1.trunc = (x.step s.cap o).flag := by rw [e, d.trunc, ht]
      have hr1 : Rep s1 (x.step s.cap o).chars := by rw [e]; exact d.rep
      obtain ⟨s', h1, h2, h3, h4, h5, h6⟩ := ih s1 (x.step s.cap o) hr1 ht1 (by rw [d.cap]; exact hl2)
      rw [d.cap] at h2 h3 h4
      refine ⟨s', ?_, h2, h3, h4, fun hs => h5 (d.sec hs), fun hs hcl => h6 (d.sec hs) (d.clean hs hcl)⟩
      simp only [run, e1]; exact h1

theorem make_ok (cap : Nat) (g : Nat → Nat) : ∃ s, make cap g = .ok s ∧ s.cap = cap ∧ Rep s [] ∧ s.trunc = false ∧ s.secure = false := by
  obtain ⟨b, h1, h2, _⟩ := initialise_ok { cap := cap, size := 0, buf := g, trunc := false, secure := false }
  exact ⟨{ cap := cap, size := 0, buf := b, trunc := false, secure := false }, h1, rfl, ⟨rfl, Nat.zero_le _, fun i hi => by
    have : i = 0 := by simpa using hi
    rw [this, ch_nil]; exact h2⟩, rfl, rfl⟩

/-- A string of capacity `cap` after the calls `os`, whatever was in its memory before. -/
def After (cap : Nat) (os : List Op) (s : St) : Prop := LegalRun cap ⟨[], false⟩ os ∧ ∃ g s0, make cap g = .ok s0 ∧ run s0 os = .ok s

/-- C37: every history of calls is defined and leaves what the bounded string of the specification holds: the characters, the flag, a null behind the last character. -/
theorem C37_history (cap : Nat) (garbage : Nat → Nat) (os : List Op) (hl : LegalRun cap ⟨[], false⟩ os) :
    ∃ s0 s, make cap garbage = .ok s0 ∧ run s0 os = .ok s ∧ chars s = (Spec.run cap ⟨[], false⟩ os).chars ∧ s.trunc = (Spec.run cap ⟨[], false⟩ os).flag ∧
      s.size = (chars s).length ∧ s.size ≤ cap ∧ s.buf s.size = 0 := by
  obtain ⟨s0, h1, h2, h3, h4, _⟩ := make_ok cap garbage
  obtain ⟨s, g1, g2, g3, g4, _⟩ := run_ok os s0 ⟨[], false⟩ h3 h4 (by rw [h2]; exact hl)
  rw [h2] at g2 g3 g4
  refine ⟨s0, s, h1, g1, g3.chars, g4, by rw [g3.chars]; exact g3.len, by have := g3.fits; rw [g2] at this; rw [g3.len]; exact this, ?_⟩
  rw [g3.at_ _ (by rw [g3.len]), ch_out (by rw [g3.len])]

theorem After.rep {cap : Nat} {os : List Op} {s : St} (h : After cap os s) : Rep s (chars s) ∧ s.cap = cap ∧ chars s = (Spec.run cap ⟨[], false⟩ os).chars ∧ s.trunc = (Spec.run cap ⟨[], false⟩ os).flag := by
  obtain ⟨hl, g, s0, h1, h2⟩ := h
  obtain ⟨s0', k1, k2, k3, k4, _⟩ := make_ok cap g
  rw [h1] at k1; cases k1
  obtain ⟨s', g1, g2, g3, g4, _⟩ := run_ok os s0 ⟨[], false⟩ k3 k4 (by rw [k2]; exact hl)
  rw [h2] at g1; cases g1
  rw [k2] at g2 g3 g4
  exact ⟨by rw [g3.chars]; exact g3, g2, g3.chars, g4⟩

/-- C37: an error is raised exactly when a position is behind the end; the string is then as before (see `run`). -/
theorem C37_errors {cap : Nat} {os : List Op} {s : St} (h : After cap os s) (o : Op) (hl : o.Legal (chars s)) : exec? s o = .ok none ↔ o.Checked (chars s) = false := by
  constructor
  · intro he
    cases hc : o.Checked (chars s) with
    | false => rfl
    | true => obtain ⟨s', h1, _⟩ := exec_ok h.rep.1 o hl hc; rw [he] at h1; cases h1
  · exact exec_none h.rep.1 o

/-- C37: nothing is lost when everything fits: with the flag false at the end, and no call in between that clears it, the string is the string without a bound. -/
theorem C37_exact (cap : Nat) (os : List Op) (hf : ∀ o ∈ os, o.fresh = false) : ∀ (x : Spec), x.chars.length ≤ cap → (Spec.run cap x os).flag = false →
    (Spec.run cap x os).chars = os.foldl (fun l o => if o.Checked l then o.ideal l else l) x.chars := by
  have keep : ∀ (os : List Op) (x : Spec), (∀ o ∈ os, o.fresh = false) → x.flag = true → (Spec.run cap x os).flag = true := by
    intro os
    induction os with
    | nil => intro x _ h; exact h
    | cons o os ih =>
      intro x hf h
      refine ih _ (fun o' ho => hf o' (List.mem_cons_of_mem _ ho)) ?_
      unfold Spec.step
      split
      · have := hf o List.mem_cons_self
        show ((x.flag && !o.fresh) || _ || _) = true
        rw [h, this]; rfl
      · exact h
  induction os with
  | nil => intro x _ _; rfl
  | cons o os ih =>
    intro x hx hflag
    have hf' : ∀ o ∈ os, o.fresh = false := fun o' ho => hf o' (List.mem_cons_of_mem _ ho)
    have hst : (x.step cap o).flag = false := by
      cases h : (x.step cap o).flag with
      | false => rfl
      | true => have := keep os _ hf' h; simp only [Spec.run] at hflag; rw [this] at hflag; cases hflag
    simp only [Spec.run, List.foldl_cons]
    have e : (x.step cap o).chars = if o.Checked x.chars then o.ideal x.chars else x.chars := by
      unfold Spec.step at hst ⊢
      split
      · next hc =>
        rw [if_pos hc] at hst
        simp only [Bool.or_eq_false_iff, decide_eq_false_iff_not] at hst
        exact List.take_of_length_le (by omega)
      · rfl
    rw [← e]
    refine ih hf' _ ?_ hflag
    unfold Spec.step
    split
    · show (List.take cap _).length ≤ cap
      rw [List.length_take]; exact Nat.min_le_left _ _
    · exact hx

/-! ### Reading -/

theorem slice_eq {l : List Nat} (h : Rep s l) (p n : Nat) (hp : p + n ≤ l.length) : slice s p n = (l.drop p).take n := by
  unfold slice
  refine List.ext_getElem? ?_
  intro i
  rw [List.getElem?_map, List.getElem?_take]
  by_cases hi : i < n
  · rw [List.getElem?_range hi, if_pos hi, List.getElem?_drop, ch_get (by omega)]
    show some (s.buf (p + i)) = _
    rw [h.at_ _ (by omega)]
  · rw [List.getElem?_eq_none (by simpa using hi), if_neg hi]; rfl
theorem slice_part {l : List Nat} (h : Rep s l) (p : Nat) (len : Option Nat) (hp : p ≤ l.length) : slice s p (min (len.getD (s.size - p)) (s.size - p)) = part l p len := by
  rw [h.len, slice_eq h p _ (by omega)]
  exact part_min l p len hp

/-- C37: `substr` is the part of the characters; an error behind the end. -/
theorem C37_substr {cap : Nat} {os : List Op} {s : St} (h : After cap os s) (p : Nat) (len : Option Nat) (garbage : Nat → Nat) :
    if p ≤ (chars s).length then ∃ r, substr s p len garbage = .ok (some r) ∧ chars r = part (chars s) p len ∧ r.trunc = false ∧ r.buf r.size = 0 else substr s p len garbage = .ok none := by
  obtain ⟨hr, hcap, _⟩ := h.rep
  obtain ⟨new, n1, n2, n3, n4, n5⟩ := make_ok s.cap garbage
  have hl := hr.len
  unfold substr
  rw [n1]
  simp only
  split
  · next hp =>
    by_cases he : p ≠ s.size
    · rw [if_pos he, if_pos (by omega), slice_part hr p len hp]
      obtain ⟨r, r1, r2, _⟩ := assign_ok new (part (chars s) p len) false false
      have hle : (part (chars s) p len).length ≤ new.cap := by
        have hf := hr.fits
        cases len with
        | none => simp only [part, List.length_drop]; omega
        | some n => simp only [part, List.length_drop, List.length_take]; omega
      rw [List.take_of_length_le hle] at r2
      refine ⟨r, by rw [r1], r2.rep.chars, ?_, ?_⟩
      · rw [r2.trunc, decide_eq_false (by omega)]; rfl
      · rw [r2.rep.at_ _ (by rw [r2.rep.len]), ch_out (by rw [r2.rep.len])]
    · rw [if_neg he]
      refine ⟨new, rfl, ?_, n4, ?_⟩
      · rw [n3.chars]
        have hd : (chars s).drop p = [] := List.drop_of_length_le (by omega)
        cases len with
        | none => simp only [part]; rw [hd]
        | some n => simp only [part]; rw [hd, List.take_nil]
      · rw [n3.at_ _ (by rw [n3.len]), ch_out (by rw [n3.len])]
  · next hp => rw [if_pos (by omega), if_neg (by omega)]

/-- C37: `copy` writes the part of the characters, nothing from behind the end. -/
theorem C37_copy {cap : Nat} {os : List Op} {s : St} (h : After cap os s) (pos : Nat) (count : Option Nat) : copy s count pos = part (chars s) pos count := by
  obtain ⟨hr, _⟩ := h.rep
  have hl := hr.len
  unfold copy
  split
  · next hp => exact slice_part hr pos count (by omega)
  · next hp =>
    have hd : (chars s).drop pos = [] := List.drop_of_length_le (by omega)
    cases count with
    | none => simp only [part]; rw [hd]
    | some n => simp only [part]; rw [hd, List.take_nil]

theorem cmp_lexc (a b : List Nat) : (a = b ∧ cmp a b = 0) ∨ (Algo.lexCompare (fun x y => decide (x < y)) b a = true ∧ cmp a b = 1) ∨ (Algo.lexCompare (fun x y => decide (x < y)) a b = true ∧ cmp a b = -1) := by
  induction a generalizing b with
  | nil => cases b with
    | nil => exact .inl ⟨rfl, rfl⟩
    | cons y ys => exact .inr (.inr ⟨by simp [Algo.lexCompare], rfl⟩)
  | cons x xs ih => cases b with
    | nil => exact .inr (.inl ⟨by simp [Algo.lexCompare], rfl⟩)
    | cons y ys =>
      simp only [cmp, Algo.lexCompare]
      by_cases h1 : x < y
      · exact .inr (.inr ⟨by simp [h1], by simp [h1]⟩)
      · by_cases h2 : x > y
        · exact .inr (.inl ⟨by simp [h2], by simp [h1, h2]⟩)
        · have : x = y := by omega
          subst this
          rcases ih ys with ⟨rfl, h⟩ | ⟨h, h'⟩ | ⟨h, h'⟩
          · exact .inl ⟨rfl, by simp [h]⟩
          · exact .inr (.inl ⟨by simp [h], by simp [h']⟩)
          · exact .inr (.inr ⟨by simp [h], by simp [h']⟩)
theorem natTotal : View.Total (fun x y : Nat => decide (x < y)) := ⟨by simp, fun a b h => by simp only [decide_eq_true_eq] at h; simp only [decide_eq_false_iff_not]; omega, fun a b h1 h2 => by simp only [decide_eq_false_iff_not] at h1 h2; omega⟩
/-- C37: `compare` is lexicographic, of the whole string and of a part. -/
theorem C37_compare {cap : Nat} {os : List Op} {s : St} (h : After cap os s) (l : List Nat) (p len : Nat) :
    View.Cmp (fun x y => decide (x < y)) (chars s) l (compare s l) ∧
    (if p ≤ (chars s).length then ∃ r, compareSub s p len l = .ok (some r) ∧ View.Cmp (fun x y => decide (x < y)) (part (chars s) p (some len)) l r else compareSub s p len l = .ok none) := by
  obtain ⟨hr, _⟩ := h.rep
  have hl := hr.len
  refine ⟨View.cmp_lex natTotal (cmp_lexc _ _), ?_⟩
  unfold compareSub
  split
  · next hp =>
    rw [if_pos (by omega)]
    refine ⟨_, rfl, ?_⟩
    have := slice_part hr p (some len) hp
    rw [Option.getD_some] at this
    rw [this]
    exact View.cmp_lex natTotal (cmp_lexc _ _)
  · next hp => rw [if_neg (by omega)]

theorem find_rep {s : St} (hr : Rep s (chars s)) (l : List Nat) (hne : l ≠ []) (pos : Nat) (hp : pos ≤ (chars s).length) (hw : pos + l.length < 2 ^ 64) :
    ∃ r, find s l l.length pos = .ok r ∧ (match r with
      | none => ∀ i, pos ≤ i → ¬ View.OccursAt (chars s) l i
      | some k => pos ≤ k ∧ View.OccursAt (chars s) l k ∧ ∀ i, pos ≤ i → i < k → ¬ View.OccursAt (chars s) l i) := by
  have hl := hr.len
  have hpos : 0 < l.length := List.length_pos_iff.mpr hne
  unfold find
  rw [Nat.mod_eq_of_lt hw]
  by_cases hlt : pos + l.length > s.size
  · rw [if_pos hlt]
    refine ⟨none, rfl, fun i hi hoc => ?_⟩
    have := hoc.2.length_le; rw [List.length_drop] at this; omega
  · rw [if_neg hlt, if_pos (by omega), slice_eq hr pos (s.size - pos) (by omega), List.take_of_length_le (by rw [List.length_drop]; omega)]
    obtain ⟨g1, g2, g3⟩ := Algo.C49_search (fun x y : Nat => x == y) l ((chars s).drop pos)
    generalize Algo.search (fun x y : Nat => x == y) l ((chars s).drop pos) = k at *
    have hd : ∀ i, Algo.MatchAt (fun x y => x == y) ((chars s).drop pos) l i ↔ View.OccursAt (chars s) l (pos + i) := fun i => by
      rw [View.matchAt_iff, View.occurs_drop hp]
    rw [List.length_drop] at g2
    by_cases hk : pos + k = s.size
    · rw [if_pos hk]
      refine ⟨none, rfl, fun i hi hoc => ?_⟩
      rcases g3 with g3 | ⟨_, g3⟩
      · have := ((hd k).mp g3).2.length_le
        rw [List.length_drop] at this; omega
      · exact g3 (i - pos) ((hd _).mpr (by rw [show pos + (i - pos) = i by omega]; exact hoc))
    · rw [if_neg hk]
      refine ⟨some (pos + k), rfl, by omega, ?_, fun i hi hik hoc => ?_⟩
      · rcases g3 with g3 | ⟨g3, _⟩
        · exact (hd k).mp g3
        · rw [List.length_drop] at g3; omega
      · exact g1 (i - pos) (by omega) ((hd _).mpr (by rw [show pos + (i - pos) = i by omega]; exact hoc))

/-- C37: `find` of a non empty text from a position not behind the end: the first place where it is. -/
theorem C37_find {cap : Nat} {os : List Op} {s : St} (h : After cap os s) (l : List Nat) (hne : l ≠ []) (pos : Nat) (hp : pos ≤ (chars s).length) (hw : pos + l.length < 2 ^ 64) :
    ∃ r, find s l l.length pos = .ok r ∧ (match r with
      | none => ∀ i, pos ≤ i → ¬ View.OccursAt (chars s) l i
      | some k => pos ≤ k ∧ View.OccursAt (chars s) l k ∧ ∀ i, pos ≤ i → i < k → ¬ View.OccursAt (chars s) l i) :=
  find_rep h.rep.1 l hne pos hp hw

theorem match_reverse (s t : List Nat) (d j : Nat) (hd : d ≤ s.length) : Algo.MatchAt (fun x y => x == y) (s.reverse.drop d) t.reverse j ↔ d + j + t.length ≤ s.length ∧ View.OccursAt s t (s.length - (d + j) - t.length) := by
  rw [View.matchAt_iff, View.occurs_drop (by rw [List.length_reverse]; exact hd)]
  unfold View.OccursAt
  rw [List.length_reverse, List.drop_reverse, List.reverse_prefix]
  constructor
  · rintro ⟨h1, h2⟩
    have hle := h2.length_le
    rw [List.length_take] at hle
    refine ⟨by omega, by omega, ?_⟩
    rw [List.suffix_iff_eq_drop, List.length_take, Nat.min_eq_left (by omega), List.drop_take] at h2
    have : t <+: List.drop (s.length - (d + j) - t.length) s := by
      have h3 := List.take_prefix (s.length - (d + j) - (s.length - (d + j) - t.length)) (List.drop (s.length - (d + j) - t.length) s)
      rw [← h2] at h3
      exact h3
    exact this
  · rintro ⟨h1, h2, h3⟩
    refine ⟨by omega, ?_⟩
    rw [List.suffix_iff_eq_drop, List.length_take, Nat.min_eq_left (by omega), List.drop_take]
    rw [List.prefix_iff_eq_take] at h3
    rw [show s.length - (d + j) - (s.length - (d + j) - t.length) = t.length by omega]
    exact h3

/-- C37: `rfind` of a non empty text: the last place at which the text ends at or before the position; with `npos` the last place of all.  `std::string` counts where the text begins: `rfind_position_differs`. -/
theorem C37_rfind {cap : Nat} {os : List Op} {s : St} (h : After cap os s) (l : List Nat) (hne : l ≠ []) (pos : Option Nat) :
    match rfind s l pos with
    | none => ∀ i, i + l.length ≤ pos.getD (chars s).length → ¬ View.OccursAt (chars s) l i
    | some k => k + l.length ≤ pos.getD (chars s).length ∧ View.OccursAt (chars s) l k ∧ ∀ i, k < i → i + l.length ≤ pos.getD (chars s).length → ¬ View.OccursAt (chars s) l i := by
  obtain ⟨hr, _⟩ := h.rep
  have hl := hr.len
  have hpos : 0 < l.length := List.length_pos_iff.mpr hne
  have hlen : ∀ i, View.OccursAt (chars s) l i → i + l.length ≤ (chars s).length := fun i hoc => by
    have := hoc.2.length_le; have := hoc.1; rw [List.length_drop] at *; omega
  unfold rfind
  by_cases hlt : l.length > s.size
  · rw [if_pos hlt]
    intro i _ hoc
    have := hlen i hoc; omega
  · rw [if_neg hlt, hl]
    obtain ⟨d, hd⟩ : ∃ d, d = (chars s).length - min (pos.getD (chars s).length) (chars s).length := ⟨_, rfl⟩
    rw [← hd]
    obtain ⟨g1, g2, g3⟩ := Algo.C49_search (fun x y : Nat => x == y) l.reverse ((chars s).reverse.drop d)
    generalize Algo.search (fun x y : Nat => x == y) l.reverse ((chars s).reverse.drop d) = k at *
    rw [List.length_drop, List.length_reverse] at g2
    have back : ∀ i, i + l.length ≤ pos.getD (chars s).length → View.OccursAt (chars s) l i → Algo.MatchAt (fun x y => x == y) ((chars s).reverse.drop d) l.reverse ((chars s).length - l.length - i - d) := by
      intro i hi hoc
      have h1 := hlen i hoc
      rw [match_reverse _ _ _ _ (by omega)]
      refine ⟨by omega, ?_⟩
      rw [show (chars s).length - (d + ((chars s).length - l.length - i - d)) - l.length = i by omega]
      exact hoc
    by_cases hk : d + k = (chars s).length
    · rw [if_pos hk]
      intro i hi hoc
      have hm := back i hi hoc
      rcases g3 with g3 | ⟨_, g3⟩
      · have := ((match_reverse _ _ _ _ (by omega)).mp g3).1
        omega
      · exact g3 _ hm
    · rw [if_neg hk]
      have g3' : Algo.MatchAt (fun x y => x == y) ((chars s).reverse.drop d) l.reverse k := by
        rcases g3 with g3 | ⟨g3, _⟩
        · exact g3
        · rw [List.length_drop, List.length_reverse] at g3; omega
      have hm := (match_reverse _ _ _ _ (by omega)).mp g3'
      rw [show (chars s).length - (d + k) - l.length = (chars s).length - l.length - (d + k) by omega] at hm
      refine ⟨by omega, hm.2, ?_⟩
      intro i hik hi hoc
      have h1 := hlen i hoc
      exact g1 _ (by omega) (back i hi hoc)

/-! ### C60: secure strings -/

/-- the calls that make the memory behind the characters zero -/
def Op.wipes : Op → Bool
  | .assign _ _ _ | .assignN _ _ | .clear | .resize _ _ => true
  | _ => false

theorem wipe_ok {l : List Nat} (h : Rep s l) (hs : s.secure = true) (o : Op) (hw : o.wipes = true) {s' : St} (he : exec? s o = .ok (some s')) : Clean s' := by
  have fin : ∀ {r : Res St} {f q : Bool} {m : List Nat}, lift r = .ok (some s') → (∃ s1, r = .ok s1 ∧ Post s m f q s1 ∧ (s1.secure = true → Clean s1)) → q = true → Clean s' := by
    intro r f q m h1 h2 hq
    obtain ⟨s1, e1, e2, e3⟩ := h2
    rw [e1] at h1
    cases h1
    exact e3 (by rw [e2.sec]; exact hq)
  cases o with
  | assign m t sec => exact fin he (assign_ok s m t sec) (by rw [hs]; rfl)
  | assignN n c => exact fin he (assignN_ok s n c) hs
  | clear => exact fin he (clear_ok s) hs
  | resize n c => exact fin he (resize_ok h n c) hs
  | _ => cases hw

theorem run_append (a b : List Op) : ∀ s : St, run s (a ++ b) = match run s a with
    | .error u => .error u
    | .ok s => run s b := by
  induction a with
  | nil => intro s; rfl
  | cons o a ih =>
    intro s
    simp only [List.cons_append, run]
    cases h : exec? s o with
    | error u => rfl
    | ok r => cases r with
      | none => exact ih s
      | some s1 => exact ih s1
theorem legal_append (N : Nat) (a b : List Op) : ∀ x : Spec, LegalRun N x (a ++ b) ↔ LegalRun N x a ∧ LegalRun N (x.run N a) b := by
  induction a with
  | nil => intro x; simp [LegalRun, Spec.run]
  | cons o a ih => intro x; simp only [List.cons_append, LegalRun, Spec.run, ih]; tauto
theorem spec_append (N : Nat) (a b : List Op) : ∀ x : Spec, x.run N (a ++ b) = (x.run N a).run N b := by
  induction a with
  | nil => intro x; rfl
  | cons o a ih => intro x; simp only [List.cons_append, Spec.run, ih]

/-- C60: after `set_secure` and a call that replaces or resizes the content, no character that is not in the string is left in its memory, whatever was there before and whatever is called afterwards. -/
theorem C60_secure {cap : Nat} {os1 os2 : List Op} {w : Op} {s : St} (hw : w.wipes = true) (h : After cap (os1 ++ .setSecure :: w :: os2) s) : ∀ i, s.size ≤ i → i < cap → s.buf i = 0 := by
  obtain ⟨hl, g, s0, h1, h2⟩ := h
  obtain ⟨s0', k1, k2, k3, k4, _⟩ := make_ok cap g
  rw [h1] at k1; cases k1
  rw [legal_append] at hl
  obtain ⟨l1, -, l2, l3⟩ := hl
  obtain ⟨s1, g1, g2, g3, g4, _⟩ := run_ok os1 s0 ⟨[], false⟩ k3 k4 (by rw [k2]; exact l1)
  rw [k2] at g2 g3 g4
  rw [run_append, g1] at h2
  simp only at h2
  obtain ⟨s2, e1, d1⟩ := exec_ok g3 .setSecure trivial rfl
  have hs2 : s2.secure = true := by
    have : exec? s1 .setSecure = .ok (some { s1 with secure := true }) := rfl
    rw [e1] at this; injection this with this; injection this with this; rw [this]
  have st : ∀ (x : Spec) (o : Op), o.Checked x.chars = true → x.step cap o = ⟨(o.ideal x.chars).take cap, (x.flag && !o.fresh) || decide (cap < (o.ideal x.chars).length) || o.inherited⟩ := fun x o hc => by unfold Spec.step; rw [if_pos hc]
  have r2 : Rep s2 ((Spec.run cap ⟨[], false⟩ os1).step cap .setSecure).chars := by rw [st _ _ rfl]; have := d1.rep; rw [g2] at this; exact this
  have t2 : s2.trunc = ((Spec.run cap ⟨[], false⟩ os1).step cap .setSecure).flag := by rw [st _ _ rfl]; have := d1.trunc; rw [g2, g4] at this; exact this
  have c2 : s2.cap = cap := d1.cap.trans g2
  simp only [run, e1] at h2
  have wc : ∀ l : List Nat, w.Checked l = true := fun l => by cases w <;> first | rfl | cases hw
  obtain ⟨s3, e3, d3⟩ := exec_ok r2 w l2 (wc _)
  rw [e3] at h2
  have cl := wipe_ok r2 hs2 w hw e3
  obtain ⟨s4, f1, f2, f3, f4, f5, f6⟩ := run_ok os2 s3 (((Spec.run cap ⟨[], false⟩ os1).step cap .setSecure).step cap w) (by rw [st _ _ (wc _)]; have := d3.rep; rw [c2] at this; exact this)
    (by rw [st _ _ (wc _)]; have := d3.trunc; rw [c2, t2] at this; exact this) (by rw [d3.cap, c2]; exact l3)
  simp only at h2
  rw [h2] at f1; cases f1
  have := f6 (d3.sec hs2) cl
  intro i h5 h6
  exact this i h5 (by rw [f2, d3.cap, c2]; exact h6)

/-- C60: an assignment from a secure string has the same effect. -/
theorem C60_assign {cap : Nat} {os1 os2 : List Op} {l : List Nat} {t : Bool} {s : St} (h : After cap (os1 ++ .assign l t true :: os2) s) : s.secure = true ∧ ∀ i, s.size ≤ i → i < cap → s.buf i = 0 := by
  obtain ⟨hl, g, s0, h1, h2⟩ := h
  obtain ⟨s0', k1, k2, k3, k4, _⟩ := make_ok cap g
  rw [h1] at k1; cases k1
  rw [legal_append] at hl
  obtain ⟨l1, -, l2⟩ := hl
  obtain ⟨s1, g1, g2, g3, g4, _⟩ := run_ok os1 s0 ⟨[], false⟩ k3 k4 (by rw [k2]; exact l1)
  rw [k2] at g2 g3 g4
  rw [run_append, g1] at h2
  obtain ⟨s2, e1, e2, e3⟩ := assign_ok s1 l t true
  simp only [run, exec?, lift, e1] at h2
  have hs2 : s2.secure = true := by rw [e2.sec, Bool.or_true]
  have st : (Spec.run cap ⟨[], false⟩ os1).step cap (.assign l t true) = ⟨l.take cap, decide (cap < l.length) || t⟩ := by
    unfold Spec.step; rw [if_pos (show Op.Checked _ (Op.assign l t true) = true from rfl)]; simp [Op.ideal, Op.fresh, Op.inherited]; rfl
  rw [st] at l2
  have c2 : s2.cap = cap := e2.cap.trans g2
  obtain ⟨s4, f1, f2, f3, f4, f5, f6⟩ := run_ok os2 s2 ⟨l.take cap, decide (cap < l.length) || t⟩ (by have := e2.rep; rw [g2] at this; exact this) (by have := e2.trunc; rw [g2] at this; exact this) (by rw [c2]; exact l2)
  rw [h2] at f1; cases f1
  refine ⟨f5 hs2, fun i h5 h6 => f6 hs2 (e3 hs2) i h5 (by rw [f2, c2]; exact h6)⟩

/-! ### The text ends where a C function ends it -/

theorem strlen_ok (s : St) (fuel : Nat) : ∀ i, s.buf s.cap = 0 → i ≤ s.cap → s.cap < i + fuel → ∃ n, strlenFrom s fuel i = .ok n ∧ i ≤ n ∧ n ≤ s.cap ∧ s.buf n = 0 ∧ ∀ j, i ≤ j → j < n → s.buf j ≠ 0 := by
  induction fuel with
  | zero => intro i _ h1 h2; omega
  | succ fuel ih =>
    intro i hz h1 h2
    simp only [strlenFrom, get]
    rw [if_pos h1]
    simp only
    by_cases hv : s.buf i = 0
    · exact ⟨i, by rw [if_pos hv], Nat.le_refl _, h1, hv, fun j _ _ => by omega⟩
    · have hne : i ≠ s.cap := fun e => hv (by rw [e]; exact hz)
      obtain ⟨n, g1, g2, g3, g4, g5⟩ := ih (i + 1) hz (by omega) (by omega)
      refine ⟨n, by rw [if_neg hv]; exact g1, by omega, g3, g4, fun j hj hj2 => ?_⟩
      by_cases he : j = i
      · rw [he]; exact hv
      · exact g5 j (by omega) hj2
/-- C37: after the buffer was written from outside, `trim_to_terminator` makes the string end at the first null; the flag tells that there was none. -/
theorem C37_trim (s : St) : ∃ s', trimToTerminator s = .ok s' ∧ s'.size ≤ s'.cap ∧ s'.buf s'.size = 0 ∧ (∀ i, i < s'.size → s'.buf i = s.buf i ∧ s.buf i ≠ 0) ∧ (s'.trunc = true ↔ s.buf s.cap ≠ 0) := by
  obtain ⟨n, g1, g2, g3, g4, g5⟩ := strlen_ok { s with trunc := s.buf s.cap != 0, buf := upd s.buf s.cap 0 } (s.cap + 1) 0 (upd_same _ _ _) (Nat.zero_le _) (by show s.cap < 0 + (s.cap + 1); omega)
  refine ⟨{ s with trunc := s.buf s.cap != 0, buf := upd s.buf s.cap 0, size := n }, ?_, g3, g4, ?_, by simp⟩
  · unfold trimToTerminator
    simp only [get, put]
    rw [if_pos (Nat.le_refl _)]
    simp only
    rw [if_pos (Nat.le_refl _)]
    simp only
    rw [g1]
  · intro i hi
    have g3' : n ≤ s.cap := g3
    have hi' : i < n := hi
    have e : upd s.buf s.cap 0 i = s.buf i := upd_other _ _ (by omega)
    exact ⟨e, by rw [← e]; exact g5 i (Nat.zero_le _) hi'⟩
/-- C37: as a C string the content ends at its first null, inside the buffer. -/
theorem C37_c_str {cap : Nat} {os : List Op} {s : St} (h : After cap os s) : ∃ n, cstr s = .ok n ∧ n ≤ (chars s).length ∧ (0 ∉ (chars s).take n) ∧ (n < (chars s).length → (chars s)[n]? = some 0) := by
  obtain ⟨hr, _⟩ := h.rep
  have hl := hr.len
  have hf := hr.fits
  have hz : s.buf s.size = 0 := by rw [hr.at_ _ (by omega), ch_out (by omega)]
  -- the loop stops at the terminator at the latest
  have key : ∀ fuel i, i ≤ s.size → s.size < i + fuel → ∃ n, strlenFrom s fuel i = .ok n ∧ i ≤ n ∧ n ≤ s.size ∧ s.buf n = 0 ∧ ∀ j, i ≤ j → j < n → s.buf j ≠ 0 := by
    intro fuel
    induction fuel with
    | zero => intro i h1 h2; omega
    | succ fuel ih =>
      intro i h1 h2
      simp only [strlenFrom, get]
      rw [if_pos (by omega)]
      simp only
      by_cases hv : s.buf i = 0
      · exact ⟨i, by rw [if_pos hv], Nat.le_refl _, h1, hv, fun j _ _ => by omega⟩
      · have hne : i ≠ s.size := fun e => hv (by rw [e]; exact hz)
        obtain ⟨n, g1, g2, g3, g4, g5⟩ := ih (i + 1) (by omega) (by omega)
        refine ⟨n, by rw [if_neg hv]; exact g1, by omega, g3, g4, fun j hj hj2 => ?_⟩
        by_cases he : j = i
        · rw [he]; exact hv
        · exact g5 j (by omega) hj2
  obtain ⟨n, g1, _, g3, g4, g5⟩ := key (s.cap + 1) 0 (Nat.zero_le _) (by omega)
  refine ⟨n, g1, by omega, ?_, ?_⟩
  · intro hm
    obtain ⟨j, hj⟩ := List.mem_iff_getElem?.mp hm
    rw [List.getElem?_take] at hj
    split at hj
    · next hjn =>
      have := g5 j (Nat.zero_le _) hjn
      rw [hr.at_ _ (by omega)] at this
      rw [ch_get (by omega)] at hj
      injection hj with hj
      exact this hj
    · cases hj
  · intro hn
    rw [ch_get hn, ← hr.at_ _ (by omega), g4]

/-! ### Examples -/

def ofStr (t : String) : List Nat := t.toList.map Char.toNat
def str (r : Res St) : Option (String × Bool) := match r with
  | .ok s => some (String.ofList ((chars s).map Char.ofNat), s.trunc)
  | .error _ => none
def from_ (cap : Nat) (os : List Op) : Res St := match make cap (fun _ => 63) with
  | .ok s => run s os
  | .error u => .error u

/-- "hello world" into 8 characters, an insertion in the middle, an erasure, a replacement -/
example : str (from_ 8 [.assign (ofStr "hello world") false false]) = some ("hello wo", true) ∧
    str (from_ 8 [.assign (ofStr "abcdef") false false, .insertAt 2 (ofStr "XYZ") false]) = some ("abXYZcde", true) ∧
    str (from_ 8 [.assign (ofStr "abcdef") false false, .insertAt 2 (ofStr "XYZ") false, .erase 1 (some 3), .clearFlag, .replace 1 none (ofStr "12") false]) = some ("a12", false) ∧
    str (from_ 8 [.assign (ofStr "abc") false false, .insertAt 9 (ofStr "XYZ") false]) = some ("abc", false) := by decide +kernel
def sampleOps : List Op := [.assign [1, 2, 3, 4, 5, 6] false false, .insertAt 2 [7, 8, 9] false, .erase 1 (some 3), .replaceN 0 (some 1) 2 5, .insertSub 9 [1] 0 none false, .del 0 1, .push 4]
theorem sample_legal : LegalRun 8 ⟨[], false⟩ sampleOps := by simp [sampleOps, LegalRun, Op.Legal, Spec.step, Op.Checked, Op.ideal, splice]
/-- a history that meets the hypotheses -/
example : ∃ s, After 8 sampleOps s ∧ chars s = [5, 9, 3, 4, 5, 4] ∧ s.trunc = true := by
  obtain ⟨s0, s, h1, h2, h3, h4, _⟩ := C37_history 8 (fun _ => 63) sampleOps sample_legal
  exact ⟨s, ⟨sample_legal, _, s0, h1, h2⟩, h3.trans (by decide +kernel), h4.trans (by decide +kernel)⟩
/-- and for C60 -/
example : ∃ s, After 8 ([.assign [1, 2, 3, 4, 5, 6] false false] ++ .setSecure :: .resize 2 0 :: [.push 9, .pop]) s ∧ s.buf 4 = 0 := by
  have hl : LegalRun 8 ⟨[], false⟩ ([.assign [1, 2, 3, 4, 5, 6] false false] ++ .setSecure :: .resize 2 0 :: [.push 9, .pop]) := by simp [LegalRun, Op.Legal]
  obtain ⟨s0, s, h1, h2, h3, h4, h5, _⟩ := C37_history 8 (fun _ => 63) _ hl
  have ha : After 8 ([.assign [1, 2, 3, 4, 5, 6] false false] ++ .setSecure :: .resize 2 0 :: [.push 9, .pop]) s := ⟨hl, _, s0, h1, h2⟩
  refine ⟨s, ha, C60_secure rfl ha 4 ?_ (by omega)⟩
  rw [h5, h3]; decide +kernel

/-! ### Findings -/

def at_ (r : Res St) (i : Nat) : Option Nat := match r with
  | .ok s => some (s.buf i)
  | .error _ => none
/-- `set_secure` alone wipes nothing: what was there before stays in the memory. -/
theorem set_secure_keeps_old : at_ (from_ 8 [.assign [1, 2, 3] false false, .assign [] false false, .setSecure]) 2 = some 3 := by decide +kernel
/-- `find(text, pos, n)` compares the size with the length of the whole text, not with `n`: "ab" is in "ab", but is not found as the first two characters of "abc". -/
theorem find_count_ignored : (match from_ 8 [.assign [97, 98] false false] with
    | .ok s => (find s [97, 98] 3 0).toOption
    | .error _ => none) = some none := by decide +kernel
/-- `find` from `npos`: the sum wraps and the search begins far outside. -/
theorem find_npos_wraps : (match from_ 8 [.assign [97, 98] false false] with
    | .ok s => (match find s [97] 1 (2 ^ 64 - 1) with
      | .error u => decide (u = .outOfBounds)
      | .ok _ => false)
    | .error _ => false) = true := by decide +kernel
/-- `rfind(text, 2)` in "abab": `std::string` says 2, here the text must end at 2. -/
theorem rfind_position_differs : (match from_ 8 [.assign [97, 98, 97, 98] false false] with
    | .ok s => some (rfind s [97, 98] (some 2))
    | .error _ => none) = some (some 0) ∧ View.OccursAt [97, 98, 97, 98] [97, 98] 2 := ⟨by decide +kernel, by decide, by decide⟩
/-- `rfind(view)` has 0 as its default position: it never finds anything. -/
theorem rfind_view_never_finds (s : St) (l : List Nat) : rfind s l (some 0) = none := by
  have hc : (chars s).length = s.size := by simp [chars, slice]
  unfold rfind
  split
  · rfl
  · rw [if_pos]
    rw [Option.getD_some, Nat.zero_min, Nat.sub_zero, List.drop_of_length_le (by rw [List.length_reverse, hc])]
    cases h : l.reverse <;> simp [Algo.search]
/-- `assign(other, position, length)` does not limit the length: the characters behind the end of the other string (here 0 and 7) are copied. -/
theorem assign_sub_unclamped : (match from_ 8 [] with
    | .ok s => (match assignSub s [1, 2, 0, 7] 2 1 (some 3) false false with
      | .ok (some s) => some (chars s)
      | _ => none)
    | .error _ => none) = some [2, 0, 7] := by decide +kernel
/-- `erase(position, …)` behind the end is not checked. -/
theorem erase_position_unchecked : str (from_ 8 [.assign (ofStr "abc") false false, .erase 5 (some 1)]) = none := by decide +kernel
/-- inserting a part of the string into itself: the characters 3, 4 of "1234" at 1 should give 134234. -/
theorem insert_self_wrong : (match from_ 8 [.assign [1, 2, 3, 4] false false] with
    | .ok s => (match insertRange s 1 2 (.own 2) with
      | .ok s => some (chars s)
      | _ => none)
    | .error _ => none) = some [1, 3, 2, 2, 3, 4] := by decide +kernel
/-- `uninitialized_resize` beyond the capacity cuts without setting the flag. -/
theorem uninitialized_resize_silent : (match from_ 4 [.assign [1, 2] false false] with
    | .ok s => (match uninitializedResize s 9 with
      | .ok s => some (s.size, s.trunc)
      | _ => none)
    | .error _ => none) = some (4, false) := by decide +kernel
/-- `compare(position, length, view)` reads behind the end of the string. -/
theorem compare_view_unlimited : (match from_ 8 [.assign [1, 2] false false] with
    | .ok s => (match compareView s 1 5 [2] with
      | .ok r => some r
      | _ => none)
    | .error _ => none) = some 1 := by decide +kernel

end Etl.Str
