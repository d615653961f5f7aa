import Verif.CStr.Model
import Mathlib.Tactic.Linarith

/-!
# C91: the C string functions
-/
namespace Etl.CStr

/-! ## Specification -/

/-- the characters `p … p + n - 1` exist -/
def Mem.inside (m : Mem) (p n : Nat) : Prop := p + n ≤ m.lim
instance (m : Mem) (p n : Nat) : Decidable (m.inside p n) := inferInstanceAs (Decidable (_ ≤ _))
/-- a terminated string `s` stands at `p`: its characters, none of them null, and a null character -/
structure Mem.str (m : Mem) (p : Nat) (s : List Int) : Prop where
  inside : m.inside p (s.length + 1)
  chars : ∀ i (h : i < s.length), m.at_ (p + i) = s[i]
  nz : ∀ c ∈ s, c ≠ 0
  term : m.at_ (p + s.length) = 0
/-- `m'` is `m` with the `n` characters from `dst` on replaced by the values of `v` -/
structure Replaced (m m' : Mem) (dst n : Nat) (v : Nat → Int) : Prop where
  lim : m'.lim = m.lim
  new : ∀ i, i < n → m'.at_ (dst + i) = v i
  old : ∀ j, j < dst ∨ dst + n ≤ j → m'.at_ j = m.at_ j

/-- what a three-way comparison of `n` characters has to answer: the sign of the first difference -/
structure Compares (a b : Nat → Int) (n : Nat) (r : Int) : Prop where
  lt : r = -1 ↔ ∃ k, k < n ∧ (∀ j, j < k → a j = b j) ∧ a k < b k
  gt : r = 1 ↔ ∃ k, k < n ∧ (∀ j, j < k → a j = b j) ∧ b k < a k
  eq : r = 0 ↔ ∀ j, j < n → a j = b j
/-- the same for strings, with the lexicographic order of lists -/
structure ComparesStr (s t : List Int) (r : Int) : Prop where
  lt : r = -1 ↔ s < t
  gt : r = 1 ↔ t < s
  eq : r = 0 ↔ s = t

/-! ## Lemmas -/

theorem rd_ok {m : Mem} {p : Nat} (h : p < m.lim) : m.rd p = .ok (m.at_ p) := if_pos h
theorem wr_ok {m : Mem} {p : Nat} (c : Int) (h : p < m.lim) : m.wr p c = .ok { m with at_ := upd m.at_ p c } := if_pos h

theorem Mem.str.tail {m : Mem} {p : Nat} {c : Int} {s : List Int} (h : m.str p (c :: s)) : m.str (p + 1) s where
  inside := by have := h.inside; simp only [Mem.inside, List.length_cons] at this ⊢; omega
  chars i hi := by have := h.chars (i + 1) (by simp; omega); rw [show p + 1 + i = p + (i + 1) by omega, this]; simp
  nz x hx := h.nz x (by simp [hx])
  term := by have := h.term; rw [List.length_cons] at this; rw [show p + 1 + s.length = p + (s.length + 1) by omega, this]
theorem Mem.str.pos {m : Mem} {p : Nat} {s : List Int} (h : m.str p s) : p < m.lim := by have := h.inside; simp only [Mem.inside] at this; omega
theorem Mem.str.head {m : Mem} {p : Nat} {c : Int} {s : List Int} (h : m.str p (c :: s)) : m.at_ p = c := by have := h.chars 0 (by simp); simpa using this
theorem Mem.str.head_nz {m : Mem} {p : Nat} {c : Int} {s : List Int} (h : m.str p (c :: s)) : c ≠ 0 := h.nz c (by simp)
theorem Mem.str.head0 {m : Mem} {p : Nat} (h : m.str p []) : m.at_ p = 0 := by have := h.term; simpa using this

theorem lengthLoop_str {m : Mem} : ∀ (s : List Int) (f p k : Nat), m.str p s → s.length < f → lengthLoop m f p k = .ok (k + s.length)
  | [], f + 1, p, k, h, _ => by rw [lengthLoop, rd_ok h.pos]; simp [h.head0]
  | c :: s, f + 1, p, k, h, hf => by
    rw [lengthLoop, rd_ok h.pos]; simp only [h.head, ne_eq, h.head_nz, not_false_eq_true, if_true]
    rw [lengthLoop_str s f (p + 1) (k + 1) h.tail (by simp at hf; omega)]; simp; omega
  | [], 0, _, _, _, hf => by simp at hf
  | _ :: _, 0, _, _, _, hf => by simp at hf

theorem lengthLoop_inv {m : Mem} : ∀ (f p k n : Nat), lengthLoop m f p k = .ok n → ∃ s, m.str p s ∧ n = k + s.length
  | 0, _, _, _, h => by simp [lengthLoop] at h
  | f + 1, p, k, n, h => by
    rw [lengthLoop] at h
    by_cases hp : p < m.lim
    · rw [rd_ok hp] at h
      by_cases hc : m.at_ p = 0
      · simp only [hc, ne_eq, not_true_eq_false, if_false, Except.ok.injEq] at h
        exact ⟨[], ⟨by simp only [Mem.inside, List.length_nil]; omega, by simp, by simp, by simpa using hc⟩, by simp [h]⟩
      · simp only [ne_eq, hc, not_false_eq_true, if_true] at h
        obtain ⟨s, hs, hn⟩ := lengthLoop_inv f (p + 1) (k + 1) n h
        refine ⟨m.at_ p :: s, ⟨?_, ?_, ?_, ?_⟩, by simp; omega⟩
        · have := hs.inside; simp only [Mem.inside, List.length_cons] at this ⊢; omega
        · intro i hi
          cases i with
          | zero => simp
          | succ i => simp only [List.getElem_cons_succ]; rw [← hs.chars i (by simpa using hi)]; congr 1; omega
        · intro c hcm; rcases List.mem_cons.1 hcm with rfl | hm
          · exact hc
          · exact hs.nz c hm
        · rw [← hs.term]; congr 1; simp; omega
    · rw [Mem.rd, if_neg hp] at h; simp at h

/-- **C91**: `strlen` answers the length of the string; it stays inside the memory exactly if there is a terminator.  A null pointer has length 0. -/
theorem C91_strlen (m : Mem) (p n : Nat) : (length m (some p) = .ok n ↔ ∃ s, m.str p s ∧ n = s.length) ∧ length m none = .ok 0 := by
  refine ⟨⟨fun h => ?_, ?_⟩, rfl⟩
  · obtain ⟨s, hs, hn⟩ := lengthLoop_inv _ _ _ _ h; exact ⟨s, hs, by omega⟩
  · rintro ⟨s, hs, rfl⟩
    show lengthLoop m (m.lim + 1) p 0 = _
    rw [lengthLoop_str s _ p 0 hs (by have := hs.inside; simp only [Mem.inside] at this; omega)]; simp

theorem lengthMaxLoop_str {m : Mem} : ∀ (s : List Int) (left p k : Nat), m.str p s → lengthMaxLoop m left p k = .ok (k + min left s.length)
  | _, 0, p, k, _ => by simp [lengthMaxLoop]
  | [], l + 1, p, k, h => by rw [lengthMaxLoop, rd_ok h.pos]; simp [h.head0]
  | c :: s, l + 1, p, k, h => by
    rw [lengthMaxLoop, rd_ok h.pos]; simp only [h.head, ne_eq, h.head_nz, not_false_eq_true, if_true]
    rw [lengthMaxLoop_str s l (p + 1) (k + 1) h.tail]; simp; omega

/-- **C91**: with a maximum the answer is the smaller of the two. -/
theorem C91_strlen_max (m : Mem) (p max : Nat) (s : List Int) (h : m.str p s) : lengthMax m (some p) max = .ok (min max s.length) := by
  rw [lengthMax, lengthMaxLoop_str s max p 0 h]; simp
theorem lengthMaxLoop_room {m : Mem} : ∀ (left p k : Nat), m.inside p left →
    ∃ n, lengthMaxLoop m left p k = .ok (k + n) ∧ n ≤ left ∧ (∀ i, i < n → m.at_ (p + i) ≠ 0) ∧ (n < left → m.at_ (p + n) = 0)
  | 0, p, k, _ => ⟨0, rfl, by omega, by omega, by omega⟩
  | l + 1, p, k, h => by
    have hp : p < m.lim := by simp only [Mem.inside] at h; omega
    rw [lengthMaxLoop, rd_ok hp]
    by_cases hc : m.at_ p = 0
    · exact ⟨0, by simp [hc], by omega, by omega, fun _ => by simpa using hc⟩
    · obtain ⟨n, h1, h2, h3, h4⟩ := lengthMaxLoop_room (m := m) l (p + 1) (k + 1) (by simp only [Mem.inside] at h ⊢; omega)
      refine ⟨n + 1, by simp only [ne_eq, hc, not_false_eq_true, if_true]; rw [h1]; simp; omega, by omega, ?_, ?_⟩
      · intro i hi
        cases i with
        | zero => simpa using hc
        | succ i => have := h3 i (by omega); rwa [show p + 1 + i = p + (i + 1) by omega] at this
      · intro hn; have := h4 (by omega); rwa [show p + 1 + n = p + (n + 1) by omega] at this
/-- **C91**: with a maximum no terminator is needed: not more than `max` characters are read, and the answer is the number of characters before the first null among them. -/
theorem C91_strlen_max_unterminated (m : Mem) (p max : Nat) (h : m.inside p max) :
    ∃ n, lengthMax m (some p) max = .ok n ∧ n ≤ max ∧ (∀ i, i < n → m.at_ (p + i) ≠ 0) ∧ (n < max → m.at_ (p + n) = 0) := by
  obtain ⟨n, h1, h2⟩ := lengthMaxLoop_room max p 0 h
  exact ⟨n, by rw [lengthMax, h1]; simp, h2⟩

theorem fillN_ok : ∀ (n : Nat) (m : Mem) (p : Nat) (c : Int), m.inside p n → ∃ m', fillN m p c n = .ok m' ∧ Replaced m m' p n (fun _ => c)
  | 0, m, p, c, _ => ⟨m, rfl, rfl, by omega, by simp⟩
  | n + 1, m, p, c, h => by
    have hp : p < m.lim := by simp only [Mem.inside] at h; omega
    obtain ⟨m', h1, h2⟩ := fillN_ok n { m with at_ := upd m.at_ p c } (p + 1) c (by simp only [Mem.inside] at h ⊢; omega)
    refine ⟨m', by rw [fillN, wr_ok c hp]; exact h1, h2.lim, ?_, ?_⟩
    · intro i hi
      cases i with
      | zero => rw [h2.old _ (by omega)]; simp
      | succ i => have := h2.new i (by omega); rwa [show p + 1 + i = p + (i + 1) by omega] at this
    · intro j hj; rw [h2.old j (by omega)]; exact upd_other _ _ (by omega)

/-- **C91**: `assign` writes the character `n` times and changes nothing else. -/
theorem C91_assign (m : Mem) (p n : Nat) (c : Int) (h : m.inside p n) :
    (∃ m', assign m (some p) n c = .ok m' ∧ Replaced m m' p n (fun _ => c)) ∧ assign m none n c = .ok m := ⟨fillN_ok n m p c h, rfl⟩

theorem copyN_ok : ∀ (n : Nat) (m : Mem) (src dst : Nat), m.inside src n → m.inside dst n → (dst ≤ src ∨ src + n ≤ dst) →
    ∃ m', copyN m src dst n = .ok m' ∧ Replaced m m' dst n (fun i => m.at_ (src + i))
  | 0, m, src, dst, _, _, _ => ⟨m, rfl, rfl, by omega, by simp⟩
  | n + 1, m, src, dst, h, h', ho => by
    simp only [Mem.inside] at h h'
    obtain ⟨m', h1, h2⟩ := copyN_ok n { m with at_ := upd m.at_ dst (m.at_ src) } (src + 1) (dst + 1) (by simp only [Mem.inside]; omega) (by simp only [Mem.inside]; omega) (by omega)
    refine ⟨m', by rw [copyN, rd_ok (by omega)]; simp only [wr_ok _ (show dst < m.lim by omega)]; exact h1, h2.lim, ?_, ?_⟩
    · intro i hi
      cases i with
      | zero => rw [h2.old _ (by omega)]; simp
      | succ i =>
        have := h2.new i (by omega)
        rw [show dst + 1 + i = dst + (i + 1) by omega] at this
        rw [this, show src + 1 + i = src + (i + 1) by omega]; exact upd_other _ _ (by omega)
    · intro j hj; rw [h2.old j (by omega)]; exact upd_other _ _ (by omega)

theorem copyRev_ok : ∀ (n : Nat) (m : Mem) (src dst : Nat), m.inside src n → m.inside dst n → src ≤ dst →
    ∃ m', copyRev m (src + n) (dst + n) n = .ok m' ∧ Replaced m m' dst n (fun i => m.at_ (src + i))
  | 0, m, src, dst, _, _, _ => ⟨m, rfl, rfl, by omega, by simp⟩
  | n + 1, m, src, dst, h, h', ho => by
    simp only [Mem.inside] at h h'
    obtain ⟨m', h1, h2⟩ := copyRev_ok n { m with at_ := upd m.at_ (dst + n) (m.at_ (src + n)) } src dst (by simp only [Mem.inside]; omega) (by simp only [Mem.inside]; omega) ho
    refine ⟨m', by rw [copyRev, rd_ok (by omega)]; simp only [show src + (n + 1) - 1 = src + n by omega, show dst + (n + 1) - 1 = dst + n by omega, wr_ok _ (show dst + n < m.lim by omega)]; exact h1, h2.lim, ?_, ?_⟩
    · intro i hi
      by_cases hin : i < n
      · rw [h2.new i hin]; exact upd_other _ _ (by omega)
      · obtain rfl : i = n := by omega
        rw [h2.old _ (by omega)]; simp
    · intro j hj; rw [h2.old j (by omega)]; exact upd_other _ _ (by omega)

/-- **C91**: `move` is right for all ranges, however they overlap: afterwards the destination holds what the source held before, and nothing else has changed. -/
theorem C91_move (m : Mem) (dst src n : Nat) (hs : m.inside src n) (hd : m.inside dst n) :
    ∃ m', move m dst src n = .ok m' ∧ Replaced m m' dst n (fun i => m.at_ (src + i)) := by
  rw [move]; split
  · exact copyN_ok n m src dst hs hd (by omega)
  · exact copyRev_ok n m src dst hs hd (by omega)

/-- **C91**: `copy` does the same if the destination does not begin inside the source. -/
theorem C91_copy (m : Mem) (dst src n : Nat) (hs : m.inside src n) (hd : m.inside dst n) (ho : dst ≤ src ∨ src + n ≤ dst) :
    ∃ m', copy m dst src n = .ok m' ∧ Replaced m m' dst n (fun i => m.at_ (src + i)) := copyN_ok n m src dst hs hd ho

theorem compares_step {a b : Nat → Int} {n : Nat} {r : Int} (h0 : a 0 = b 0) (h : Compares (fun i => a (i + 1)) (fun i => b (i + 1)) n r) : Compares a b (n + 1) r where
  lt := by
    rw [h.lt]; constructor
    · rintro ⟨k, hk, hj, hl⟩
      exact ⟨k + 1, by omega, fun j hjk => by cases j with | zero => exact h0 | succ j => exact hj j (by omega), hl⟩
    · rintro ⟨k, hk, hj, hl⟩
      cases k with
      | zero => omega
      | succ k => exact ⟨k, by omega, fun j hjk => hj (j + 1) (by omega), hl⟩
  gt := by
    rw [h.gt]; constructor
    · rintro ⟨k, hk, hj, hl⟩
      exact ⟨k + 1, by omega, fun j hjk => by cases j with | zero => exact h0 | succ j => exact hj j (by omega), hl⟩
    · rintro ⟨k, hk, hj, hl⟩
      cases k with
      | zero => omega
      | succ k => exact ⟨k, by omega, fun j hjk => hj (j + 1) (by omega), hl⟩
  eq := by
    rw [h.eq]; constructor
    · intro hh j hj; cases j with
      | zero => exact h0
      | succ j => exact hh j (by omega)
    · intro hh j hj; exact hh (j + 1) (by omega)
theorem compares_lt {a b : Nat → Int} {n : Nat} (hl : a 0 < b 0) : Compares a b (n + 1) (-1) where
  lt := ⟨fun _ => ⟨0, by omega, by omega, hl⟩, fun _ => rfl⟩
  gt := ⟨fun h => by omega, by rintro ⟨k, _, hj, hk⟩; cases k with | zero => omega | succ k => have := hj 0 (by omega); omega⟩
  eq := ⟨fun h => by omega, fun h => by have := h 0 (by omega); omega⟩
theorem compares_gt {a b : Nat → Int} {n : Nat} (hl : b 0 < a 0) : Compares a b (n + 1) 1 where
  gt := ⟨fun _ => ⟨0, by omega, by omega, hl⟩, fun _ => rfl⟩
  lt := ⟨fun h => by omega, by rintro ⟨k, _, hj, hk⟩; cases k with | zero => omega | succ k => have := hj 0 (by omega); omega⟩
  eq := ⟨fun h => by omega, fun h => by have := h 0 (by omega); omega⟩

/-- **C91**: `compare` reads `n` characters of both and answers the sign of the first difference, 0 if there is none. -/
theorem C91_compare (m : Mem) (n s1 s2 : Nat) (h1 : m.inside s1 n) (h2 : m.inside s2 n) :
    ∃ r, compare m s1 s2 n = .ok r ∧ Compares (fun i => m.at_ (s1 + i)) (fun i => m.at_ (s2 + i)) n r := by
  induction n generalizing s1 s2 with
  | zero => exact ⟨0, rfl, by constructor <;> simp⟩
  | succ n ih =>
    simp only [Mem.inside] at h1 h2
    rw [compare, rd_ok (by omega)]; simp only [rd_ok (show s2 < m.lim by omega)]
    split
    · exact ⟨-1, rfl, compares_lt (by simpa)⟩
    · split
      · exact ⟨1, rfl, compares_gt (by simpa)⟩
      · obtain ⟨r, hr, hc⟩ := ih (s1 + 1) (s2 + 1) (by simp only [Mem.inside]; omega) (by simp only [Mem.inside]; omega)
        refine ⟨r, hr, compares_step (by simp; omega) ?_⟩
        have e : ∀ s, (fun i => m.at_ (s + (i + 1))) = fun i => m.at_ (s + 1 + i) := fun s => by funext i; congr 1; omega
        show Compares (fun i => m.at_ (s1 + (i + 1))) (fun i => m.at_ (s2 + (i + 1))) n r
        rw [e, e]; exact hc

/-- **C91**: `find` answers the first place of the character among the `n`, null if there is none. -/
theorem C91_find (m : Mem) (n p : Nat) (c : Int) (h : m.inside p n) : ∃ r, find m p c n = .ok r ∧
    (∀ q, r = some q ↔ p ≤ q ∧ q < p + n ∧ m.at_ q = c ∧ ∀ j, p ≤ j → j < q → m.at_ j ≠ c) ∧ (r = none ↔ ∀ j, p ≤ j → j < p + n → m.at_ j ≠ c) := by
  induction n generalizing p with
  | zero => exact ⟨none, rfl, by intro q; simp; omega, by simp; omega⟩
  | succ n ih =>
    simp only [Mem.inside] at h
    rw [find, rd_ok (by omega)]
    by_cases hc : m.at_ p = c
    · refine ⟨some p, by simp [hc], fun q => ⟨?_, ?_⟩, ⟨by simp, fun hh => absurd hc (hh p (by omega) (by omega))⟩⟩
      · intro e; obtain rfl : p = q := Option.some.inj e; exact ⟨by omega, by omega, hc, by omega⟩
      · rintro ⟨h1, _, _, h2⟩
        by_cases hq : p = q
        · rw [hq]
        · exact absurd hc (h2 p (by omega) (by omega))
    · obtain ⟨r, hr, hs, hn⟩ := ih (p + 1) (by simp only [Mem.inside]; omega)
      refine ⟨r, by simp [hc, hr], fun q => ?_, ?_⟩
      · rw [hs q]; constructor
        · rintro ⟨h1, h2, h3, h4⟩
          refine ⟨by omega, by omega, h3, fun j hj hq => ?_⟩
          by_cases e : j = p
          · rw [e]; exact hc
          · exact h4 j (by omega) hq
        · rintro ⟨h1, h2, h3, h4⟩
          have : q ≠ p := fun e => hc (e ▸ h3)
          exact ⟨by omega, by omega, h3, fun j hj hq => h4 j (by omega) hq⟩
      · rw [hn]; constructor
        · intro hh j hj hq
          by_cases e : j = p
          · rw [e]; exact hc
          · exact hh j (by omega) (by omega)
        · intro hh j hj hq; exact hh j (by omega) (by omega)

theorem cmp_nil : ComparesStr [] [] 0 := ⟨by simp, by simp, by simp⟩
theorem cmp_lt {s t : List Int} (h : s < t) : ComparesStr s t (-1) :=
  ⟨by simp [h], by simp; exact List.not_lt.1 (fun h' => List.lt_irrefl _ (List.lt_trans h h')), by simp; rintro rfl; exact List.lt_irrefl _ h⟩
theorem cmp_gt {s t : List Int} (h : t < s) : ComparesStr s t 1 :=
  ⟨by simp; exact List.not_lt.1 (fun h' => List.lt_irrefl _ (List.lt_trans h h')), by simp [h], by simp; rintro rfl; exact List.lt_irrefl _ h⟩
theorem cmp_cons {c : Int} {s t : List Int} {r : Int} (h : ComparesStr s t r) : ComparesStr (c :: s) (c :: t) r :=
  ⟨by rw [h.lt, List.cons_lt_cons_iff]; simp, by rw [h.gt, List.cons_lt_cons_iff]; simp, by rw [h.eq]; simp⟩

theorem more_nil {m : Mem} {p q : Nat} (h : m.str p []) (h' : m.str q []) : more m p q = .ok false := by
  rw [more, rd_ok h.pos, rd_ok h'.pos]; simp [h.head0, h'.head0]
theorem more_nc {m : Mem} {p q : Nat} {d : Int} {t : List Int} (h : m.str p []) (h' : m.str q (d :: t)) : more m p q = .ok true := by
  rw [more, rd_ok h.pos, rd_ok h'.pos]; simp [h.head0, h'.head, h'.head_nz]
theorem more_c {m : Mem} {p q : Nat} {c : Int} {s : List Int} (h : m.str p (c :: s)) : more m p q = .ok true := by
  rw [more, rd_ok h.pos]; simp [h.head, h.head_nz]

/-- characters as the unsigned types have them: the null character is the smallest -/
def NonNeg (s : List Int) : Prop := ∀ c ∈ s, 0 ≤ c

theorem strcmpLoop_ok {m : Mem} : ∀ (s t : List Int) (f p q : Nat), m.str p s → m.str q t → NonNeg s → NonNeg t → s.length < f → ∃ r, strcmpLoop m f p q = .ok r ∧ ComparesStr s t r
  | _, _, 0, _, _, _, _, _, _, hf => by simp at hf
  | [], [], f + 1, p, q, hs, ht, _, _, hf => ⟨0, by rw [strcmpLoop, more_nil hs ht], cmp_nil⟩
  | [], d :: t, f + 1, p, q, hs, ht, _, nt, hf => by
    have := ht.head_nz; have := nt d (by simp)
    exact ⟨-1, by rw [strcmpLoop, more_nc hs ht]; simp only [rd_ok hs.pos, rd_ok ht.pos, hs.head0, ht.head]; rw [if_neg (by omega), if_pos (by omega)], cmp_lt (List.nil_lt_cons _ _)⟩
  | c :: s, [], f + 1, p, q, hs, ht, ns, _, hf => by
    have := hs.head_nz; have := ns c (by simp)
    exact ⟨1, by rw [strcmpLoop, more_c hs]; simp only [rd_ok hs.pos, rd_ok ht.pos, hs.head, ht.head0]; rw [if_pos (by omega)], cmp_gt (List.nil_lt_cons _ _)⟩
  | c :: s, d :: t, f + 1, p, q, hs, ht, ns, nt, hf => by
    rw [strcmpLoop, more_c hs]; simp only [rd_ok hs.pos, rd_ok ht.pos, hs.head, ht.head]
    split
    · exact ⟨1, rfl, cmp_gt (List.cons_lt_cons_iff.2 (.inl (by omega)))⟩
    · split
      · exact ⟨-1, rfl, cmp_lt (List.cons_lt_cons_iff.2 (.inl (by omega)))⟩
      · obtain rfl : c = d := by omega
        obtain ⟨r, hr, hc⟩ := strcmpLoop_ok s t f (p + 1) (q + 1) hs.tail ht.tail (fun x hx => ns x (by simp [hx])) (fun x hx => nt x (by simp [hx])) (by simp at hf; omega)
        exact ⟨r, hr, cmp_cons hc⟩

/-- **C91**: `strcmp` of two strings answers their lexicographic order; it needs nothing behind the terminators.  The characters are those of an unsigned character type
(for a signed one see `C91_strcmp_signed`). -/
theorem C91_strcmp (m : Mem) (p q : Nat) (s t : List Int) (hs : m.str p s) (ht : m.str q t) (ns : NonNeg s) (nt : NonNeg t) : ∃ r, strcmp m p q = .ok r ∧ ComparesStr s t r :=
  strcmpLoop_ok s t _ p q hs ht ns nt (by have := hs.inside; simp only [Mem.inside] at this; omega)

theorem strncmp_ok {m : Mem} : ∀ (n : Nat) (s t : List Int) (p q : Nat), m.str p s → m.str q t → NonNeg s → NonNeg t → ∃ r, strncmp m p q n = .ok r ∧ ComparesStr (s.take n) (t.take n) r
  | 0, s, t, p, q, hs, ht, ns, nt => by
    refine ⟨0, ?_, by simpa using cmp_nil⟩
    rw [strncmp]
    cases s with
    | cons c s => rw [more_c hs]
    | nil => cases t with
      | nil => rw [more_nil hs ht]
      | cons d t => rw [more_nc hs ht]
  | n + 1, [], [], p, q, hs, ht, _, _ => ⟨0, by rw [strncmp, more_nil hs ht], by simpa using cmp_nil⟩
  | n + 1, [], d :: t, p, q, hs, ht, _, nt => by
    have := ht.head_nz; have := nt d (by simp)
    exact ⟨-1, by rw [strncmp, more_nc hs ht]; simp only [rd_ok hs.pos, rd_ok ht.pos, hs.head0, ht.head]; rw [if_pos (by omega)], cmp_lt (List.nil_lt_cons _ _)⟩
  | n + 1, c :: s, [], p, q, hs, ht, ns, _ => by
    have := hs.head_nz; have := ns c (by simp)
    exact ⟨1, by rw [strncmp, more_c hs]; simp only [rd_ok hs.pos, rd_ok ht.pos, hs.head, ht.head0]; rw [if_neg (by omega), if_pos (by omega)], cmp_gt (List.nil_lt_cons _ _)⟩
  | n + 1, c :: s, d :: t, p, q, hs, ht, ns, nt => by
    rw [strncmp, more_c hs]; simp only [rd_ok hs.pos, rd_ok ht.pos, hs.head, ht.head]
    split
    · exact ⟨-1, rfl, cmp_lt (List.cons_lt_cons_iff.2 (.inl (by omega)))⟩
    · split
      · exact ⟨1, rfl, cmp_gt (List.cons_lt_cons_iff.2 (.inl (by omega)))⟩
      · obtain rfl : c = d := by omega
        obtain ⟨r, hr, hc⟩ := strncmp_ok n s t (p + 1) (q + 1) hs.tail ht.tail (fun x hx => ns x (by simp [hx])) (fun x hx => nt x (by simp [hx]))
        exact ⟨r, hr, cmp_cons hc⟩

/-- **C91**: `strncmp` of two terminated strings answers the order of their first `n` characters.  Partial: the arguments of `strncmp` need no terminator if they have `n` characters, but
the function reads one more (`C91_strncmp_overread`). -/
theorem C91_strncmp_partial (m : Mem) (n p q : Nat) (s t : List Int) (hs : m.str p s) (ht : m.str q t) (ns : NonNeg s) (nt : NonNeg t) :
    ∃ r, strncmp m p q n = .ok r ∧ ComparesStr (s.take n) (t.take n) r := strncmp_ok n s t p q hs ht ns nt

theorem strcpyLoop_ok : ∀ (s : List Int) (f : Nat) (m : Mem) (dst src : Nat), m.str src s → m.inside dst (s.length + 1) → (dst ≤ src ∨ src + s.length < dst) → s.length < f →
    ∃ m', strcpyLoop m f dst src = .ok m' ∧ Replaced m m' dst (s.length + 1) (fun i => m.at_ (src + i))
  | _, 0, _, _, _, _, _, _, hf => by simp at hf
  | [], f + 1, m, dst, src, hs, hd, ho, hf => by
    simp only [Mem.inside, List.length_nil] at hd
    refine ⟨{ m with at_ := upd m.at_ dst 0 }, by rw [strcpyLoop, rd_ok hs.pos]; simp only [hs.head0, ne_eq, not_true_eq_false, if_false, wr_ok _ (show dst < m.lim by omega)], rfl, ?_, ?_⟩
    · intro i hi; obtain rfl : i = 0 := by simp at hi; omega
      simp [hs.head0]
    · intro j hj; exact upd_other _ _ (by simp at hj; omega)
  | c :: s, f + 1, m, dst, src, hs, hd, ho, hf => by
    simp only [Mem.inside, List.length_cons] at hd ho hf
    have hi := hs.inside; simp only [Mem.inside, List.length_cons] at hi
    have ht := hs.tail
    have hstr : Mem.str { m with at_ := upd m.at_ dst c } (src + 1) s :=
      ⟨ht.inside, fun i h => by show upd m.at_ dst c (src + 1 + i) = _; rw [upd_other _ _ (by omega)]; exact ht.chars i h, ht.nz, by show upd m.at_ dst c (src + 1 + s.length) = _; rw [upd_other _ _ (by omega)]; exact ht.term⟩
    obtain ⟨m', h1, h2⟩ := strcpyLoop_ok s f { m with at_ := upd m.at_ dst c } (dst + 1) (src + 1) hstr (by simp only [Mem.inside]; omega) (by omega) (by omega)
    refine ⟨m', by rw [strcpyLoop, rd_ok hs.pos]; simp only [hs.head, ne_eq, hs.head_nz, not_false_eq_true, if_true, wr_ok _ (show dst < m.lim by omega)]; exact h1, h2.lim, ?_, ?_⟩
    · intro i hi
      cases i with
      | zero => rw [h2.old _ (by omega)]; simp [hs.head]
      | succ i =>
        have := h2.new i (by simp at hi; omega)
        rw [show dst + 1 + i = dst + (i + 1) by omega] at this
        rw [this, show src + 1 + i = src + (i + 1) by omega]; exact upd_other _ _ (by simp at hi; omega)
    · intro j hj; simp at hj; rw [h2.old j (by omega)]; exact upd_other _ _ (by omega)

/-- **C91**: `strcpy` copies the characters and the terminator, and nothing else changes (also if the ranges overlap, provided the destination does not begin inside the source). -/
theorem C91_strcpy (m : Mem) (dst src : Nat) (s : List Int) (hs : m.str src s) (hd : m.inside dst (s.length + 1)) (ho : dst ≤ src ∨ src + s.length < dst) :
    ∃ m', strcpy m dst src = .ok m' ∧ Replaced m m' dst (s.length + 1) (fun i => m.at_ (src + i)) ∧ m'.str dst s := by
  have hi := hs.inside; simp only [Mem.inside] at hi
  obtain ⟨m', h1, h2⟩ := strcpyLoop_ok s (m.lim + 1) m dst src hs hd ho (by omega)
  refine ⟨m', h1, h2, by simp only [Mem.inside, h2.lim]; exact hd, fun i h => ?_, hs.nz, ?_⟩
  · rw [h2.new i (by omega)]; exact hs.chars i h
  · rw [h2.new _ (by omega)]; exact hs.term

theorem strncpy_ok : ∀ (n : Nat) (s : List Int) (m : Mem) (dst src : Nat), m.str src s → m.inside dst (min n s.length + 1) → (dst ≤ src ∨ src + s.length < dst) →
    ∃ m', strncpy m dst src n = .ok m' ∧ Replaced m m' dst (min n s.length + 1) (fun i => if i < min n s.length then m.at_ (src + i) else 0)
  | 0, s, m, dst, src, hs, hd, ho => by
    simp only [Mem.inside, Nat.zero_min] at hd
    refine ⟨{ m with at_ := upd m.at_ dst 0 }, by rw [strncpy, rd_ok hs.pos]; simp only [wr_ok _ (show dst < m.lim by omega)], rfl, ?_, ?_⟩
    · intro i hi; obtain rfl : i = 0 := by simp at hi; omega
      simp
    · intro j hj; exact upd_other _ _ (by simp at hj; omega)
  | n + 1, [], m, dst, src, hs, hd, ho => by
    simp only [Mem.inside, List.length_nil, Nat.min_zero] at hd
    refine ⟨{ m with at_ := upd m.at_ dst 0 }, by rw [strncpy, rd_ok hs.pos]; simp only [hs.head0, ne_eq, not_true_eq_false, if_false, wr_ok _ (show dst < m.lim by omega)], rfl, ?_, ?_⟩
    · intro i hi; obtain rfl : i = 0 := by simp at hi; omega
      simp
    · intro j hj; exact upd_other _ _ (by simp at hj; omega)
  | n + 1, c :: s, m, dst, src, hs, hd, ho => by
    simp only [Mem.inside, List.length_cons] at hd ho
    have hi := hs.inside; simp only [Mem.inside, List.length_cons] at hi
    have ht := hs.tail
    have hstr : Mem.str { m with at_ := upd m.at_ dst c } (src + 1) s :=
      ⟨ht.inside, fun i h => by show upd m.at_ dst c (src + 1 + i) = _; rw [upd_other _ _ (by omega)]; exact ht.chars i h, ht.nz, by show upd m.at_ dst c (src + 1 + s.length) = _; rw [upd_other _ _ (by omega)]; exact ht.term⟩
    obtain ⟨m', h1, h2⟩ := strncpy_ok n s { m with at_ := upd m.at_ dst c } (dst + 1) (src + 1) hstr (by simp only [Mem.inside]; omega) (by omega)
    have e : min (n + 1) (s.length + 1) = min n s.length + 1 := by omega
    refine ⟨m', by rw [strncpy, rd_ok hs.pos]; simp only [hs.head, ne_eq, hs.head_nz, not_false_eq_true, if_true, wr_ok _ (show dst < m.lim by omega)]; exact h1, h2.lim, ?_, ?_⟩
    · intro i hi
      simp only [List.length_cons, e] at hi ⊢
      cases i with
      | zero => rw [h2.old _ (by omega)]; simp [hs.head]
      | succ i =>
        have := h2.new i (by omega)
        rw [show dst + 1 + i = dst + (i + 1) by omega] at this
        rw [this]
        by_cases hl : i < min n s.length
        · rw [if_pos hl, if_pos (by omega), show src + 1 + i = src + (i + 1) by omega]; exact upd_other _ _ (by omega)
        · rw [if_neg hl, if_neg (by omega)]
    · intro j hj; simp only [List.length_cons, e] at hj; rw [h2.old j (by omega)]; exact upd_other _ _ (by omega)

/-- **C91**: `strncpy` leaves a terminated copy of the first `n` characters.  Partial: unlike its namesake it writes a terminator behind them, `n + 1` characters in all
(`C91_strncpy_overwrite`), and does not fill the rest with null characters. -/
theorem C91_strncpy_partial (m : Mem) (n dst src : Nat) (s : List Int) (hs : m.str src s) (hd : m.inside dst (min n s.length + 1)) (ho : dst ≤ src ∨ src + s.length < dst) :
    ∃ m', strncpy m dst src n = .ok m' ∧ Replaced m m' dst (min n s.length + 1) (fun i => if i < min n s.length then m.at_ (src + i) else 0) ∧ m'.str dst (s.take n) := by
  obtain ⟨m', h1, h2⟩ := strncpy_ok n s m dst src hs hd ho
  refine ⟨m', h1, h2, by simp only [Mem.inside, h2.lim, List.length_take]; exact hd, fun i h => ?_, fun c hc => hs.nz c (List.mem_of_mem_take hc), ?_⟩
  · simp only [List.length_take] at h
    rw [h2.new i (by omega), if_pos h, List.getElem_take]; exact hs.chars i (by omega)
  · simp only [List.length_take]; rw [h2.new _ (by omega), if_neg (by omega)]

/-! ## Characters and `int_type` -/

/-- the character types; `wchar_t` with 16 bits -/
def types16 : List Types := [charT true, charT false, scharT, ucharT, wcharT 16 true, wcharT 16 false, char8T, char16T, char32T]
/-- the character types whose `int_type` has values that are no characters -/
def typesEof : List Types := [charT false, ucharT, char8T]

/-- **C91**: `to_char_type(to_int_type(c))` is `c`, for each character of each type (`wchar_t` of 16 bits; for 32 bits see `C91_wchar32`). -/
theorem C91_int_type (t : Types) (ht : t ∈ types16) (c : Int) (hc : t.chr.has c) : toChar t (toInt t c) = c := by
  simp only [types16, List.mem_cons, List.not_mem_nil, or_false] at ht
  rcases ht with rfl | rfl | rfl | rfl | rfl | rfl | rfl | rfl | rfl <;>
    simp [IType.has, toChar, toInt, IType.cast, charT, scharT, ucharT, wcharT, char8T, char16T, char32T, Int.bmod] at hc ⊢ <;> omega

/-- **C91**: no character is the end of file, and `not_eof` answers something else.  Partial: only where `char_type` is unsigned and narrower than `int_type`; for the others see `C91_eof_is_a_character`. -/
theorem C91_eof_partial (t : Types) (ht : t ∈ typesEof) (c : Int) (hc : t.chr.has c) : toInt t c ≠ eof t := by
  simp only [typesEof, List.mem_cons, List.not_mem_nil, or_false] at ht
  rcases ht with rfl | rfl | rfl <;>
    simp [IType.has, toInt, eof, IType.cast, charT, scharT, ucharT, wcharT, char8T, char16T, char32T, Int.bmod] at hc ⊢ <;> omega
/-- **C91**: `not_eof` never answers the end of file, and leaves everything else as it is. -/
theorem C91_not_eof (t : Types) (ht : t ∈ types16 ∨ ∃ b, t = wcharT 32 b) (e : Int) : notEof t e ≠ eof t ∧ (e ≠ eof t → notEof t e = e) := by
  refine ⟨?_, fun h => by simp [notEof, h]⟩
  simp only [types16, List.mem_cons, List.not_mem_nil, or_false] at ht
  unfold notEof; split
  · rcases ht with (rfl | rfl | rfl | rfl | rfl | rfl | rfl | rfl | rfl) | ⟨b, rfl⟩ <;>
      simp [eof, IType.cast, charT, scharT, ucharT, wcharT, char8T, char16T, char32T, Int.bmod]
  · assumption

/-! ## Findings -/

/-- **Finding** (C91): `strncmp` reads a character behind the `n` it is asked to compare: two arrays of exactly `n` characters at the end of the memory. -/
theorem C91_strncmp_overread : ∃ (m : Mem) (p q n : Nat), m.inside p n ∧ m.inside q n ∧ strncmp m p q n = .error .outOfBounds :=
  ⟨⟨4, fun _ => 97⟩, 2, 2, 2, by decide +kernel, by decide +kernel, rfl⟩
/-- **Finding** (C91): `strncpy` writes `n + 1` characters: with a destination of `n` characters it writes behind it. -/
theorem C91_strncpy_overwrite : ∃ (m : Mem) (dst src n : Nat), m.str src [97, 98, 99] ∧ m.inside dst n ∧ strncpy m dst src n = .error .outOfBounds :=
  ⟨⟨6, fun i => if i = 3 then 0 else 97 + i⟩, 4, 0, 2,
    ⟨by decide +kernel, by decide +kernel, by decide +kernel, by decide +kernel⟩, by decide +kernel, rfl⟩
/-- **Finding** (C91): where `char_type` is signed, or as wide as `int_type`, a character is the end of file (`'\xFF'` for a signed `char`). -/
theorem C91_eof_is_a_character : ∀ t ∈ [charT true, scharT, wcharT 16 true, wcharT 16 false, wcharT 32 true, char16T, char32T], ∃ c, t.chr.has c ∧ toInt t c = eof t := by
  intro t ht
  simp only [List.mem_cons, List.not_mem_nil, or_false] at ht
  rcases ht with rfl | rfl | rfl | rfl | rfl | rfl | rfl
  · exact ⟨-1, by decide +kernel, rfl⟩
  · exact ⟨-1, by decide +kernel, rfl⟩
  · exact ⟨-1, by decide +kernel, rfl⟩
  · exact ⟨65535, by decide +kernel, rfl⟩
  · exact ⟨-1, by decide +kernel, rfl⟩
  · exact ⟨65535, by decide +kernel, rfl⟩
  · exact ⟨4294967295, by decide +kernel, rfl⟩
/-- **Finding** (C91): a `wchar_t` of 32 bits does not survive `int_type`, which has 16. -/
theorem C91_wchar32 : ∃ c, (wcharT 32 true).chr.has c ∧ toChar (wcharT 32 true) (toInt (wcharT 32 true) c) ≠ c := ⟨65536, by decide +kernel, by decide +kernel⟩
/-- **Finding** (C91): for a signed `char` the order is not the one of the bytes: `"\x80"` comes before `"a"` and even before the empty string. -/
theorem C91_strcmp_signed : ∃ (m : Mem), m.str 0 [(scharT).chr.cast 128] ∧ m.str 2 [(scharT).chr.cast 97] ∧ m.str 1 [] ∧ strcmp m 0 2 = .ok (-1) ∧ strcmp m 0 1 = .ok (-1) :=
  ⟨⟨4, fun i => if i = 0 then -128 else if i = 2 then 97 else 0⟩,
    ⟨by decide +kernel, by decide +kernel, by decide +kernel, by decide +kernel⟩, ⟨by decide +kernel, by decide +kernel, by decide +kernel, by decide +kernel⟩,
    ⟨by decide +kernel, by decide +kernel, by decide +kernel, by decide +kernel⟩, rfl, rfl⟩

/-! ## Examples -/

/-- `abc\0ab\0…` -/
def exMem : Mem := ⟨12, fun i => [97, 98, 99, 0, 97, 98, 0, 5, 5, 5, 5, 5].getD i 0⟩
theorem ex_str0 : exMem.str 0 [97, 98, 99] := ⟨by decide +kernel, by decide +kernel, by decide +kernel, by decide +kernel⟩
theorem ex_str4 : exMem.str 4 [97, 98] := ⟨by decide +kernel, by decide +kernel, by decide +kernel, by decide +kernel⟩
example : length exMem (some 0) = .ok 3 := (C91_strlen exMem 0 3).1.2 ⟨_, ex_str0, rfl⟩
example : strcmp exMem 0 4 = .ok 1 ∧ strncmp exMem 0 4 2 = .ok 0 := ⟨rfl, rfl⟩
example : ∃ r, strcmp exMem 0 4 = .ok r ∧ ComparesStr [97, 98, 99] [97, 98] r := C91_strcmp exMem 0 4 _ _ ex_str0 ex_str4 (by intro c hc; revert c; decide +kernel) (by intro c hc; revert c; decide +kernel)
example : ∃ m', strcpy exMem 8 0 = .ok m' ∧ m'.str 8 [97, 98, 99] := by
  obtain ⟨m', h1, _, h2⟩ := C91_strcpy exMem 8 0 _ ex_str0 (by decide +kernel) (by decide +kernel); exact ⟨m', h1, h2⟩
example : ∃ m', strncpy exMem 8 0 2 = .ok m' ∧ m'.str 8 [97, 98] := by
  obtain ⟨m', h1, _, h2⟩ := C91_strncpy_partial exMem 2 8 0 _ ex_str0 (by decide +kernel) (by decide +kernel); exact ⟨m', h1, h2⟩
example : ∃ m', move exMem 2 0 4 = .ok m' ∧ Replaced exMem m' 2 4 (fun i => exMem.at_ (0 + i)) := C91_move exMem 2 0 4 (by decide +kernel) (by decide +kernel)

end Etl.CStr
