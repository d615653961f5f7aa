import Verif.UMap.Model
import Batteries.Data.List.Perm
import Mathlib.Data.List.Nodup
import Mathlib.Tactic.ByContra
import Mathlib.Tactic.SplitIfs
import Mathlib.Tactic.Set

/-!
# Invariant of the unordered containers

`Sim c s m`: the container `s` is in order and iterating over it yields the elements `m`.
-/
namespace Etl.UMap

variable {κ ε : Type}

/-- The nodes of `n` buckets from bucket `b` on. -/
def spanN (ch : Nat → List Nat) : Nat → Nat → List Nat
  | 0, _ => []
  | n + 1, b => ch b ++ spanN ch n (b + 1)

/-- All of the nodes, in iteration order. -/
def order (s : St ε) : List Nat := spanN s.chain s.nb 0

theorem spanN_add (ch : Nat → List Nat) (m n b : Nat) : spanN ch (m + n) b = spanN ch m b ++ spanN ch n (b + m) := by
  induction m generalizing b with
  | zero => simp [spanN]
  | succ m ih =>
    rw [show m + 1 + n = (m + n) + 1 by omega]
    simp only [spanN]
    rw [ih, List.append_assoc, show b + 1 + m = b + (m + 1) by omega]

theorem spanN_congr {ch ch' : Nat → List Nat} (n b : Nat) (h : ∀ x, b ≤ x → x < b + n → ch x = ch' x) : spanN ch n b = spanN ch' n b := by
  induction n generalizing b with
  | zero => rfl
  | succ n ih =>
    simp only [spanN]
    rw [h b (Nat.le_refl _) (by omega), ih (b + 1) (fun x h1 h2 => h x (by omega) (by omega))]

theorem spanN_at (ch : Nat → List Nat) {nb b : Nat} (h : b < nb) :
    spanN ch nb 0 = spanN ch b 0 ++ (ch b ++ spanN ch (nb - (b + 1)) (b + 1)) := by
  have : nb = b + ((nb - (b + 1)) + 1) := by omega
  conv => lhs; rw [this]
  rw [spanN_add]
  simp [spanN]

theorem spanN_upd (ch : Nat → List Nat) {nb b : Nat} (h : b < nb) (l : List Nat) :
    spanN (upd ch b l) nb 0 = spanN ch b 0 ++ (l ++ spanN ch (nb - (b + 1)) (b + 1)) := by
  rw [spanN_at _ h, upd_same]
  congr 1
  · exact spanN_congr _ _ (fun x h1 h2 => upd_other _ _ (by omega))
  · congr 1
    exact spanN_congr _ _ (fun x h1 h2 => upd_other _ _ (by omega))

theorem mem_spanN {ch : Nat → List Nat} {n b i : Nat} : i ∈ spanN ch n b ↔ ∃ x, b ≤ x ∧ x < b + n ∧ i ∈ ch x := by
  induction n generalizing b with
  | zero => simp [spanN]; intros; omega
  | succ n ih =>
    simp only [spanN, List.mem_append, ih]
    constructor
    · rintro (h | ⟨x, h1, h2, h3⟩)
      · exact ⟨b, Nat.le_refl _, by omega, h⟩
      · exact ⟨x, by omega, by omega, h3⟩
    · rintro ⟨x, h1, h2, h3⟩
      rcases Nat.eq_or_lt_of_le h1 with e | e
      · exact Or.inl (e ▸ h3)
      · exact Or.inr ⟨x, e, by omega, h3⟩

theorem spanN_nil {ch : Nat → List Nat} {n b : Nat} (h : ∀ x, b ≤ x → x < b + n → ch x = []) : spanN ch n b = [] := by
  rw [List.eq_nil_iff_forall_not_mem]
  intro i hi
  obtain ⟨x, h1, h2, h3⟩ := mem_spanN.mp hi
  rw [h x h1 h2] at h3
  exact List.not_mem_nil h3

/-- The local iterator of the last one of a list of nodes. -/
def lastLI (p : LI) : List Nat → LI
  | [] => p
  | x :: xs => lastLI (.node x) xs

theorem lastLI_append (p : LI) (A : List Nat) (x : Nat) : lastLI p (A ++ [x]) = .node x := by
  induction A generalizing p with
  | nil => rfl
  | cons a A ih => exact ih _

theorem lastLI_split (A : List Nat) : A = [] ∨ ∃ A' x, A = A' ++ [x] := by
  rcases List.eq_nil_or_concat A with h | ⟨L, b, h⟩
  · exact Or.inl h
  · exact Or.inr ⟨L, b, by simpa using h⟩

theorem insGo_at (A B : List Nat) (x n : Nat) (h : x ∉ A) : insGo x n (A ++ x :: B) = .ok (A ++ x :: n :: B) := by
  induction A with
  | nil => simp [insGo]
  | cons a A ih =>
    have ha : a ≠ x := fun e => h (e ▸ List.mem_cons_self)
    simp only [List.cons_append, insGo, if_neg ha]
    rw [ih (fun e => h (List.mem_cons_of_mem _ e))]

theorem insAfter_at (A B : List Nat) (n : Nat) (h : (A ++ B).Nodup) : insAfter (A ++ B) (lastLI .before A) n = .ok (A ++ n :: B) := by
  rcases lastLI_split A with e | ⟨A', x, e⟩
  · subst e; rfl
  · subst e
    rw [lastLI_append]
    simp only [insAfter, List.append_assoc, List.cons_append, List.nil_append]
    refine insGo_at A' B x n ?_
    have h1 := (List.nodup_append.mp (List.nodup_append.mp h).1).2.2
    intro hx
    exact h1 x hx x (by simp) rfl

theorem eraGo_at (A B : List Nat) (x : Nat) (h : x ∉ A) : eraGo x (A ++ x :: B) = .ok (A ++ x :: B.drop 1, headLI (B.drop 1)) := by
  induction A with
  | nil => simp [eraGo]
  | cons a A ih =>
    have ha : a ≠ x := fun e => h (e ▸ List.mem_cons_self)
    simp only [List.cons_append, eraGo, if_neg ha]
    rw [ih (fun e => h (List.mem_cons_of_mem _ e))]

theorem eraseAfter_at (A B : List Nat) (i : Nat) (h : (A ++ i :: B).Nodup) : eraseAfter (A ++ i :: B) (lastLI .before A) = .ok (A ++ B, headLI B) := by
  rcases lastLI_split A with e | ⟨A', x, e⟩
  · subst e; rfl
  · subst e
    rw [lastLI_append]
    simp only [eraseAfter, List.append_assoc, List.cons_append, List.nil_append]
    rw [eraGo_at A' (i :: B) x ?_]
    · rfl
    · have h1 := (List.nodup_append.mp (List.nodup_append.mp h).1).2.2
      intro hx
      exact h1 x hx x (by simp) rfl

theorem after_at (A B : List Nat) (i : Nat) (h : i ∉ A) : after i (A ++ i :: B) = .ok (headLI B) := by
  induction A with
  | nil => simp [after]
  | cons a A ih =>
    have ha : a ≠ i := fun e => h (e ▸ List.mem_cons_self)
    simp only [List.cons_append, after, if_neg ha]
    exact ih (fun e => h (List.mem_cons_of_mem _ e))

theorem notin_left {A B : List Nat} {i : Nat} (h : (A ++ i :: B).Nodup) : i ∉ A := by
  intro hx
  exact (List.nodup_append.mp h).2.2 i hx i (by simp) rfl

theorem step_last (A B : List Nat) (h : (A ++ B).Nodup) : (lastLI .before A).step (A ++ B) = .ok (headLI B) := by
  rcases lastLI_split A with e | ⟨A', x, e⟩
  · subst e; rfl
  · subst e
    rw [lastLI_append]
    simp only [LI.step, List.append_assoc, List.cons_append, List.nil_append]
    refine after_at A' B x (notin_left (B := B) ?_)
    simpa using h

theorem previous_at (A B : List Nat) (i : Nat) (p : LI) (h : i ∉ A) : previous (.node i) p (A ++ i :: B) = .ok (lastLI p A) := by
  induction A generalizing p with
  | nil => simp [previous, lastLI]
  | cons a A ih =>
    have ha : LI.node i ≠ LI.node a := fun e => h (by injection e with e; exact e ▸ List.mem_cons_self)
    simp only [List.cons_append, previous, if_neg ha, lastLI]
    exact ih _ (fun e => h (List.mem_cons_of_mem _ e))

theorem headLI_ne_before (l : List Nat) : headLI l ≠ .before := by cases l <;> simp [headLI]
theorem headLI_term {l : List Nat} : headLI l = .term ↔ l = [] := by cases l <;> simp [headLI]

/-- The search loops. -/
theorem search_spec (s : St ε) (p : ε → Bool) (l : List Nat) : ∀ (vs : List ε) (prev : LI), l.map s.val = vs.map Cell.live →
    ((∀ w ∈ vs, p w = false) ∧ search s p prev l = .ok (lastLI prev l, none)) ∨
    (∃ A i B VA v VB, l = A ++ i :: B ∧ vs = VA ++ v :: VB ∧ A.map s.val = VA.map Cell.live ∧ s.val i = .live v ∧ B.map s.val = VB.map Cell.live ∧
      (∀ w ∈ VA, p w = false) ∧ p v = true ∧ search s p prev l = .ok (lastLI prev A, some i)) := by
  induction l with
  | nil =>
    intro vs prev h
    refine Or.inl ⟨?_, rfl⟩
    have : vs = [] := by simpa using h.symm
    simp [this]
  | cons i l ih =>
    intro vs prev h
    cases vs with
    | nil => simp at h
    | cons v vs =>
      simp only [List.map_cons, List.cons.injEq] at h
      obtain ⟨hv, h⟩ := h
      have hr : read s i = .ok v := by simp [read, hv]
      cases hp : p v with
      | true =>
        refine Or.inr ⟨[], i, l, [], v, vs, rfl, rfl, rfl, hv, h, by simp, hp, ?_⟩
        simp [search, hr, hp, lastLI]
      | false =>
        rcases ih vs (.node i) h with ⟨h1, h2⟩ | ⟨A, j, B, VA, w, VB, e1, e2, h3, h4, h5, h6, h7, h8⟩
        · refine Or.inl ⟨?_, ?_⟩
          · intro w hw
            rcases List.mem_cons.mp hw with e | e
            · rw [e]; exact hp
            · exact h1 w e
          · simp [search, hr, hp, h2, lastLI]
        · refine Or.inr ⟨i :: A, j, B, v :: VA, w, VB, by simp [e1], by simp [e2], by simp [hv, h3], h4, h5, ?_, h7, ?_⟩
          · intro x hx
            rcases List.mem_cons.mp hx with e | e
            · rw [e]; exact hp
            · exact h6 x e
          · simp [search, hr, hp, h8, lastLI]

/-- What the hash function and the comparison have to satisfy: the usual requirement of the unordered containers. -/
structure Ok (c : Cfg κ ε) : Prop where
  refl : ∀ a, c.eq a a = true
  symm : ∀ a b, c.eq a b = c.eq b a
  trans : ∀ a b d, c.eq a b = true → c.eq b d = true → c.eq a d = true
  hash : ∀ a b, c.eq a b = true → c.hash a = c.hash b

structure Sim (c : Cfg κ ε) (s : St ε) (m : List ε) : Prop where
  nb : 0 < s.nb
  firstLt : s.first < s.nb
  lastLt : s.last < s.nb
  perm : (order s ++ s.free).Perm (List.range s.cap)
  raw : ∀ i ∈ s.free, s.val i = .raw
  view : (order s).map s.val = m.map Cell.live
  home : ∀ b, b < s.nb → ∀ i ∈ s.chain b, ∀ v, s.val i = .live v → c.hash (c.key v) % s.nb = b
  low : ∀ b, b < s.first → s.chain b = []
  fst : order s ≠ [] → s.chain s.first ≠ []

variable {c : Cfg κ ε} {s : St ε} {m : List ε}

theorem Sim.nodup (h : Sim c s m) : (order s ++ s.free).Nodup := h.perm.nodup_iff.mpr List.nodup_range
theorem Sim.len (h : Sim c s m) : (order s).length = m.length := by
  have := congrArg List.length h.view
  simpa using this
theorem Sim.total (h : Sim c s m) : m.length + s.free.length = s.cap := by
  have := h.perm.length_eq
  rw [List.length_append, List.length_range, h.len] at this
  exact this
theorem Sim.size (h : Sim c s m) : size s = m.length := by
  have := h.total
  unfold UMap.size; omega
theorem Sim.full (h : Sim c s m) : full s = true ↔ m.length = s.cap := by
  unfold UMap.full; rw [h.size]; simp
theorem Sim.empty (h : Sim c s m) : empty s = true ↔ m = [] := by
  unfold UMap.empty; rw [h.size]; simp
theorem Sim.chainNodup (h : Sim c s m) {b : Nat} (hb : b < s.nb) : (s.chain b).Nodup := by
  have h1 := (List.nodup_append.mp h.nodup).1
  unfold order at h1
  rw [spanN_at _ hb] at h1
  exact (List.nodup_append.mp (List.nodup_append.mp h1).2.1).1
theorem Sim.bucket (_h : Sim c s m) {b : Nat} (hb : b < s.nb) : bucket s b = .ok (s.chain b) := by simp [UMap.bucket, hb]
theorem Sim.index (h : Sim c s m) (k : κ) : index c s k = .ok (c.hash k % s.nb) := by
  have := h.nb
  simp [UMap.index, show s.nb ≠ 0 by omega]

theorem init_sim (c : Cfg κ ε) (nb cap : Nat) (h : 0 < nb) : Sim c (init nb cap : St ε) [] := by
  have ho : order (init nb cap : St ε) = [] := spanN_nil (fun _ _ _ => rfl)
  refine ⟨h, h, h, ?_, fun _ _ => rfl, ?_, ?_, fun _ _ => rfl, fun h => absurd ho h⟩
  · rw [ho]; exact List.Perm.refl _
  · rw [ho]; rfl
  · intro b _ i hi; exact absurd hi List.not_mem_nil

/-- The part of the elements behind bucket `b`. -/
abbrev pre (s : St ε) (b : Nat) : List Nat := spanN s.chain b 0
abbrev post (s : St ε) (b : Nat) : List Nat := spanN s.chain (s.nb - (b + 1)) (b + 1)

theorem Sim.split (h : Sim c s m) {b : Nat} (hb : b < s.nb) :
    ∃ M1 Mb M2, m = M1 ++ (Mb ++ M2) ∧ (pre s b).map s.val = M1.map Cell.live ∧ (s.chain b).map s.val = Mb.map Cell.live ∧ (post s b).map s.val = M2.map Cell.live := by
  have hv := h.view
  unfold order at hv
  rw [spanN_at _ hb, List.map_append] at hv
  obtain ⟨M1, M', e1, e2, e3⟩ := List.map_eq_append_iff.mp hv.symm
  rw [List.map_append] at e3
  obtain ⟨Mb, M2, e4, e5, e6⟩ := List.map_eq_append_iff.mp e3
  exact ⟨M1, Mb, M2, by rw [e1, e4], e2.symm, e5.symm, e6.symm⟩

theorem map_live_mem {l : List Nat} {vs : List ε} (h : l.map s.val = vs.map Cell.live) {w : ε} (hw : w ∈ vs) : ∃ i ∈ l, s.val i = .live w := by
  have : Cell.live w ∈ vs.map Cell.live := List.mem_map_of_mem hw
  rw [← h] at this
  obtain ⟨i, hi, e⟩ := List.mem_map.mp this
  exact ⟨i, hi, e⟩

/-- Elements of other buckets have other keys. -/
theorem Sim.other (hc : Ok c) (h : Sim c s m) {b : Nat} {k : κ} (hk : c.hash k % s.nb = b) {l : List Nat} {vs : List ε} (hl : l.map s.val = vs.map Cell.live)
    (hd : ∀ i ∈ l, ∃ b', b' ≠ b ∧ b' < s.nb ∧ i ∈ s.chain b') : ∀ w ∈ vs, c.eq k (c.key w) = false := by
  intro w hw
  obtain ⟨i, hi, hv⟩ := map_live_mem hl hw
  obtain ⟨b', h1, h2, h3⟩ := hd i hi
  have := h.home b' h2 i h3 w hv
  by_contra hne
  have he := hc.hash k (c.key w) (by simpa using hne)
  rw [← he] at this
  exact h1 (by rw [← this, hk])

/-- Looking for a key in its bucket is looking for it everywhere. -/
theorem Sim.locate (hc : Ok c) (h : Sim c s m) (k : κ) (b : Nat) (hb : c.hash k % s.nb = b) (p : ε → Bool) (hp : ∀ v, p v = c.eq k (c.key v)) :
    b < s.nb ∧ UMap.index c s k = .ok b ∧ UMap.bucket s b = .ok (s.chain b) ∧
    (((∀ w ∈ m, c.eq k (c.key w) = false) ∧ search s p .before (s.chain b) = .ok (lastLI .before (s.chain b), none)) ∨
     (∃ A i B M1 v M2, s.chain b = A ++ i :: B ∧ m = M1 ++ v :: M2 ∧ (pre s b ++ A).map s.val = M1.map Cell.live ∧ s.val i = .live v ∧
       (B ++ post s b).map s.val = M2.map Cell.live ∧ (∀ w ∈ M1, c.eq k (c.key w) = false) ∧ c.eq k (c.key v) = true ∧
       search s p .before (s.chain b) = .ok (lastLI .before A, some i))) := by
  have hlt : b < s.nb := by rw [← hb]; exact Nat.mod_lt _ h.nb
  refine ⟨hlt, by rw [h.index, hb], h.bucket hlt, ?_⟩
  obtain ⟨M1, Mb, M2, e, e1, e2, e3⟩ := h.split hlt
  have o1 : ∀ w ∈ M1, c.eq k (c.key w) = false := by
    refine Sim.other hc h hb e1 ?_
    intro i hi
    obtain ⟨x, h1, h2, h3⟩ := mem_spanN.mp hi
    exact ⟨x, by omega, by omega, h3⟩
  have o2 : ∀ w ∈ M2, c.eq k (c.key w) = false := by
    refine Sim.other hc h hb e3 ?_
    intro i hi
    obtain ⟨x, h1, h2, h3⟩ := mem_spanN.mp hi
    exact ⟨x, by omega, by omega, h3⟩
  rcases search_spec s p (s.chain b) Mb .before e2 with ⟨h1, h2⟩ | ⟨A, i, B, VA, v, VB, f1, f2, h3, h4, h5, h6, h7, h8⟩
  · refine Or.inl ⟨?_, h2⟩
    intro w hw
    rw [e] at hw
    rcases List.mem_append.mp hw with hw | hw
    · exact o1 w hw
    · rcases List.mem_append.mp hw with hw | hw
      · rw [← hp]; exact h1 w hw
      · exact o2 w hw
  · refine Or.inr ⟨A, i, B, M1 ++ VA, v, VB ++ M2, f1, by simp [e, f2], ?_, h4, ?_, ?_, ?_, h8⟩
    · rw [List.map_append, List.map_append, e1, h3]
    · rw [List.map_append, List.map_append, e3, h5]
    · intro w hw
      rcases List.mem_append.mp hw with hw | hw
      · exact o1 w hw
      · rw [← hp]; exact h6 w hw
    · rw [← hp]; exact h7

/-! ### Adding an element -/

theorem adjustIns_eq (s : St ε) (b : Nat) : ∃ f l, adjustIns s b = { s with first := f, last := l } := by
  unfold adjustIns
  split_ifs
  · exact ⟨_, _, rfl⟩
  · exact ⟨_, _, rfl⟩
  · exact ⟨_, _, rfl⟩
  · exact ⟨_, _, rfl⟩

/-- The effect of the insertion on the markers, for a container that holds `n` elements with the new one. -/
theorem adjustIns_first (s : St ε) (b : Nat) : (adjustIns s b).first = if size s = 1 ∨ b < s.first then b else s.first := by
  unfold adjustIns
  by_cases h1 : size s = 1
  · simp [h1]
  · by_cases h2 : b < s.first
    · simp [h1, h2]
    · by_cases h3 : s.last < b <;> simp [h1, h2, h3]

theorem adjustIns_lastLt (s : St ε) (b : Nat) (hb : b < s.nb) (h : s.last < s.nb) : (adjustIns s b).last < s.nb := by
  unfold adjustIns
  split_ifs <;> assumption

theorem map_upd_notin {l : List Nat} {i : Nat} (h : i ∉ l) (f : Nat → Cell ε) (v : Cell ε) : l.map (upd f i v) = l.map f := by
  refine List.map_congr_left ?_
  intro j hj
  exact upd_other _ _ (fun e => h (e ▸ hj))

theorem Sim.add (h : Sim c s m) {b : Nat} (hb : b < s.nb) {A B : List Nat} (hch : s.chain b = A ++ B) {M1 M2 : List ε}
    (h1 : (pre s b ++ A).map s.val = M1.map Cell.live) (h2 : (B ++ post s b).map s.val = M2.map Cell.live) (v : ε) (hv : c.hash (c.key v) % s.nb = b) :
    (m.length = s.cap → add s b (lastLI .before A) v = .ok (s, .error .noAlloc)) ∧
    (m.length ≠ s.cap → ∃ s' n, add s b (lastLI .before A) v = .ok (s', .ok ⟨b, .node n⟩) ∧ Sim c s' (M1 ++ v :: M2) ∧ s'.chain b = A ++ n :: B ∧ s'.val n = .live v ∧ s'.nb = s.nb ∧ s'.cap = s.cap ∧
      (∀ x, x ≠ b → s'.chain x = s.chain x)) := by
  have ht := h.total
  have hord : order s = (pre s b ++ A) ++ (B ++ post s b) := by
    unfold order
    rw [spanN_at _ hb, hch]; simp
  have hm : m = M1 ++ M2 := by
    have hv := h.view
    rw [hord, List.map_append, h1, h2, ← List.map_append] at hv
    exact (List.map_injective_iff.mpr (fun a b e => by injection e) hv).symm
  constructor
  · intro he
    have hf : s.free = [] := List.length_eq_zero_iff.mp (by omega)
    simp [UMap.add, allocate, hf]
  · intro hne
    cases hf : s.free with
    | nil => rw [hf] at ht; simp at ht; omega
    | cons n f =>
      have hraw : s.val n = .raw := h.raw n (by rw [hf]; exact List.mem_cons_self)
      have hnd : (A ++ B).Nodup := hch ▸ h.chainNodup hb
      have hno : n ∉ order s := by
        intro hn
        exact (List.nodup_append.mp h.nodup).2.2 n hn n (by rw [hf]; exact List.mem_cons_self) rfl
      have hnf : n ∉ f := by
        have := (List.nodup_append.mp h.nodup).2.1
        rw [hf] at this
        exact (List.nodup_cons.mp this).1
      set s1 : St ε := { s with val := upd s.val n (.live v), free := f, chain := upd s.chain b (A ++ n :: B) } with hs1
      have hadd : UMap.add s b (lastLI .before A) v = .ok (adjustIns s1 b, .ok ⟨b, .node n⟩) := by
        simp only [UMap.add, allocate, hf, hraw, link]
        rw [hch, insAfter_at A B n hnd]
      have ho1 : order s1 = (pre s b ++ A) ++ n :: (B ++ post s b) := by
        show spanN (upd s.chain b (A ++ n :: B)) s.nb 0 = _
        rw [spanN_upd _ hb]; simp
      have hnA : n ∉ pre s b ++ A := fun e => hno (hord ▸ List.mem_append_left _ e)
      have hnB : n ∉ B ++ post s b := fun e => hno (hord ▸ List.mem_append_right _ e)
      obtain ⟨ff, ll, hadj⟩ := adjustIns_eq s1 b
      have hsz1 : UMap.size s1 = m.length + 1 := by
        show s.cap - f.length = _
        rw [hf] at ht; simp at ht; omega
      refine ⟨adjustIns s1 b, n, hadd, ?_, ?_, ?_, ?_, ?_, ?_⟩
      · have hfirst := adjustIns_first s1 b
        have hlast := adjustIns_lastLt s1 b hb h.lastLt
        rw [hadj] at hfirst hlast ⊢
        have hffe : ff = if UMap.size s1 = 1 ∨ b < s.first then b else s.first := hfirst
        have hlle : ll < s.nb := hlast
        refine ⟨h.nb, ?_, hlle, ?_, ?_, ?_, ?_, ?_, ?_⟩
        · show ff < s.nb
          rw [hffe]; split_ifs
          · exact hb
          · exact h.firstLt
        · show (order s1 ++ f).Perm (List.range s.cap)
          refine List.Perm.trans ?_ h.perm
          rw [ho1, hord, hf]
          simp only [List.append_assoc, List.cons_append]
          refine List.Perm.append_left _ (List.Perm.append_left _ ?_)
          rw [← List.append_assoc, ← List.append_assoc]
          exact List.perm_middle.symm
        · intro i hi
          show upd s.val n (.live v) i = .raw
          have hi' : i ∈ f := hi
          have hin : i ≠ n := fun e => hnf (by rw [← e]; exact hi')
          rw [upd_other _ _ hin]
          exact h.raw i (by rw [hf]; exact List.mem_cons_of_mem _ hi')
        · show (order s1).map (upd s.val n (.live v)) = _
          rw [ho1, List.map_append, List.map_cons, map_upd_notin hnA, map_upd_notin hnB, h1, h2, upd_same]
          simp
        · intro b' hb' i hi w hw
          have hi' : i ∈ upd s.chain b (A ++ n :: B) b' := hi
          have hw' : upd s.val n (.live v) i = .live w := hw
          show c.hash (c.key w) % s.nb = b'
          by_cases hin : i = n
          · subst hin
            rw [upd_same] at hw'
            have : v = w := by injection hw'
            subst this
            by_cases hbb : b' = b
            · rw [hbb]; exact hv
            · rw [upd_other _ _ hbb] at hi'
              exact absurd (mem_spanN.mpr ⟨b', Nat.zero_le _, by have : b' < s.nb := hb'; omega, hi'⟩) hno
          · rw [upd_other _ _ hin] at hw'
            refine h.home b' hb' i ?_ w hw'
            by_cases hbb : b' = b
            · subst hbb
              rw [upd_same] at hi'
              rw [hch]
              simp only [List.mem_append, List.mem_cons] at hi' ⊢
              rcases hi' with e | e | e
              · exact Or.inl e
              · exact absurd e hin
              · exact Or.inr e
            · rw [upd_other _ _ hbb] at hi'; exact hi'
        · intro b' hb'
          have hb'' : b' < ff := hb'
          show upd s.chain b (A ++ n :: B) b' = []
          rw [hffe] at hb''
          split_ifs at hb'' with hcond
          · rw [upd_other _ _ (by omega)]
            rcases hcond with e | e
            · rw [hsz1] at e
              have : m = [] := List.length_eq_zero_iff.mp (by omega)
              have hoe : order s = [] := by
                have := h.len; rw [‹m = []›] at this
                exact List.length_eq_zero_iff.mp this
              rw [List.eq_nil_iff_forall_not_mem]
              intro i hi
              have : i ∈ order s := mem_spanN.mpr ⟨b', Nat.zero_le _, by omega, hi⟩
              rw [hoe] at this; exact absurd this List.not_mem_nil
            · exact h.low b' (by omega)
          · rw [upd_other _ _ (by omega)]
            exact h.low b' hb''
        · intro _
          show upd s.chain b (A ++ n :: B) ff ≠ []
          rw [hffe]
          split_ifs with hcond
          · rw [upd_same]; simp
          · by_cases hbf : s.first = b
            · rw [hbf, upd_same]; simp
            · rw [upd_other _ _ hbf]
              refine h.fst ?_
              intro hoe
              apply hcond
              left
              rw [hsz1, ← h.len, hoe]; rfl
      · rw [hadj]; show upd s.chain b (A ++ n :: B) b = _; rw [upd_same]
      · rw [hadj]; show upd s.val n (.live v) n = _; rw [upd_same]
      · rw [hadj]
      · rw [hadj]
      · intro x hx; rw [hadj]; exact upd_other _ _ hx

/-! ### Removing an element -/

theorem seek_spec (s : St ε) (n b : Nat) (h : spanN s.chain n b ≠ []) :
    ∃ b', seek s n b = .ok b' ∧ b ≤ b' ∧ b' < b + n ∧ s.chain b' ≠ [] ∧ (∀ x, b ≤ x → x < b' → s.chain x = []) ∧
      spanN s.chain n b = s.chain b' ++ spanN s.chain (b + n - (b' + 1)) (b' + 1) := by
  induction n generalizing b with
  | zero => exact absurd rfl h
  | succ n ih =>
    by_cases hb : s.chain b = []
    · have h' : spanN s.chain n (b + 1) ≠ [] := by
        intro e; apply h; simp [spanN, hb, e]
      obtain ⟨b', h1, h2, h3, h4, h5, h6⟩ := ih (b + 1) h'
      refine ⟨b', by simp [seek, hb, h1], by omega, by omega, h4, ?_, ?_⟩
      · intro x hx1 hx2
        rcases Nat.eq_or_lt_of_le hx1 with e | e
        · rw [← e]; exact hb
        · exact h5 x e hx2
      · simp only [spanN, hb, List.nil_append]
        rw [h6, show b + 1 + n = b + (n + 1) by omega]
    · refine ⟨b, by simp [seek, hb], Nat.le_refl _, by omega, hb, fun x h1 h2 => by omega, ?_⟩
      simp only [spanN]
      rw [show b + (n + 1) - (b + 1) = n by omega]

theorem scanLast_lt (s : St ε) (n b acc hi : Nat) (h : b + n ≤ hi) (ha : acc < hi) : scanLast s n b acc < hi := by
  induction n generalizing b acc with
  | zero => exact ha
  | succ n ih =>
    simp only [scanLast]
    refine ih (b + 1) _ (by omega) ?_
    split_ifs <;> omega

theorem Sim.delete (h : Sim c s m) {b : Nat} (hb : b < s.nb) {A B : List Nat} {i : Nat} (hch : s.chain b = A ++ i :: B) {M1 M2 : List ε} {v : ε}
    (h1 : (pre s b ++ A).map s.val = M1.map Cell.live) (hi : s.val i = .live v) (h2 : (B ++ post s b).map s.val = M2.map Cell.live) :
    ∃ s', deleteNode s b (lastLI .before A) i = .ok (s', headLI B) ∧ Sim c s' (M1 ++ M2) ∧ s'.chain = upd s.chain b (A ++ B) ∧ s'.nb = s.nb ∧ s'.cap = s.cap ∧ s'.val = upd s.val i .raw := by
  have hord : order s = (pre s b ++ A) ++ i :: (B ++ post s b) := by
    unfold order
    rw [spanN_at _ hb, hch]; simp
  have hnd : (A ++ i :: B).Nodup := hch ▸ h.chainNodup hb
  have hio : i ∈ order s := by rw [hord]; simp
  have hnf : i ∉ s.free := by
    intro hn
    exact (List.nodup_append.mp h.nodup).2.2 i hio i hn rfl
  set s1 : St ε := { s with chain := upd s.chain b (A ++ B), val := upd s.val i .raw, free := i :: s.free } with hs1
  have ho1 : order s1 = (pre s b ++ A) ++ (B ++ post s b) := by
    show spanN (upd s.chain b (A ++ B)) s.nb 0 = _
    rw [spanN_upd _ hb]; simp
  have hdel : deleteNode s b (lastLI .before A) i = match adjustEra s1 b with
      | .error u => .error u
      | .ok s => .ok (s, headLI B) := by
    unfold deleteNode
    rw [hch, eraseAfter_at A B i hnd]
    simp only [destroy, if_neg hnf, hi]
    rfl
  have hon : (order s).Nodup := (List.nodup_append.mp h.nodup).1
  rw [hord] at hon
  have hiA : i ∉ pre s b ++ A := notin_left hon
  have hiB : i ∉ B ++ post s b := (List.nodup_cons.mp (List.nodup_append.mp hon).2.1).1
  -- everything but the markers
  have hperm : (order s1 ++ s1.free).Perm (List.range s.cap) := by
    refine List.Perm.trans ?_ h.perm
    rw [ho1, hord]
    show ((pre s b ++ A) ++ (B ++ post s b) ++ i :: s.free).Perm _
    refine List.Perm.trans List.perm_middle ?_
    simp only [List.append_assoc, List.cons_append]
    rw [← List.append_assoc (pre s b), ← List.append_assoc (pre s b)]
    exact List.perm_middle.symm
  have hview : (order s1).map s1.val = (M1 ++ M2).map Cell.live := by
    rw [ho1, List.map_append]
    show (pre s b ++ A).map (upd s.val i .raw) ++ (B ++ post s b).map (upd s.val i .raw) = _
    rw [map_upd_notin hiA, map_upd_notin hiB, h1, h2, List.map_append]
  have hraw : ∀ j ∈ s1.free, s1.val j = .raw := by
    intro j hj
    have hj' : j ∈ i :: s.free := hj
    show upd s.val i .raw j = .raw
    by_cases e : j = i
    · rw [e, upd_same]
    · rw [upd_other _ _ e]
      rcases List.mem_cons.mp hj' with e' | e'
      · exact absurd e' e
      · exact h.raw j e'
  have hhome : ∀ b', b' < s.nb → ∀ j ∈ s1.chain b', ∀ w, s1.val j = .live w → c.hash (c.key w) % s.nb = b' := by
    intro b' hb' j hj w hw
    have hj' : j ∈ upd s.chain b (A ++ B) b' := hj
    have hw' : upd s.val i .raw j = .live w := hw
    by_cases e : j = i
    · rw [e, upd_same] at hw'; exact absurd hw' (by simp)
    · rw [upd_other _ _ e] at hw'
      refine h.home b' hb' j ?_ w hw'
      by_cases hbb : b' = b
      · subst hbb
        rw [upd_same] at hj'
        rw [hch]
        simp only [List.mem_append, List.mem_cons] at hj' ⊢
        rcases hj' with e | e
        · exact Or.inl e
        · exact Or.inr (Or.inr e)
      · rw [upd_other _ _ hbb] at hj'; exact hj'
  have hlen : (order s1).length = (M1 ++ M2).length := by
    have := congrArg List.length hview; simpa using this
  have hsz : UMap.size s1 = (order s1).length := by
    have := hperm.length_eq
    rw [List.length_append, List.length_range] at this
    show s1.cap - s1.free.length = _
    have : s1.cap = s.cap := rfl
    omega
  have hfb : s.first ≤ b := by
    by_contra hlt
    have := h.low b (by omega)
    rw [hch] at this; simp at this
  by_cases hemp : UMap.empty s1 = true
  · have ho : order s1 = [] := by
      unfold UMap.empty at hemp
      rw [hsz] at hemp
      exact List.length_eq_zero_iff.mp (by simpa using hemp)
    have : adjustEra s1 b = .ok { s1 with first := 0, last := 0 } := by simp [adjustEra, hemp]
    rw [this] at hdel
    refine ⟨_, hdel, ?_, rfl, rfl, rfl, rfl⟩
    exact ⟨h.nb, h.nb, h.nb, hperm, hraw, hview, hhome, fun b' hb' => absurd hb' (Nat.not_lt_zero _), fun hne => absurd ho hne⟩
  · have hne : order s1 ≠ [] := by
      intro e
      apply hemp
      unfold UMap.empty
      rw [hsz, e]; rfl
    by_cases hbf : b = s.first
    · have hlow : ∀ x, x < s.first → s1.chain x = [] := by
        intro x hx
        show upd s.chain b (A ++ B) x = []
        rw [upd_other _ _ (by omega)]
        exact h.low x hx
      have hsp : spanN s1.chain (s.nb - s.first) s.first ≠ [] := by
        intro e
        apply hne
        have hfl := h.firstLt
        show spanN s1.chain s.nb 0 = []
        rw [show s.nb = s.first + (s.nb - s.first) by omega, spanN_add, Nat.zero_add, e, List.append_nil]
        exact spanN_nil (fun x _ hx => hlow x (by omega))
      obtain ⟨f, hf1, hf2, hf3, hf4, hf5, _⟩ := seek_spec s1 _ _ hsp
      have hadj : adjustEra s1 b = .ok { s1 with first := f } := by
        unfold adjustEra
        rw [if_neg hemp, if_pos (show b = s1.first from hbf)]
        have : seek s1 (s1.nb - s1.first) s1.first = .ok f := hf1
        rw [this]
      rw [hadj] at hdel
      have hfl := h.firstLt
      refine ⟨_, hdel, ?_, rfl, rfl, rfl, rfl⟩
      refine ⟨h.nb, show f < s.nb by omega, h.lastLt, hperm, hraw, hview, hhome, ?_, fun _ => hf4⟩
      intro x hx
      have hx' : x < f := hx
      by_cases hxx : x < s.first
      · exact hlow x hxx
      · exact hf5 x (by omega) hx'
    · have hlow : ∀ x, x < s.first → s1.chain x = [] := by
        intro x hx
        show upd s.chain b (A ++ B) x = []
        rw [upd_other _ _ (by omega)]
        exact h.low x hx
      have hfst : s1.chain s.first ≠ [] := by
        show upd s.chain b (A ++ B) s.first ≠ []
        rw [upd_other _ _ (by omega)]
        exact h.fst (by intro e; rw [hord] at e; simp at e)
      by_cases hbl : b = s.last
      · have hadj : adjustEra s1 b = .ok { s1 with last := scanLast s1 (s.last - s.first) s.first s.first } := by
          unfold adjustEra
          rw [if_neg hemp, if_neg (show ¬ b = s1.first from hbf), if_pos (show b = s1.last from hbl), if_pos (show s1.first ≤ s1.last from by show s.first ≤ s.last; omega)]
        rw [hadj] at hdel
        refine ⟨_, hdel, ?_, rfl, rfl, rfl, rfl⟩
        have hl := h.lastLt
        refine ⟨h.nb, h.firstLt, ?_, hperm, hraw, hview, hhome, hlow, fun _ => hfst⟩
        exact scanLast_lt s1 _ _ _ s.nb (by omega) h.firstLt
      · have hadj : adjustEra s1 b = .ok s1 := by
          unfold adjustEra
          rw [if_neg hemp, if_neg (show ¬ b = s1.first from hbf), if_neg (show ¬ b = s1.last from hbl)]
        rw [hadj] at hdel
        refine ⟨s1, hdel, ?_, rfl, rfl, rfl, rfl⟩
        exact ⟨h.nb, h.firstLt, h.lastLt, hperm, hraw, hview, hhome, hlow, fun _ => hfst⟩

/-! ### Iterators -/

/-- The iterator stands at the first one of `rest`, a final part of the nodes in iteration order. -/
def Points (s : St ε) (it : It) : List Nat → Prop
  | [] => it.pos = .term
  | i :: r => ∃ A B, it.pos = .node i ∧ it.bkt < s.nb ∧ s.chain it.bkt = A ++ i :: B ∧ r = B ++ post s it.bkt

theorem skip_spec (s : St ε) (n b : Nat) (hn : b + n = s.nb) : Points s (enter s (skip s n b)) (spanN s.chain n b) := by
  induction n generalizing b with
  | zero => simp [skip, spanN, Points, enter, show b = s.nb by omega]
  | succ n ih =>
    by_cases hb : s.chain b = []
    · simp only [skip, hb, if_true, spanN, List.nil_append]
      exact ih (b + 1) (by omega)
    · have hs : skip s (n + 1) b = b := by simp [skip, hb]
      rw [hs]
      obtain ⟨i, B, e⟩ : ∃ i B, s.chain b = i :: B := by
        cases h : s.chain b with
        | nil => exact absurd h hb
        | cons i B => exact ⟨i, B, rfl⟩
      simp only [spanN, e, List.cons_append]
      refine ⟨[], B, ?_, by show b < s.nb; omega, e, ?_⟩
      · show (if b = s.nb then LI.term else headLI (s.chain b)) = _
        rw [if_neg (by omega), e]; rfl
      · show B ++ spanN s.chain n (b + 1) = B ++ spanN s.chain (s.nb - (b + 1)) (b + 1)
        rw [show s.nb - (b + 1) = n by omega]

theorem begin_spec (h : Sim c s m) : ∃ it, beginIt s = .ok it ∧ Points s it (order s) := by
  refine ⟨⟨s.first, headLI (s.chain s.first)⟩, by simp [beginIt, h.bucket h.firstLt], ?_⟩
  by_cases ho : order s = []
  · rw [ho]
    have : s.chain s.first = [] := by
      rw [List.eq_nil_iff_forall_not_mem]
      intro i hi
      have : i ∈ order s := mem_spanN.mpr ⟨s.first, Nat.zero_le _, by have := h.firstLt; omega, hi⟩
      rw [ho] at this; exact absurd this List.not_mem_nil
    show headLI (s.chain s.first) = .term
    rw [this]; rfl
  · have hne := h.fst ho
    obtain ⟨i, B, e⟩ : ∃ i B, s.chain s.first = i :: B := by
      cases h' : s.chain s.first with
      | nil => exact absurd h' hne
      | cons i B => exact ⟨i, B, rfl⟩
    have : order s = i :: (B ++ post s s.first) := by
      unfold order
      rw [spanN_at _ h.firstLt, spanN_nil (fun x _ hx => h.low x (by omega)), e]; rfl
    rw [this]
    refine ⟨[], B, ?_, h.firstLt, e, rfl⟩
    show headLI (s.chain s.first) = _
    rw [e]; rfl

theorem next_spec (h : Sim c s m) {it : It} {i : Nat} {r : List Nat} (hp : Points s it (i :: r)) : ∃ it', next s it = .ok it' ∧ Points s it' r := by
  obtain ⟨A, B, h1, h2, h3, h4⟩ := hp
  have hnd : (A ++ i :: B).Nodup := h3 ▸ h.chainNodup h2
  have hst : it.pos.step (s.chain it.bkt) = .ok (headLI B) := by
    rw [h1, h3]; exact after_at A B i (notin_left hnd)
  cases B with
  | nil =>
    refine ⟨enter s (skip s (s.nb - (it.bkt + 1)) (it.bkt + 1)), ?_, ?_⟩
    · simp [next, h.bucket h2, hst, headLI]
    · rw [h4]
      exact skip_spec s _ _ (by omega)
  | cons j B =>
    refine ⟨⟨it.bkt, .node j⟩, ?_, ?_⟩
    · simp [next, h.bucket h2, hst, headLI]
    · rw [h4]
      exact ⟨A ++ [i], B, rfl, h2, by simp [h3], rfl⟩

theorem Points.head {it : It} {r : List Nat} (h : Points s it r) : it.pos = headLI r := by
  cases r with
  | nil => exact h
  | cons i r => obtain ⟨A, B, h1, _⟩ := h; exact h1

theorem Points.atEnd {it : It} {r : List Nat} (h : Points s it r) : eqIt it (endIt s) = true ↔ r = [] := by
  have : eqIt it (endIt s) = true ↔ it.pos = .term := by simp [eqIt, endIt]
  rw [this, h.head]; exact headLI_term

theorem walk_spec (h : Sim c s m) (fuel : Nat) : ∀ (r : List Nat) (vs : List ε) (it : It), Points s it r → r.map s.val = vs.map Cell.live → r.length < fuel → walk s fuel it = .ok vs := by
  induction fuel with
  | zero => intro r vs it _ _ hl; exact absurd hl (Nat.not_lt_zero _)
  | succ fuel ih =>
    intro r vs it hp hv hl
    cases r with
    | nil =>
      have : vs = [] := by simpa using hv.symm
      rw [this, walk, if_pos (hp.atEnd.mpr rfl)]
    | cons i r =>
      cases vs with
      | nil => simp at hv
      | cons v vs =>
        simp only [List.map_cons, List.cons.injEq] at hv
        obtain ⟨it', hn, hp'⟩ := next_spec h hp
        have hd : deref s it = .ok v := by
          obtain ⟨A, B, h1, _⟩ := hp
          simp [deref, h1, read, hv.1]
        have hne : ¬ eqIt it (endIt s) = true := fun e => by
          have := hp.atEnd.mp e; simp at this
        rw [walk, if_neg hne, hd, hn]
        simp only
        rw [ih r vs it' hp' hv.2 (by simpa using hl)]

/-- Iterating from `begin()` to `end()` meets the elements `m`. -/
theorem Sim.contents (h : Sim c s m) : contents s = .ok m := by
  obtain ⟨it, hb, hp⟩ := begin_spec h
  have ht := h.total
  have hl := h.len
  rw [UMap.contents, hb]
  exact walk_spec h _ (order s) m it hp h.view (by omega)

theorem advance_spec (h : Sim c s m) (n : Nat) : ∀ (r : List Nat) (it : It), Points s it r → n ≤ r.length → ∃ it', advance s n it = .ok it' ∧ Points s it' (r.drop n) := by
  induction n with
  | zero => intro r it hp _; exact ⟨it, rfl, hp⟩
  | succ n ih =>
    intro r it hp hl
    cases r with
    | nil => simp at hl
    | cons i r =>
      obtain ⟨it', hn, hp'⟩ := next_spec h hp
      obtain ⟨it'', ha, hp''⟩ := ih r it' hp' (by simpa using hl)
      exact ⟨it'', by simp [advance, hn, ha], hp''⟩

end Etl.UMap
