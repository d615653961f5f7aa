import Verif.Queue.Model
import Mathlib.Data.List.Perm.Subperm
import Mathlib.Data.List.Range
import Mathlib.Data.List.Nodup

/-!
# C42 (queue): `etl::queue` is a bounded first-in first-out queue

The specification knows nothing of indices or storage: a queue is a list, oldest element first.
-/
namespace Etl.Queue
variable {α : Type}

/-! ## Specification -/

/-- Effect of one operation on queues of capacity `n`; `none` when the caller broke a precondition (`pop_into` from an empty queue; push to a full or pop from an
empty queue when the checks are compiled out). -/
def specStep (n : Nat) (check : Bool) (mf : α → α) (w : Nat → List α) : Op α → Option ((Nat → List α) × Out α)
  | .push q v =>
    if (w q).length < n then some (upd w q (w q ++ [v]), .unit)
    else if check then some (w, .err .full) else none
  | .pop q =>
    match w q with
    | _ :: t => some (upd w q t, .unit)
    | [] => if check then some (w, .err .empty) else none
  | .popInto q =>
    match w q with
    | v :: t => some (upd w q t, .val v)
    | [] => none
  | .popIntoQueue q dst =>
    if (w dst).length < n then
      match w q with
      | v :: t => let w := upd w q t; some (upd w dst (w dst ++ [v]), .unit)
      | [] => none
    else if check then some (w, .err .full) else none
  | .clear q => some (upd w q [], .unit)
  | .copyAssign dst src => some (upd w dst (w src), .unit)
  | .moveAssign dst src => some (if dst = src then w else upd (upd w dst (w src)) src ((w src).map mf), .unit)

def specRun (n : Nat) (check : Bool) (mf : α → α) (w : Nat → List α) : List (Op α) → Option ((Nat → List α) × List (Out α))
  | [] => some (w, [])
  | o :: os =>
    match specStep n check mf w o with
    | none => none
    | some (w, r) =>
      match specRun n check mf w os with
      | none => none
      | some (w, rs) => some (w, r :: rs)

/-- What a user can observe of a queue of capacity `n` holding `l`. -/
structure Shows (n : Nat) (s : St α) (l : List α) : Prop where
  size : s.size = l.length
  bound : l.length ≤ n
  empty : empty s = true ↔ l = []
  full : full s = true ↔ l.length = n
  cap : maxSize s = n
  avail : available s = n - l.length
  front : ∀ v, l.head? = some v → front s = .ok v
  back : ∀ v, l.getLast? = some v → back s = .ok v
  /-- the number of objects alive in the buffer is the number of elements -/
  live : ((List.range n).filter (fun i => (s.mem.cell i).alive)).length = l.length

/-! ## Invariant -/

def wr (n a : Nat) : Nat := if a < n then a else a - n

theorem wr_lt {n a : Nat} (h : a < 2 * n) : wr n a < n := by unfold wr; split <;> omega

structure Inv (n : Nat) (triv check : Bool) (s : St α) (l : List α) : Prop where
  hcap : s.cap = n
  hmcap : s.mem.cap = n
  htriv : s.trivial = triv
  hcheck : s.check = check
  hout : s.outI < n
  hsize : s.size = l.length
  hlen : l.length ≤ n
  hin : s.inI = wr n (s.outI + l.length)
  hcell : ∀ k, k < n → s.mem.cell (wr n (s.outI + k)) = Mem.cellOf l k

theorem inv_init (n : Nat) (hn : 0 < n) (triv check : Bool) : Inv n triv check (init (α := α) n triv check) [] := by
  refine ⟨rfl, rfl, rfl, rfl, hn, rfl, by simp, ?_, ?_⟩
  · simp [init, wr, hn]
  · intro k _; simp [init, Mem.fresh, Mem.cellOf]

section
variable {n : Nat} {triv check : Bool} {s : St α} {l : List α}

theorem full_iff (h : Inv n triv check s l) : full s = true ↔ l.length = n := by
  simp [full, h.hsize, h.hcap]
theorem empty_iff (h : Inv n triv check s l) : empty s = true ↔ l = [] := by
  simp [empty, h.hsize]

theorem push_full (h : Inv n triv true s l) (hl : l.length = n) (v : α) : push s v = .ok (.error .full) := by
  rw [push, if_pos ⟨h.hcheck, (full_iff h).2 hl⟩]

theorem push_inv (h : Inv n triv check s l) (hl : l.length < n) (v : α) :
    ∃ s', push s v = .ok (.ok s') ∧ Inv n triv check s' (l ++ [v]) := by
  have hnf : ¬ (s.check = true ∧ full s = true) := by rw [full_iff h]; omega
  have ho := h.hout
  have hraw : s.mem.cell s.inI = .raw := by
    rw [h.hin, h.hcell _ hl]; simp [Mem.cellOf]
  have hin : s.inI < s.mem.cap := by rw [h.hin, h.hmcap]; exact wr_lt (by omega)
  refine ⟨_, by rw [push, if_neg hnf, Mem.construct_ok v hin hraw]; rfl, ?_⟩
  refine ⟨h.hcap, h.hmcap, h.htriv, h.hcheck, ho, by simp [addIn, h.hsize], by simp; omega, ?_, ?_⟩
  · simp only [addIn, h.hin, h.hcap, List.length_append, List.length_singleton]
    unfold wr; split_ifs <;> omega
  · intro k hk
    simp only [addIn, Mem.set_cell, Mem.cellOf_snoc, h.hin]
    by_cases hkl : k = l.length
    · subst hkl; simp
    · rw [if_neg hkl, if_neg (by unfold wr; split_ifs <;> omega)]
      exact h.hcell k hk

theorem pop_empty (h : Inv n triv true s []) : pop s = .ok (.error .empty) := by
  rw [pop, if_pos ⟨h.hcheck, (empty_iff h).2 rfl⟩]

theorem out_live {a : α} {t : List α} (h : Inv n triv check s (a :: t)) : s.mem.cell s.outI = .live a := by
  have := h.hcell 0 (by have := h.hlen; simp at this; omega)
  simpa [wr, h.hout, Mem.cellOf] using this

theorem drop_inv {a : α} {t : List α} (h : Inv n triv check s (a :: t)) :
    Inv n triv check (delOut { s with mem := s.mem.set s.outI .raw }) t := by
  have ho := h.hout
  have hlen := h.hlen
  simp only [List.length_cons] at hlen
  refine ⟨h.hcap, h.hmcap, h.htriv, h.hcheck, ?_, by simp [delOut, h.hsize], by omega, ?_, ?_⟩
  · simp only [delOut, h.hcap]; split_ifs <;> omega
  · simp only [delOut, h.hin, h.hcap, List.length_cons]
    unfold wr; split_ifs <;> omega
  · intro k hk
    simp only [delOut, Mem.set_cell, h.hcap]
    by_cases hkl : k = n - 1
    · rw [if_pos (by unfold wr; split_ifs <;> omega)]
      simp [Mem.cellOf, List.getElem?_eq_none (show t.length ≤ k by omega)]
    · rw [if_neg (by unfold wr; split_ifs <;> omega)]
      have := h.hcell (k + 1) (by omega)
      have e : wr n ((if s.outI + 1 = n then 0 else s.outI + 1) + k) = wr n (s.outI + (k + 1)) := by
        unfold wr; split_ifs <;> omega
      rw [e, this]; simp [Mem.cellOf]

theorem pop_inv {a : α} {t : List α} (h : Inv n triv check s (a :: t)) :
    ∃ s', pop s = .ok (.ok s') ∧ Inv n triv check s' t := by
  have hne : ¬ (s.check = true ∧ empty s = true) := by rw [empty_iff h]; simp
  refine ⟨_, ?_, drop_inv h⟩
  rw [pop, if_neg hne, Mem.destroy_ok (by rw [h.hmcap]; exact h.hout) (by rw [out_live h]; simp)]; rfl

theorem clearLoop_inv (fuel : Nat) : ∀ {s : St α} {l : List α}, Inv n triv check s l → l.length < fuel →
    ∃ s', clearLoop s fuel = .ok s' ∧ Inv n triv check s' [] := by
  induction fuel with
  | zero => intro s l _ h; omega
  | succ fuel ih =>
    intro s l h hf
    cases l with
    | nil => exact ⟨s, by rw [clearLoop, if_neg (by rw [h.hsize]; simp)], h⟩
    | cons a t =>
      obtain ⟨s', e, h'⟩ := ih (drop_inv h) (by simpa using hf)
      refine ⟨s', ?_, h'⟩
      rw [clearLoop, if_pos (by rw [h.hsize]; simp), Mem.destroy_ok (by rw [h.hmcap]; exact h.hout) (by rw [out_live h]; simp)]
      exact e

/-- every cell of an empty queue is raw -/
theorem raw_of_nil (h : Inv n triv check s []) {i : Nat} (hi : i < n) : s.mem.cell i = .raw := by
  have ho := h.hout
  have := h.hcell (if s.outI ≤ i then i - s.outI else i + n - s.outI) (by split_ifs <;> omega)
  have e : wr n (s.outI + if s.outI ≤ i then i - s.outI else i + n - s.outI) = i := by unfold wr; split_ifs <;> omega
  rw [e] at this; simpa [Mem.cellOf] using this

theorem clear_inv (h : Inv n triv check s l) : ∃ s', clear s = .ok s' ∧ Inv n triv check s' [] := by
  have ho := h.hout
  by_cases ht : s.trivial = true
  · refine ⟨{ indexClear s with mem := .fresh s.mem.cap s.mem.sms }, by rw [clear, if_pos ht], h.hcap, h.hmcap, h.htriv, h.hcheck, ?_, rfl, by simp, ?_, ?_⟩
    · show 0 < n; omega
    · simp [indexClear, wr]
    · intro k _; simp [Mem.fresh, Mem.cellOf]
  · obtain ⟨s', e, h'⟩ := clearLoop_inv (s.size + 1) h (by rw [h.hsize]; omega)
    refine ⟨{ s' with inI := 0, outI := 0 }, by rw [clear, if_neg ht, e]; rfl, h'.hcap, h'.hmcap, h'.htriv, h'.hcheck, by show 0 < n; omega, h'.hsize, by simp, ?_, ?_⟩
    · simp [wr]
    · intro k hk
      simp only [Nat.zero_add, wr, hk, if_true]
      rw [raw_of_nil h' hk]; rfl

theorem cellOf_set (l : List α) (i : Nat) (v : α) (hi : i < l.length) (j : Nat) :
    Mem.cellOf (l.set i v) j = if j = i then .live v else Mem.cellOf l j := by
  unfold Mem.cellOf
  rw [List.getElem?_set]
  by_cases h : i = j
  · subst h; simp [hi]
  · rw [if_neg h, if_neg (Ne.symm h)]

/-- Moving out of the element at position `k`. -/
theorem takeAt_inv (mf : α → α) (h : Inv n triv check s l) {k : Nat} {v : α} (hk : l[k]? = some v) :
    ∃ s', takeAt mf s (wr n (s.outI + k)) = .ok (v, s') ∧ Inv n triv check s' (l.set k (mf v)) ∧ s'.outI = s.outI := by
  obtain ⟨hkl, hv⟩ := List.getElem?_eq_some_iff.1 hk
  have ho := h.hout; have hlen := h.hlen
  have hc : s.mem.cell (wr n (s.outI + k)) = .live v := by rw [h.hcell k (by omega)]; simp [Mem.cellOf, hk]
  have hi : wr n (s.outI + k) < s.mem.cap := by rw [h.hmcap]; exact wr_lt (by omega)
  refine ⟨{ s with mem := s.mem.set (wr n (s.outI + k)) (.live (mf v)) }, ?_, ?_, rfl⟩
  · rw [takeAt, Mem.read_ok hi hc]
    simp only [bind, Except.bind]
    rw [Mem.assign_ok _ hi (by rw [hc]; simp)]
  · refine ⟨h.hcap, h.hmcap, h.htriv, h.hcheck, ho, by simp [h.hsize], by simp; exact hlen, by simpa using h.hin, ?_⟩
    intro j hj
    show (s.mem.set (wr n (s.outI + k)) (.live (mf v))).cell (wr n (s.outI + j)) = _
    rw [Mem.set_cell, cellOf_set _ _ _ hkl]
    by_cases hjk : j = k
    · subst hjk; simp
    · rw [if_neg hjk, if_neg (by unfold wr; split_ifs <;> omega)]; exact h.hcell j hj

theorem wr_next (h : Inv n triv check s l) {c k : Nat} (hc : c = n) (hk : k < n) :
    (if wr n (s.outI + k) = c - 1 then 0 else wr n (s.outI + k) + 1) = wr n (s.outI + (k + 1)) := by
  have ho := h.hout
  subst hc; unfold wr; split_ifs <;> omega

theorem cloneLoop_inv {lo : List α} {o : St α} {tr2 ck2 : Bool} (ho : Inv n tr2 ck2 o lo) (fuel : Nat) : ∀ {s : St α} (i : Nat), i ≤ lo.length → lo.length - i < fuel →
    Inv n triv check s (lo.take i) →
    ∃ s', cloneLoop s o i (wr n (o.outI + i)) fuel = .ok (s', none) ∧ Inv n triv check s' lo := by
  induction fuel with
  | zero => intro s i _ h; omega
  | succ fuel ih =>
    intro s i hi hf h
    have hlen := ho.hlen
    by_cases hlt : i < lo.length
    · have hx : lo[i]? = some lo[i] := List.getElem?_eq_getElem hlt
      have hc : o.mem.cell (wr n (o.outI + i)) = .live lo[i] := by rw [ho.hcell i (by omega)]; simp [Mem.cellOf, hx]
      have hb : wr n (o.outI + i) < o.mem.cap := by rw [ho.hmcap]; exact wr_lt (by have := ho.hout; omega)
      obtain ⟨s1, e1, h1⟩ := push_inv h (by simp; omega) lo[i]
      have e : lo.take i ++ [lo[i]] = lo.take (i + 1) := by simp
      rw [e] at h1
      obtain ⟨s', e2, h2⟩ := ih (i + 1) (by omega) (by omega) h1
      refine ⟨s', ?_, h2⟩
      rw [cloneLoop, if_pos (by rw [ho.hsize]; exact hlt), Mem.read_ok hb hc]
      simp only [bind, Except.bind, e1]
      rw [wr_next ho h1.hcap (by omega)]; exact e2
    · have : i = lo.length := by omega
      subst this
      refine ⟨s, by rw [cloneLoop, if_neg (by rw [ho.hsize]; omega)], by simpa using h⟩

theorem clone_inv {lo : List α} {o : St α} {tr2 ck2 : Bool} (ho : Inv n tr2 ck2 o lo) (h : Inv n triv check s l) :
    ∃ s', clone s o = .ok (s', none) ∧ Inv n triv check s' lo := by
  obtain ⟨s1, e1, h1⟩ := clear_inv h
  obtain ⟨s', e2, h2⟩ := cloneLoop_inv ho (o.size + 1) (s := s1) (triv := triv) (check := check) 0 (by omega) (by rw [ho.hsize]; omega) (by simpa using h1)
  refine ⟨s', ?_, h2⟩
  have : wr n (o.outI + 0) = o.outI := by simp [wr, ho.hout]
  rw [this] at e2
  simp only [clone, e1, bind, Except.bind]; exact e2

theorem moveCloneLoop_inv (mf : α → α) {lo : List α} {tr2 ck2 : Bool} (fuel : Nat) : ∀ {s o : St α} (i : Nat), i ≤ lo.length → lo.length - i < fuel →
    Inv n triv check s (lo.take i) → Inv n tr2 ck2 o ((lo.take i).map mf ++ lo.drop i) →
    ∃ s' o', moveCloneLoop mf s o i (wr n (o.outI + i)) fuel = .ok (s', o', none) ∧ Inv n triv check s' lo ∧ Inv n tr2 ck2 o' (lo.map mf) := by
  induction fuel with
  | zero => intro s o i _ h; omega
  | succ fuel ih =>
    intro s o i hi hf h ho
    have hlen : lo.length ≤ n := by have := ho.hlen; simp at this; omega
    have hsz : o.size = lo.length := by rw [ho.hsize]; simp; omega
    by_cases hlt : i < lo.length
    · have hx : ((lo.take i).map mf ++ lo.drop i)[i]? = some lo[i] := by
        rw [List.getElem?_append_right (by simp; omega)]; simp [List.length_take, show min i lo.length = i by omega]
      have hnf : ¬ (s.check = true ∧ full s = true) := by rw [full_iff h]; simp; omega
      obtain ⟨o1, e0, ho1, hoo⟩ := takeAt_inv mf ho hx
      obtain ⟨s1, e1, h1⟩ := push_inv h (by simp; omega) lo[i]
      have e : lo.take i ++ [lo[i]] = lo.take (i + 1) := by simp
      rw [e] at h1
      have e' : ((lo.take i).map mf ++ lo.drop i).set i (mf lo[i]) = (lo.take (i + 1)).map mf ++ lo.drop (i + 1) := by
        have hl : ((lo.take i).map mf).length = i := by simp; omega
        rw [List.set_append_right _ _ (by omega), hl, Nat.sub_self, List.drop_eq_getElem_cons hlt, List.set_cons_zero, ← e, List.map_append, List.append_assoc]
        rfl
      rw [e'] at ho1
      obtain ⟨s', o', e2, h2, h3⟩ := ih (i + 1) (by omega) (by omega) h1 ho1
      refine ⟨s', o', ?_, h2, h3⟩
      rw [moveCloneLoop, if_pos (by rw [hsz]; exact hlt), if_neg hnf, e0]
      simp only [bind, Except.bind, e1]
      rw [wr_next ho h1.hcap (by omega), ← hoo]; exact e2
    · have : i = lo.length := by omega
      subst this
      refine ⟨s, o, by rw [moveCloneLoop, if_neg (by rw [hsz]; omega)], by simpa using h, by simpa using ho⟩

theorem moveClone_inv (mf : α → α) {lo : List α} {o : St α} {tr2 ck2 : Bool} (ho : Inv n tr2 ck2 o lo) (h : Inv n triv check s l) :
    ∃ s' o', moveClone mf s o = .ok (s', o', none) ∧ Inv n triv check s' lo ∧ Inv n tr2 ck2 o' (lo.map mf) := by
  obtain ⟨s1, e1, h1⟩ := clear_inv h
  obtain ⟨s', o', e2, h2, h3⟩ := moveCloneLoop_inv mf (lo := lo) (o.size + 1) (s := s1) (o := o) (triv := triv) (check := check) 0 (by omega) (by rw [ho.hsize]; omega)
    (by simpa using h1) (by simpa using ho)
  refine ⟨s', o', ?_, h2, h3⟩
  have : wr n (o.outI + 0) = o.outI := by simp [wr, ho.hout]
  rw [this] at e2
  simp only [moveClone, e1, bind, Except.bind]; exact e2

theorem shows_of_inv (h : Inv n triv check s l) : Shows n s l := by
  have ho := h.hout; have hlen := h.hlen
  refine ⟨h.hsize, hlen, empty_iff h, full_iff h, h.hcap, by simp [available, maxSize, h.hcap, h.hsize], ?_, ?_, ?_⟩
  · intro v hv
    cases l with
    | nil => simp at hv
    | cons a t =>
      simp at hv; subst hv
      exact Mem.read_ok (by rw [h.hmcap]; exact ho) (out_live h)
  · intro v hv
    rw [List.getLast?_eq_getElem?] at hv
    obtain ⟨hlt, _⟩ := List.getElem?_eq_some_iff.1 hv
    have e : (if s.inI = 0 then s.cap - 1 else s.inI - 1) = wr n (s.outI + (l.length - 1)) := by
      rw [h.hin, h.hcap]; unfold wr; split_ifs <;> omega
    rw [back, e]
    refine Mem.read_ok (by rw [h.hmcap]; exact wr_lt (by omega)) ?_
    rw [h.hcell _ (by omega)]; simp [Mem.cellOf, hv]
  · have hperm : ((List.range n).map (fun k => wr n (s.outI + k))).Perm (List.range n) := by
      have hnd : ((List.range n).map (fun k => wr n (s.outI + k))).Nodup := by
        rw [List.nodup_iff_pairwise_ne, List.pairwise_map]
        refine List.Pairwise.imp_of_mem ?_ (List.nodup_iff_pairwise_ne.1 List.nodup_range)
        intro a b ha hb hab
        simp only [List.mem_range] at ha hb
        unfold wr; split <;> split <;> omega
      refine List.Subperm.perm_of_length_le (List.subperm_of_subset hnd ?_) (by simp)
      intro x hx
      simp only [List.mem_map, List.mem_range] at hx ⊢
      obtain ⟨k, hk, rfl⟩ := hx
      exact wr_lt (by omega)
    rw [← (hperm.filter _).length_eq, List.filter_map, List.length_map]
    have : (List.range n).filter ((fun i => (s.mem.cell i).alive) ∘ fun k => wr n (s.outI + k)) =
        (List.range n).filter (fun k => decide (k < l.length)) := by
      apply List.filter_congr
      intro k hk
      simp only [List.mem_range] at hk
      simp only [Function.comp, h.hcell k hk, Mem.cellOf, Cell.alive]
      by_cases hkl : k < l.length
      · simp [hkl]
      · simp [hkl]
    rw [this]
    clear * - hlen
    have : ∀ m k, k ≤ m → ((List.range m).filter (fun i => decide (i < k))).length = k := by
      intro m
      induction m with
      | zero => intro k hk; simp; omega
      | succ m ih =>
        intro k hk
        rw [List.range_succ, List.filter_append]
        by_cases hkm : k ≤ m
        · simp [ih k hkm, show ¬ m < k by omega]
        · have : k = m + 1 := by omega
          subst this
          have : (List.range m).filter (fun i => decide (i < m + 1)) = List.range m := by
            rw [List.filter_eq_self]; intro a ha; simp at ha; simp; omega
          rw [this]; simp
    exact this n l.length hlen
end

/-! ## Worlds -/

def WInv (n : Nat) (triv check : Bool) (w : World α) (lw : Nat → List α) : Prop := ∀ i, Inv n triv check (w i) (lw i)

theorem WInv.upd {n : Nat} {triv check : Bool} {w : World α} {lw : Nat → List α} (h : WInv n triv check w lw) {q : Nat} {s : St α} {l : List α}
    (hs : Inv n triv check s l) : WInv n triv check (upd w q s) (Etl.upd lw q l) := by
  intro i
  by_cases hi : i = q
  · subst hi; simpa using hs
  · rw [upd_other _ _ hi, upd_other _ _ hi]; exact h i

theorem upd_self {β : Type} (f : Nat → β) (i : Nat) : Etl.upd f i (f i) = f := by
  funext j; unfold Etl.upd; split_ifs with h
  · rw [h]
  · rfl

theorem upd_upd {β : Type} (f : Nat → β) (i : Nat) (a b : β) : Etl.upd (Etl.upd f i a) i b = Etl.upd f i b := by
  funext j; unfold Etl.upd; split_ifs <;> rfl

theorem upd_comm {β : Type} (f : Nat → β) {i j : Nat} (h : i ≠ j) (a b : β) : Etl.upd (Etl.upd f i a) j b = Etl.upd (Etl.upd f j b) i a := by
  funext k; unfold Etl.upd; split_ifs with h1 h2
  · subst h1; exact absurd h2 (Ne.symm h)
  all_goals rfl

theorem step_inv {n : Nat} {triv check : Bool} (mf : α → α) {w : World α} {lw lw' : Nat → List α} (h : WInv n triv check w lw) (o : Op α) {r : Out α}
    (hs : specStep n check mf lw o = some (lw', r)) : ∃ w', step mf w o = .ok (w', r) ∧ WInv n triv check w' lw' := by
  cases o with
  | push q v =>
    simp only [specStep] at hs
    by_cases hl : (lw q).length < n
    · rw [if_pos hl] at hs; obtain ⟨rfl, rfl⟩ := Prod.mk.inj (Option.some.inj hs)
      obtain ⟨s', e, h'⟩ := push_inv (h q) hl v
      exact ⟨_, by simp [step, e, bind, Except.bind], h.upd h'⟩
    · rw [if_neg hl] at hs
      cases check with
      | false => simp at hs
      | true =>
        simp at hs; obtain ⟨rfl, rfl⟩ := hs
        have := push_full (h q) (by have := (h q).hlen; omega) v
        exact ⟨w, by simp [step, this, bind, Except.bind], h⟩
  | pop q =>
    simp only [specStep] at hs
    have hq := h q
    cases hl : lw q with
    | nil =>
      rw [hl] at hs hq
      cases check with
      | false => simp at hs
      | true =>
        simp at hs; obtain ⟨rfl, rfl⟩ := hs
        exact ⟨w, by simp [step, pop_empty hq, bind, Except.bind], h⟩
    | cons a t =>
      rw [hl] at hs hq
      simp at hs; obtain ⟨rfl, rfl⟩ := hs
      obtain ⟨s', e, h'⟩ := pop_inv hq
      exact ⟨_, by simp [step, e, bind, Except.bind], h.upd h'⟩
  | popInto q =>
    simp only [specStep] at hs
    have hq := h q
    cases hl : lw q with
    | nil => rw [hl] at hs; simp at hs
    | cons a t =>
      rw [hl] at hs hq
      simp at hs; obtain ⟨rfl, rfl⟩ := hs
      obtain ⟨s1, e1, h1, ho⟩ := takeAt_inv mf hq (k := 0) (v := a) rfl
      have e0 : wr n ((w q).outI + 0) = (w q).outI := by simp [wr, hq.hout]
      rw [e0] at e1
      obtain ⟨s2, e2, h2⟩ := pop_inv (by simpa using h1)
      exact ⟨_, by simp [step, popInto, e1, e2, bind, Except.bind], h.upd h2⟩
  | popIntoQueue q dst =>
    simp only [specStep] at hs
    by_cases hl : (lw dst).length < n
    · rw [if_pos hl] at hs
      have hq := h q
      have hnf : ¬ ((w dst).check = true ∧ full (w dst) = true) := by rw [full_iff (h dst)]; omega
      cases hlq : lw q with
      | nil => rw [hlq] at hs; simp at hs
      | cons a t =>
        rw [hlq] at hs hq
        simp at hs; obtain ⟨rfl, rfl⟩ := hs
        obtain ⟨s1, e1, h1, ho⟩ := takeAt_inv mf hq (k := 0) (v := a) rfl
        have e0 : wr n ((w q).outI + 0) = (w q).outI := by simp [wr, hq.hout]
        rw [e0] at e1
        rw [List.set_cons_zero] at h1
        have hw1 : WInv n triv check (upd w q s1) (Etl.upd lw q (mf a :: t)) := h.upd h1
        have hl1 : (Etl.upd lw q (mf a :: t) dst).length < n := by
          by_cases hdq : dst = q
          · subst hdq; rw [hlq] at hl; simpa using hl
          · rw [upd_other _ _ hdq]; exact hl
        obtain ⟨d, e2, h2⟩ := push_inv (hw1 dst) hl1 a
        have hw2 := hw1.upd (q := dst) h2
        by_cases hdq : dst = q
        · subst hdq
          simp only [upd_same, upd_upd] at h2 hw2 e2 ⊢
          obtain ⟨s3, e3, h3⟩ := pop_inv (show Inv n triv check d (mf a :: (t ++ [a])) by simpa using h2)
          refine ⟨_, by simp only [step, popIntoQueue, if_neg hnf, e1, e2, e3, bind, Except.bind, upd_same, upd_upd]; rfl, ?_⟩
          exact h.upd h3
        · rw [upd_other _ _ hdq] at e2
          have hq2 := hw2 q
          rw [upd_other _ _ (Ne.symm hdq), upd_other _ _ (Ne.symm hdq), upd_same, upd_same] at hq2
          obtain ⟨s3, e3, h3⟩ := pop_inv hq2
          refine ⟨upd (upd (upd w q s1) dst d) q s3, by
            simp only [step, popIntoQueue, if_neg hnf, e1, e2, bind, Except.bind, upd_other _ _ hdq, upd_other _ _ (Ne.symm hdq), upd_same, e3], ?_⟩
          have := hw2.upd (q := q) h3
          rw [upd_comm (Etl.upd lw q (mf a :: t)) hdq, upd_upd, upd_other _ _ hdq] at this
          rw [upd_other _ _ hdq]
          exact this
    · rw [if_neg hl] at hs
      cases check with
      | false => simp at hs
      | true =>
        simp at hs; obtain ⟨rfl, rfl⟩ := hs
        have hlen : (lw dst).length = n := by have := (h dst).hlen; omega
        exact ⟨w, by simp only [step, popIntoQueue, if_pos (show (w dst).check = true ∧ full (w dst) = true from ⟨(h dst).hcheck, (full_iff (h dst)).2 hlen⟩)], h⟩
  | clear q =>
    simp [specStep] at hs; obtain ⟨rfl, rfl⟩ := hs
    obtain ⟨s', e, h'⟩ := clear_inv (h q)
    exact ⟨_, by simp [step, e, bind, Except.bind], h.upd h'⟩
  | copyAssign dst src =>
    simp [specStep] at hs; obtain ⟨rfl, rfl⟩ := hs
    by_cases hd : dst = src
    · subst hd
      refine ⟨w, by simp [step], ?_⟩
      rw [upd_self]; exact h
    · obtain ⟨s', e, h'⟩ := clone_inv (h src) (h dst)
      exact ⟨_, by simp [step, hd, e, bind, Except.bind], h.upd h'⟩
  | moveAssign dst src =>
    simp [specStep] at hs; obtain ⟨rfl, rfl⟩ := hs
    by_cases hd : dst = src
    · subst hd
      exact ⟨w, by simp [step], by simpa using h⟩
    · obtain ⟨s', o', e, h1, h2⟩ := moveClone_inv mf (h src) (h dst)
      rw [if_neg hd]
      exact ⟨_, by simp [step, hd, e, bind, Except.bind], (h.upd h1).upd h2⟩

theorem run_inv {n : Nat} {triv check : Bool} (mf : α → α) (os : List (Op α)) : ∀ {w : World α} {lw lw' : Nat → List α} {rs : List (Out α)},
    WInv n triv check w lw → specRun n check mf lw os = some (lw', rs) → ∃ w', run mf w os = .ok (w', rs) ∧ WInv n triv check w' lw' := by
  induction os with
  | nil => intro w lw lw' rs h hs; simp [specRun] at hs; obtain ⟨rfl, rfl⟩ := hs; exact ⟨w, rfl, h⟩
  | cons o os ih =>
    intro w lw lw' rs h hs
    simp only [specRun] at hs
    split at hs
    · simp at hs
    · next w1 r1 h1 =>
      split at hs
      · simp at hs
      · next w2 rs2 h2 =>
        simp at hs; obtain ⟨rfl, rfl⟩ := hs
        obtain ⟨w', e1, i1⟩ := step_inv mf h o h1
        obtain ⟨w'', e2, i2⟩ := ih i1 h2
        exact ⟨w'', by simp [run, e1, e2, bind, Except.bind], i2⟩

/-- **C42, queue.**  Take any number of queues of any capacity `n > 0`, initially empty, and any history of operations on them that keeps the preconditions.  The run has
no undefined behaviour, every operation reports what the first-in first-out specification says, and each queue then shows exactly its specified contents. -/
theorem C42_queue_refines (n : Nat) (hn : 0 < n) (triv check : Bool) (mf : α → α) (os : List (Op α)) (lw : Nat → List α) (rs : List (Out α))
    (hs : specRun n check mf (fun _ => []) os = some (lw, rs)) :
    ∃ w, run mf (fun _ => init n triv check) os = .ok (w, rs) ∧ ∀ q, Shows n (w q) (lw q) := by
  obtain ⟨w, e, h⟩ := run_inv (triv := triv) mf os (fun _ => inv_init n hn triv check) hs
  exact ⟨w, e, fun q => shows_of_inv (h q)⟩

/-- **C42, queue**, headline: after any history, pushing `vs` (as far as they fit) and popping yields the elements in the order they went in. -/
theorem C42_queue_fifo (n : Nat) (hn : 0 < n) (triv check : Bool) (mf : α → α) (os : List (Op α)) (lw : Nat → List α) (rs : List (Out α))
    (hs : specRun n check mf (fun _ => []) os = some (lw, rs)) (q : Nat) (vs : List α) (hfit : (lw q).length + vs.length ≤ n) :
    ∃ w, run mf (fun _ => init n triv check) (os ++ vs.map (.push q) ++ List.replicate ((lw q).length + vs.length) (.popInto q)) =
      .ok (w, rs ++ vs.map (fun _ => .unit) ++ (lw q ++ vs).map .val) ∧ Shows n (w q) [] := by
  have happ : ∀ (a b : List (Op α)) (l l1 l2 : Nat → List α) (r1 r2 : List (Out α)), specRun n check mf l a = some (l1, r1) → specRun n check mf l1 b = some (l2, r2) →
      specRun n check mf l (a ++ b) = some (l2, r1 ++ r2) := by
    intro a
    induction a with
    | nil => intro b l l1 l2 r1 r2 h1 h2; simp [specRun] at h1; obtain ⟨rfl, rfl⟩ := h1; simpa using h2
    | cons o a ih =>
      intro b l l1 l2 r1 r2 h1 h2
      simp only [List.cons_append, specRun] at h1 ⊢
      split at h1
      · simp at h1
      · next w r hw =>
        split at h1
        · simp at h1
        · next w' rs' hw' =>
          simp at h1; obtain ⟨rfl, rfl⟩ := h1
          rw [ih b _ _ _ _ _ hw' h2]; rfl
  have hpush : ∀ (vs : List α) (l : Nat → List α), (l q).length + vs.length ≤ n →
      specRun n check mf l (vs.map (.push q)) = some (Etl.upd l q (l q ++ vs), vs.map (fun _ => .unit)) := by
    intro vs
    induction vs with
    | nil => intro l _; simp [specRun, upd_self]
    | cons v vs ih =>
      intro l hl
      simp only [List.length_cons] at hl
      simp only [List.map_cons, specRun, specStep]
      rw [if_pos (by omega)]; simp only
      rw [ih _ (by simp; omega)]; simp [upd_upd]
  have hpop : ∀ (vs : List α) (l : Nat → List α), l q = vs →
      specRun n check mf l (List.replicate vs.length (.popInto q)) = some (Etl.upd l q [], vs.map .val) := by
    intro vs
    induction vs with
    | nil =>
      intro l hl
      have : Etl.upd l q [] = l := by rw [← hl, upd_self]
      rw [this]; rfl
    | cons v vs ih =>
      intro l hl
      simp only [List.length_cons, List.replicate_succ, specRun, specStep, hl, List.map_cons]
      rw [ih _ (by simp)]; simp [upd_upd]
  have h1 := happ _ _ _ _ _ _ _ hs (hpush vs lw hfit)
  have h2 := happ _ _ _ _ _ _ _ h1 (hpop (lw q ++ vs) _ (by simp))
  rw [List.length_append] at h2
  obtain ⟨w, e, h⟩ := C42_queue_refines n hn triv check mf _ _ _ h2
  exact ⟨w, e, by simpa using h q⟩

/-- **C42, queue**: destroying a queue after any history destroys every object in it, and nothing else. -/
theorem C42_queue_destroy (n : Nat) (hn : 0 < n) (check : Bool) (mf : α → α) (os : List (Op α)) (lw : Nat → List α) (rs : List (Out α))
    (hs : specRun n check mf (fun _ => []) os = some (lw, rs)) (triv : Bool) (q : Nat) :
    ∃ w, run mf (fun _ => init n triv check) os = .ok (w, rs) ∧ ∃ s, destroy (w q) = .ok s ∧ ∀ i, i < n → s.mem.cell i = .raw := by
  obtain ⟨w, e, h⟩ := run_inv (triv := triv) mf os (fun _ => inv_init n hn triv check) hs
  obtain ⟨s, e2, h2⟩ := clear_inv (h q)
  exact ⟨w, e, s, e2, fun i hi => raw_of_nil h2 hi⟩

/-- A history meeting the hypotheses, with wrap-around, a rejected push, a copy and a move. -/
def demo : List (Op Nat) :=
  [.push 0 1, .push 0 2, .push 0 3, .push 0 4, .pop 0, .push 0 5, .copyAssign 1 0, .moveAssign 2 0, .popIntoQueue 1 1, .popInto 1, .pop 3]
example : (specRun 3 true (fun _ => 0) (fun _ => []) demo).map (fun r => (r.1 0, r.1 1, r.1 2, r.2)) =
    some ([0, 0, 0], [3, 5], [2, 3, 5], [.unit, .unit, .unit, .err .full, .unit, .unit, .unit, .unit, .err .full, .val 2, .err .empty]) := by decide +kernel

/-! ## Findings -/

/-- `iqueue::operator =` (l.506-515) lets queues of different capacities be assigned, but `clone` wraps the index into the *source* at the *target's* capacity.
Source of capacity 3 holding `[30, 40]` in slots 2 and 0, target of capacity 5: the second element is read from slot 3, outside the source's buffer. -/
theorem clone_other_capacity_broken :
    (do
      let (w, _) ← run (fun v : Nat => v) (fun _ => init 3 false true) [.push 0 10, .push 0 20, .push 0 30, .pop 0, .pop 0, .push 0 40]
      clone (init 5 false true) (w 0)) = .error .outOfBounds := rfl

/-- Without `ETL_CHECK_PUSH_POP` a push to a full queue constructs over a live object. -/
theorem push_full_unchecked_undefined :
    (run (fun v : Nat => v) (fun _ => init 1 false false) [.push 0 10, .push 0 20]).toBool = false := rfl

end Etl.Queue
