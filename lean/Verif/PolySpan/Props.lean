import Verif.PolySpan.Model
import Mathlib.Tactic.Linarith
import Mathlib.Tactic.Ring
/-!
# C102: a poly_span shows the objects of its array, whatever their size
-/
namespace Etl.PolySpan

/-! ## Specification -/

/-- the addresses of the `n` objects of `es` bytes from number `lo` on, in an array at `base` -/
def objects (base : Int) (es lo n : Nat) : List Int := (List.range n).map fun i => base + ((lo + i : Nat) : Int) * es

example : objects 1000 24 2 3 = [1048, 1072, 1096] := by decide

/-- the span shows these objects and nothing else -/
def Shows (s : PSpan) (base : Int) (es lo n : Nat) : Prop := s.esize = es ∧ s.extent = n ∧ s.pbegin = base + (lo : Int) * es

/-- a request within the `n` elements of the span: how many are left out at the front, and how many remain -/
def request (n : Nat) : Sub → Option (Nat × Nat)
  | .firstT c | .first c => if c ≤ n then some (0, c) else none
  | .lastT c | .last c => if c ≤ n then some (n - c, c) else none
  | .subspanT o none | .subspan o none => if o ≤ n then some (o, n - o) else none
  | .subspanT o (some c) | .subspan o (some c) => if o + c ≤ n then some (o, c) else none

/-! ## C102 -/

/-- **C102**, access: every way to look at the span reaches the objects it shows. -/
theorem C102_access (s : PSpan) (base : Int) (es lo n : Nat) (h : Shows s base es lo n) (hes : 0 < es) :
    size s = n ∧ sizeBytes s = n * es ∧ (empty s = true ↔ n = 0) ∧
    (∀ i, i < n → (objects base es lo n)[i]? = some (index s i) ∧ ((begin' s).add i).ptr = index s i ∧ ((end' s).sub (n - i : Nat)).ptr = index s i) ∧
    (0 < n → (objects base es lo n).head? = some (front s) ∧ (objects base es lo n).getLast? = some (back s)) ∧
    (∀ fuel, n ≤ fuel → visit (end' s) fuel (begin' s) = objects base es lo n ∧ visitBack (begin' s) fuel (end' s) = (objects base es lo n).reverse) := by
  obtain ⟨h1, h2, h3⟩ := h
  have hidx : ∀ i, index s i = base + ((lo + i : Nat) : Int) * es := by
    intro i; simp only [index, elementAt, h1, h3]; push_cast; ring
  refine ⟨h2, by simp [sizeBytes, h1, h2], by simp [empty, h2], fun i hi => ⟨?_, ?_, ?_⟩, fun hn => ⟨?_, ?_⟩, fun fuel hf => ⟨?_, ?_⟩⟩
  · simp [objects, hi, hidx]
  · rw [hidx]; simp only [begin', Iter.mk', Iter.add, h1, h3]; push_cast; ring
  · rw [hidx]; simp only [end', Iter.mk', Iter.sub, h1, h2, h3]; push_cast [Nat.le_of_lt hi]; ring
  · obtain ⟨k, rfl⟩ := Nat.exists_eq_succ_of_ne_zero (Nat.pos_iff_ne_zero.1 hn)
    simp [objects, List.range_succ_eq_map, front, h3]
  · obtain ⟨k, rfl⟩ := Nat.exists_eq_succ_of_ne_zero (Nat.pos_iff_ne_zero.1 hn)
    have : back s = index s k := by simp [back, index, h2]
    rw [this, hidx]
    simp [objects, List.range_succ]
  · have key : ∀ k fuel i, k ≤ fuel → i + k = n → visit (end' s) fuel ⟨base + ((lo + i : Nat) : Int) * es, es⟩ = objects base es (lo + i) k := by
      intro k
      induction k with
      | zero =>
        intro fuel i _ hik
        cases fuel with
        | zero => rfl
        | succ f =>
          have : Iter.eq ⟨base + ((lo + i : Nat) : Int) * es, es⟩ (end' s) = true := by
            simp only [Iter.eq, end', Iter.mk', h1, h2, h3, Bool.and_eq_true, beq_iff_eq, and_true]
            subst hik; push_cast; ring
          rw [visit, if_pos this]; rfl
      | succ k ih =>
        intro fuel i hf hik
        cases fuel with
        | zero => omega
        | succ f =>
          have : ¬ Iter.eq ⟨base + ((lo + i : Nat) : Int) * es, es⟩ (end' s) = true := by
            simp only [Iter.eq, end', Iter.mk', h1, h2, h3, Bool.and_eq_true, beq_iff_eq, and_true]
            intro he
            push_cast at he
            have : (i : Int) * es = n * es := by linarith
            have := Int.eq_of_mul_eq_mul_right (by exact_mod_cast hes.ne') this
            omega
          rw [visit, if_neg this]
          have hinc : Iter.inc ⟨base + ((lo + i : Nat) : Int) * es, es⟩ = ⟨base + ((lo + (i + 1) : Nat) : Int) * es, es⟩ := by
            simp only [Iter.inc, Iter.mk.injEq, and_true]; push_cast; ring
          rw [hinc, ih f (i + 1) (by omega) (by omega)]
          simp only [objects, List.range_succ_eq_map, List.map_cons, List.map_map]
          congr 1
          refine List.map_congr_left fun j _ => ?_
          simp only [Function.comp]
          rw [show lo + (i + 1) + j = lo + i + (j + 1) by omega]
    have hb : begin' s = ⟨base + ((lo + 0 : Nat) : Int) * es, es⟩ := by simp [begin', Iter.mk', h1, h3]
    rw [hb]
    exact key n fuel 0 hf (by omega)
  · have key : ∀ k fuel, k ≤ fuel → visitBack (begin' s) fuel ⟨base + ((lo + k : Nat) : Int) * es, es⟩ = (objects base es lo k).reverse := by
      intro k
      induction k with
      | zero =>
        intro fuel _
        cases fuel with
        | zero => rfl
        | succ f =>
          have : Iter.eq ⟨base + ((lo + 0 : Nat) : Int) * es, es⟩ (begin' s) = true := by
            simp [Iter.eq, begin', Iter.mk', h1, h3]
          rw [visitBack, if_pos this]; rfl
      | succ k ih =>
        intro fuel hf
        cases fuel with
        | zero => omega
        | succ f =>
          have : ¬ Iter.eq ⟨base + ((lo + (k + 1) : Nat) : Int) * es, es⟩ (begin' s) = true := by
            simp only [Iter.eq, begin', Iter.mk', h1, h3, Bool.and_eq_true, beq_iff_eq, and_true]
            intro he
            push_cast at he
            have hp : 0 < ((k : Int) + 1) * es := by positivity
            have : ((k : Int) + 1) * es = 0 := by linarith
            omega
          rw [visitBack, if_neg this]
          have hdec : Iter.dec ⟨base + ((lo + (k + 1) : Nat) : Int) * es, es⟩ = ⟨base + ((lo + k : Nat) : Int) * es, es⟩ := by
            simp only [Iter.dec, Iter.mk.injEq, and_true]; push_cast; ring
          rw [hdec, ih f (by omega)]
          simp [objects, List.range_succ]
    have he : end' s = ⟨base + ((lo + n : Nat) : Int) * es, es⟩ := by
      simp only [end', Iter.mk', h1, h2, h3, Iter.mk.injEq, and_true]; push_cast; ring
    rw [he]
    exact key n fuel hf

/-- **C102**, iterators: positions compare as numbers, and `+`, `-`, `++`, `--` move by whole objects. -/
theorem C102_iterators (base : Int) (es : Nat) (hes : 0 < es) (i j : Int) :
    let it : Int → Iter := fun i => ⟨base + i * es, es⟩
    ((it i).eq (it j) = true ↔ i = j) ∧ ((it i).lt (it j) = true ↔ i < j) ∧ ((it i).le (it j) = true ↔ i ≤ j) ∧ ((it i).gt (it j) = true ↔ i > j) ∧ ((it i).ge (it j) = true ↔ i ≥ j) ∧
    (it i).inc = it (i + 1) ∧ (it i).dec = it (i - 1) ∧ (it i).add j = it (i + j) ∧ (it i).sub j = it (i - j) := by
  have hp : (0 : Int) < es := by exact_mod_cast hes
  have hlt : ∀ a b : Int, base + a * es < base + b * es ↔ a < b := by
    intro a b
    rw [add_lt_add_iff_left]
    exact mul_lt_mul_iff_left₀ hp
  have heq : ∀ a b : Int, base + a * es = base + b * es ↔ a = b := by
    intro a b
    constructor
    · intro h
      have : a * es = b * es := by linarith
      exact Int.eq_of_mul_eq_mul_right hp.ne' this
    · rintro rfl; rfl
  refine ⟨by simp [Iter.eq, hes.ne'], by simp only [Iter.lt, decide_eq_true_eq, hlt], ?_, by simp only [Iter.gt, Iter.lt, decide_eq_true_eq, hlt, gt_iff_lt], ?_, ?_, ?_, ?_, ?_⟩
  · simp only [Iter.le, Iter.gt, Iter.lt, hlt, Bool.not_eq_true', decide_eq_false_iff_not, not_lt]
  · simp only [Iter.ge, Iter.lt, hlt, Bool.not_eq_true', decide_eq_false_iff_not, not_lt, ge_iff_le]
  · simp only [Iter.inc, Iter.mk.injEq, and_true]; ring
  · simp only [Iter.dec, Iter.mk.injEq, and_true]; ring
  · simp only [Iter.add, Iter.mk.injEq, and_true]; ring
  · simp only [Iter.sub, Iter.mk.injEq, and_true]; ring

/-- the two requests the code gets wrong: the rest of a span of fixed extent from a run time offset, and the rest of a span of dynamic
extent from a compile time offset -/
def faulty (fixed : Bool) : Sub → Bool
  | .subspan o none => fixed && o != 0
  | .subspanT o none => !fixed && o != 0
  | _ => false

/-- **C102**, subviews.  A chain of `first`, `last` and `subspan` within bounds shows exactly the objects requested.  Missing: the two
requests of `faulty`, where the result reaches beyond the span (`C102_subspan_overrun`). -/
theorem C102_subviews_partial (base : Int) (es : Nat) (s : PSpan) (lo n : Nat) (h : Shows s base es lo n) (r : Sub) (o c : Nat) (hr : request n r = some (o, c)) (hf : faulty s.fixed r = false) :
    Shows (subview s r) base es (lo + o) c := by
  obtain ⟨h1, h2, h3⟩ := h
  cases r with
  | firstT k => simp only [request] at hr; split_ifs at hr; simp only [Option.some.injEq, Prod.mk.injEq] at hr; obtain ⟨rfl, rfl⟩ := hr; simp [Shows, subview, sub, h1, h3]
  | first k => simp only [request] at hr; split_ifs at hr; simp only [Option.some.injEq, Prod.mk.injEq] at hr; obtain ⟨rfl, rfl⟩ := hr; simp [Shows, subview, sub, h1, h3]
  | lastT k =>
    simp only [request] at hr; split_ifs at hr; simp only [Option.some.injEq, Prod.mk.injEq] at hr; obtain ⟨rfl, rfl⟩ := hr
    refine ⟨h1, rfl, ?_⟩; simp only [subview, sub, h1, h2, h3]; push_cast; ring
  | last k =>
    simp only [request] at hr; split_ifs at hr; simp only [Option.some.injEq, Prod.mk.injEq] at hr; obtain ⟨rfl, rfl⟩ := hr
    refine ⟨h1, rfl, ?_⟩; simp only [subview, sub, h1, h2, h3]; push_cast; ring
  | subspanT a k =>
    cases k with
    | none =>
      simp only [request] at hr; split_ifs at hr; simp only [Option.some.injEq, Prod.mk.injEq] at hr; obtain ⟨rfl, rfl⟩ := hr
      cases hfx : s.fixed with
      | true => refine ⟨by simp [subview, hfx, sub, h1], by simp [subview, hfx, sub, h2], ?_⟩; simp only [subview, hfx, sub, h1, h3, if_true]; push_cast; ring
      | false =>
        simp [faulty, hfx] at hf
        subst hf
        simp [Shows, subview, hfx, sub, h1, h2, h3]
    | some k =>
      simp only [request] at hr; split_ifs at hr; simp only [Option.some.injEq, Prod.mk.injEq] at hr; obtain ⟨rfl, rfl⟩ := hr
      refine ⟨h1, rfl, ?_⟩; simp only [subview, sub, h1, h3]; push_cast; ring
  | subspan a k =>
    cases k with
    | none =>
      simp only [request] at hr; split_ifs at hr; simp only [Option.some.injEq, Prod.mk.injEq] at hr; obtain ⟨rfl, rfl⟩ := hr
      cases hfx : s.fixed with
      | false => refine ⟨by simp [subview, hfx, sub, h1], by simp [subview, hfx, sub, h2], ?_⟩; simp only [subview, hfx, sub, h1, h3, Bool.false_eq_true, if_false]; push_cast; ring
      | true =>
        simp [faulty, hfx] at hf
        subst hf
        simp [Shows, subview, hfx, sub, h1, h2, h3]
    | some k =>
      simp only [request] at hr; split_ifs at hr; simp only [Option.some.injEq, Prod.mk.injEq] at hr; obtain ⟨rfl, rfl⟩ := hr
      refine ⟨h1, rfl, ?_⟩; simp only [subview, sub, h1, h3]; push_cast; ring

/-- a chain of requests -/
def chain (s : PSpan) : List Sub → PSpan
  | [] => s
  | r :: rs => chain (subview s r) rs

/-- is the extent of the result part of its type? -/
def fixedResult (fixed : Bool) : Sub → Bool
  | .firstT _ => true
  | .lastT _ => true
  | .subspanT _ (some _) => true
  | .subspanT _ none => fixed
  | _ => false

/-- the objects a chain of requests leaves, if every request is within bounds -/
def chainSpec (fixed : Bool) (lo n : Nat) : List Sub → Option (Nat × Nat)
  | [] => some (lo, n)
  | r :: rs => match request n r with
    | some (o, c) => if faulty fixed r then none
      else chainSpec (fixedResult fixed r) (lo + o) c rs
    | none => none

/-- **C102**, chains of subviews of any length. -/
theorem C102_chain_partial (base : Int) (es : Nat) (rs : List Sub) (s : PSpan) (lo n lo' n' : Nat) (h : Shows s base es lo n) (hc : chainSpec s.fixed lo n rs = some (lo', n')) :
    Shows (chain s rs) base es lo' n' := by
  induction rs generalizing s lo n with
  | nil => simp only [chainSpec, Option.some.injEq, Prod.mk.injEq] at hc; obtain ⟨rfl, rfl⟩ := hc; exact h
  | cons r rs ih =>
    rw [chainSpec] at hc
    cases hr : request n r with
    | none => rw [hr] at hc; cases hc
    | some p =>
      obtain ⟨o, c⟩ := p
      rw [hr] at hc
      cases hf : faulty s.fixed r with
      | true => simp [hf] at hc
      | false =>
        simp only [hf, Bool.false_eq_true, if_false] at hc
        have hs := C102_subviews_partial base es s lo n h r o c hr hf
        refine ih (subview s r) (lo + o) c hs ?_
        have hfix : (subview s r).fixed = fixedResult s.fixed r := by
          cases r with
          | firstT k => rfl
          | first k => rfl
          | lastT k => rfl
          | last k => rfl
          | subspanT a k => cases k with
            | none => cases hfx : s.fixed <;> simp [subview, hfx, sub, fixedResult]
            | some k => rfl
          | subspan a k => cases k with
            | none => cases hfx : s.fixed <;> simp [subview, hfx, sub, fixedResult]
            | some k => rfl
        rw [hfix]; exact hc

/-- ten objects of 24 bytes; `subspan<2, 6>().last(4).first<3>().subspan<1>()` shows objects 5 and 6 -/
example : chainSpec false 0 10 [.subspanT 2 (some 6), .last 4, .firstT 3, .subspanT 1 none] = some (5, 2) ∧
    Shows (chain (construct none 1000 24 10) [.subspanT 2 (some 6), .last 4, .firstT 3, .subspanT 1 none]) 1000 24 5 2 := by
  refine ⟨by decide, ?_⟩
  exact C102_chain_partial 1000 24 _ _ 0 10 5 2 ⟨rfl, rfl, rfl⟩ (by decide)

/-- **C102**, construction: a span of dynamic extent shows its source; a span of fixed extent does if the source has `Extent` elements. -/
theorem C102_construct (ext : Option Nat) (base : Int) (es n : Nat) (h : ∀ e, ext = some e → e = n) : Shows (construct ext base es n) base es 0 n := by
  cases ext with
  | none => simp [Shows, construct]
  | some e => have := h e rfl; subst this; simp [Shows, construct]

/-- **C102**, from the construction on: any sequence of sub-views of a new span over `n` elements shows what the arithmetic of the requests says. -/
theorem C102_construct_then_chain_partial (ext : Option Nat) (base : Int) (es n : Nat) (h : ∀ e, ext = some e → e = n) (rs : List Sub) (o c : Nat) (hc : chainSpec ext.isSome 0 n rs = some (o, c)) :
    Shows (chain (construct ext base es n) rs) base es o c := by
  have hf : (construct ext base es n).fixed = ext.isSome := by cases ext <;> rfl
  exact C102_chain_partial base es rs (construct ext base es n) 0 n o c (C102_construct ext base es n h) (by rw [hf]; exact hc)

/-- Of a span of fixed extent, `subspan<OFFSET>()` is right. -/
example : Shows (chain (construct (some 10) 1000 24 10) [.subspanT 2 none]) 1000 24 2 8 :=
  C102_construct_then_chain_partial (some 10) 1000 24 10 (by simp) _ 2 8 (by decide)

/-- **Finding** (C102): the fixed extent of a span may exceed its source (the assertion of the array constructors is `N <= Extent`, and the
size given with an iterator is ignored): the span then shows objects that do not exist. -/
theorem C102_construct_overrun (base : Int) (es n e : Nat) (h : n < e) : n < size (construct (some e) base es n) := h

/-- **Finding** (C102): `subspan(offset)` of a span of fixed extent and `subspan<OFFSET>()` of a span of dynamic extent have the size of the
whole span, `offset` more than is left: the last `offset` elements are beyond its end. -/
theorem C102_subspan_overrun (s : PSpan) (base : Int) (es lo n o : Nat) (h : Shows s base es lo n) (h0 : 0 < o) (ho : o ≤ n) (r : Sub) (hr : r = .subspan o none ∧ s.fixed = true ∨ r = .subspanT o none ∧ s.fixed = false) :
    request n r = some (o, n - o) ∧ Shows (subview s r) base es (lo + o) n := by
  obtain ⟨h1, h2, h3⟩ := h
  rcases hr with ⟨rfl, hf⟩ | ⟨rfl, hf⟩
  · refine ⟨by simp [request, ho], by simp [subview, hf, sub, h1], by simp [subview, hf, sub, h2], ?_⟩
    simp only [subview, hf, sub, h1, h3, if_true]; push_cast; ring
  · refine ⟨by simp [request, ho], by simp [subview, hf, sub, h1], by simp [subview, hf, sub, h2], ?_⟩
    simp only [subview, hf, sub, h1, h3, Bool.false_eq_true, if_false]; push_cast; ring

/-- **Finding** (C102): the difference of two iterators is in units of `TBase`.  If the elements are `k` times as large as `TBase`, it is `k`
times the number of elements between them: `end() - begin()` is the size only if they are of the same size. -/
theorem C102_distance (base : Int) (tb k : Nat) (htb : 0 < tb) (i j : Int) : Iter.diff tb ⟨base + i * (k * tb : Nat), k * tb⟩ ⟨base + j * (k * tb : Nat), k * tb⟩ = k * (i - j) := by
  have hp : (tb : Int) ≠ 0 := by exact_mod_cast htb.ne'
  simp only [Iter.diff]
  rw [show base + i * ((k * tb : Nat) : Int) - (base + j * ((k * tb : Nat) : Int)) = (k * (i - j)) * tb by push_cast; ring]
  exact Int.mul_ediv_cancel _ hp

/-- `end() - begin()` of a span of 10 derived objects three times the size of the base is 30 -/
example : Iter.diff 8 (end' (construct none 1000 24 10)) (begin' (construct none 1000 24 10)) = 30 := by decide

/-- **Finding** (C102): the hash of a span of larger elements covers only `size() * sizeof(TBase)` bytes: spans that differ only beyond have
the same hash. -/
theorem C102_hash_short (z : StdHash.SizeT) (mem mem' : Int → Fcs.Byte) (tb : Nat) (s : PSpan) (h : ∀ i : Nat, i < s.extent * tb → mem (s.pbegin + i) = mem' (s.pbegin + i)) :
    hash z mem tb s = hash z mem' tb s := by
  unfold hash
  congr 1
  refine List.map_congr_left fun i hi => ?_
  exact h i (List.mem_range.1 hi)

/-- **C102**, hash: where the elements are of the size of `TBase`, it covers all bytes of the span. -/
theorem C102_hash (z : StdHash.SizeT) (mem : Int → Fcs.Byte) (s : PSpan) :
    hash z mem s.esize s = StdHash.genericHash z ((List.range (sizeBytes s)).map fun (i : Nat) => mem (s.pbegin + (i : Int))) := rfl

end Etl.PolySpan
