import Verif.MovAvg.Model
import Verif.Rounding.Props

/-!
# Properties of pseudo_moving_average.h (C86)
-/
namespace Etl.MovAvg
open Etl.Rounding

/-! ## Specification -/

inductive Op where
  | add (x : Int)
  | clear (i : Int)
  | setSize (n : Nat)

def step (t : Ty) (S : Nat) (s : Avg) : Op → Res Avg
  | .add x => add t S s x
  | .clear i => clear t S s i
  | .setSize n => .ok (setSize t s n)
def run (t : Ty) (S : Nat) (s : Avg) : List Op → Res Avg
  | [] => .ok s
  | o :: os => do run t S (← step t S s o) os

/-- The scaled values are between `L` and `U`, the sample sizes at most `N`. -/
def Within (S : Nat) (L U : Int) (N : Nat) : Op → Prop
  | .add x => L ≤ S * x ∧ S * x ≤ U
  | .clear i => L ≤ S * i ∧ S * i ≤ U
  | .setSize n => n ≤ N

/-- The average of the same samples as exact integers. -/
def ideal (S : Nat) (s : Avg) : Op → Avg
  | .add x => { s with average := (s.average * s.samples + S * x).tdiv (s.samples + 1) }
  | .clear i => { s with average := S * i }
  | .setSize n => { s with samples := n }

/-- The type has all values that are `N + 1` times as large as those between `L` and `U`. -/
structure Room (t : Ty) (S : Nat) (L U : Int) (N : Nat) : Prop where
  w : 0 < t.w
  scale : S < 2 ^ 31
  size : N + 1 < 2 ^ 31
  sign : L ≤ 0 ∧ 0 ≤ U
  low : In t (L * (N + 1))
  high : In t (U * (N + 1))

/-! ## Proofs -/

variable {t : Ty} {S : Nat} {L U : Int} {N : Nat}

theorem in_between {a b x : Int} (ha : In t a) (hb : In t b) (h1 : a ≤ x) (h2 : x ≤ b) : In t x := by
  unfold In at *
  cases hs : t.sgn with
  | true => rw [hs] at ha hb; simp only [if_true] at ha hb ⊢; omega
  | false => rw [hs] at ha hb; simp only [Bool.false_eq_true, if_false] at ha hb ⊢; omega

theorem arith_in {x : Int} (h : In t x) : arith t x = .ok x := by
  have hpw : ∀ k l : Nat, k ≤ l → (2 : Int) ^ k ≤ 2 ^ l := fun k l hkl => pow_le_pow_right₀ (by omega) hkl
  unfold arith In at *
  cases hs : t.sgn with
  | true =>
    rw [hs] at h
    simp only [if_true] at h ⊢
    have := hpw (t.w - 1) (t.a - 1) (by unfold Ty.a; omega)
    rw [if_pos ⟨by omega, by omega⟩]
  | false =>
    rw [hs] at h
    simp only [Bool.false_eq_true, if_false] at h ⊢
    have := hpw t.w t.a (by unfold Ty.a; omega)
    rw [Int.emod_eq_of_lt h.1 (by omega)]

theorem scale31 (t : Ty) {x : Nat} (h : x < 2 ^ 31) : scale t x = x := scale_eq t x (by cases t.sgn <;> simp <;> omega)

theorem tdiv_facts (E d : Int) (hd : 0 < d) : (0 ≤ E → E.tdiv d * d ≤ E ∧ E < (E.tdiv d + 1) * d) ∧ (E < 0 → E ≤ E.tdiv d * d ∧ (E.tdiv d - 1) * d < E) := by
  have key : ∀ x : Int, x / d * d ≤ x ∧ x < (x / d + 1) * d := by
    intro x
    have h1 := Int.mul_ediv_add_emod x d
    have h2 := Int.emod_nonneg x (b := d) (by omega)
    have h3 := Int.emod_lt_of_pos x hd
    constructor <;> nlinarith
  constructor
  · intro h
    rw [Int.tdiv_eq_ediv_of_nonneg h]; exact key E
  · intro h
    have hq : E.tdiv d = -(-E / d) := by
      conv_lhs => rw [show E = -(-E) by ring]
      rw [Int.neg_tdiv, Int.tdiv_eq_ediv_of_nonneg (by omega)]
    rw [hq]
    have := key (-E)
    constructor <;> nlinarith [this.1, this.2]

theorem tdiv_within {E d L U : Int} (hd : 0 < d) (h1 : L * d ≤ E) (h2 : E ≤ U * d) : L ≤ E.tdiv d ∧ E.tdiv d ≤ U := by
  obtain ⟨a, b⟩ := tdiv_facts E d hd
  rcases Int.lt_or_le E 0 with h | h
  · obtain ⟨x, y⟩ := b h
    constructor
    · by_contra hc
      have : E.tdiv d + 1 ≤ L := by omega
      nlinarith
    · by_contra hc
      have : U ≤ E.tdiv d - 1 := by omega
      nlinarith
  · obtain ⟨x, y⟩ := a h
    constructor
    · by_contra hc
      have : E.tdiv d + 1 ≤ L := by omega
      nlinarith
    · by_contra hc
      have : U + 1 ≤ E.tdiv d := by omega
      nlinarith

/-- The state: the average between the bounds. -/
structure Good (L U : Int) (N : Nat) (s : Avg) : Prop where
  low : L ≤ s.average
  high : s.average ≤ U
  n0 : 0 ≤ s.samples
  nN : s.samples ≤ N

theorem step_ok (hr : Room t S L U N) {s : Avg} (hg : Good L U N s) {o : Op} (ho : Within S L U N o) : step t S s o = .ok (ideal S s o) ∧ Good L U N (ideal S s o) := by
  obtain ⟨hL, hU⟩ := hr.sign
  have hS := scale31 t hr.scale
  have hin : ∀ x, L * (N + 1) ≤ x → x ≤ U * (N + 1) → In t x := fun x h1 h2 => in_between hr.low hr.high h1 h2
  have hLN : L * (N + 1) ≤ L := by nlinarith [Int.natCast_nonneg N]
  have hUN : U ≤ U * (N + 1) := by nlinarith [Int.natCast_nonneg N]
  obtain ⟨a1, a2, a3, a4⟩ := hg
  cases o with
  | add x =>
    obtain ⟨x1, x2⟩ := ho
    have p1 : L * N ≤ s.average * s.samples := by nlinarith
    have p2 : s.average * s.samples ≤ U * N := by nlinarith
    have e1 := hin (s.average * s.samples) (by nlinarith) (by nlinarith)
    have e2 := hin (S * x) (by omega) (by omega)
    have e3 := hin (s.average * s.samples + S * x) (by nlinarith) (by nlinarith)
    have hb := tdiv_within (E := s.average * s.samples + S * x) (d := s.samples + 1) (L := L) (U := U) (by omega) (by nlinarith) (by nlinarith)
    have e4 := hin ((s.average * s.samples + S * x).tdiv (s.samples + 1)) (by omega) (by omega)
    have e5 : arith { t with w := 32 } (s.samples + 1) = .ok (s.samples + 1) := by
      have hsz : s.samples + 1 < 2 ^ 31 := by have := hr.size; omega
      refine arith_in (t := { t with w := 32 }) ?_
      unfold In
      cases t.sgn <;> simp <;> omega
    refine ⟨?_, hb.1, hb.2, a3, a4⟩
    show add t S s x = _
    unfold add
    simp only [bind, Except.bind, hS]
    rw [arith_in e1]
    simp only []
    rw [arith_in e2, conv_eq t hr.w _ e1]
    simp only []
    rw [arith_in e3]
    simp only []
    rw [e5, conv_eq t hr.w _ e3]
    simp only []
    unfold quo
    rw [if_neg (by omega)]
    simp only []
    rw [conv_eq t hr.w _ e4]
    rfl
  | clear i =>
    obtain ⟨x1, x2⟩ := ho
    have e2 := hin (S * i) (by omega) (by omega)
    refine ⟨?_, x1, x2, a3, a4⟩
    show clear t S s i = _
    unfold clear start
    simp only [bind, Except.bind, hS]
    rw [Int.mul_comm i, arith_in e2]
    simp only []
    rw [conv_eq t hr.w _ e2]
    rfl
  | setSize n =>
    have hn : n ≤ N := ho
    refine ⟨?_, a1, a2, Int.natCast_nonneg n, by show (n : Int) ≤ N; omega⟩
    show Except.ok (setSize t s n) = _
    unfold setSize
    rw [scale31 t (by have := hr.size; omega)]
    rfl

theorem run_ok (hr : Room t S L U N) (os : List Op) : ∀ {s : Avg}, Good L U N s → (∀ o ∈ os, Within S L U N o) → run t S s os = .ok (os.foldl (ideal S) s) ∧ Good L U N (os.foldl (ideal S) s) := by
  induction os with
  | nil => intro s hg _; exact ⟨rfl, hg⟩
  | cons o os ih =>
    intro s hg ho
    obtain ⟨e, hg'⟩ := step_ok hr hg (ho o List.mem_cons_self)
    have := ih hg' (fun o h => ho o (List.mem_cons_of_mem _ h))
    refine ⟨?_, this.2⟩
    show (do run t S (← step t S s o) os : Res Avg) = _
    simp only [bind, Except.bind, e]
    exact this.1

theorem new_ok (hr : Room t S L U N) {i : Int} {n : Nat} (hi : L ≤ S * i ∧ S * i ≤ U) (hn : n ≤ N) : new t S i n = .ok ⟨S * i, n⟩ ∧ Good L U N ⟨S * i, n⟩ := by
  obtain ⟨hL, hU⟩ := hr.sign
  have hLN : L * (N + 1) ≤ L := by nlinarith [Int.natCast_nonneg N]
  have hUN : U ≤ U * (N + 1) := by nlinarith [Int.natCast_nonneg N]
  have e2 : In t (S * i) := in_between hr.low hr.high (by omega) (by omega)
  refine ⟨?_, hi.1, hi.2, Int.natCast_nonneg n, by show (n : Int) ≤ N; omega⟩
  unfold new start
  simp only [bind, Except.bind, scale31 t hr.scale]
  rw [Int.mul_comm i, arith_in e2]
  simp only []
  rw [conv_eq t hr.w _ e2, scale31 t (by have := hr.size; omega)]

/-- One addition with the exact integers. -/
def next (N a v : Int) : Int := (a * N + v).tdiv (N + 1)

theorem next_above {N a v : Int} (hN : 0 ≤ N) (h : a ≤ v) : a ≤ next N a v ∧ next N a v ≤ v ∧ (next N a v = a → v - a ≤ N) := by
  have hb := tdiv_within (E := a * N + v) (d := N + 1) (L := a) (U := v) (by omega) (by nlinarith) (by nlinarith)
  refine ⟨hb.1, hb.2, fun e => ?_⟩
  obtain ⟨x, y⟩ := tdiv_facts (a * N + v) (N + 1) (by omega)
  unfold next at e
  rw [e] at x y
  rcases Int.lt_or_le (a * N + v) 0 with h0 | h0
  · have := (y h0).1; nlinarith
  · have := (x h0).2; nlinarith

theorem next_below {N a v : Int} (hN : 0 ≤ N) (h : v ≤ a) : v ≤ next N a v ∧ next N a v ≤ a ∧ (next N a v = a → a - v ≤ N) := by
  have hb := tdiv_within (E := a * N + v) (d := N + 1) (L := v) (U := a) (by omega) (by nlinarith) (by nlinarith)
  refine ⟨hb.1, hb.2, fun e => ?_⟩
  obtain ⟨x, y⟩ := tdiv_facts (a * N + v) (N + 1) (by omega)
  unfold next at e
  rw [e] at x y
  rcases Int.lt_or_le (a * N + v) 0 with h0 | h0
  · have := (y h0).2; nlinarith
  · have := (x h0).1; nlinarith

theorem next_near {N a v : Int} (hN : 0 ≤ N) : |next N a v - v| ≤ |a - v| ∧ (N < |a - v| → |next N a v - v| < |a - v|) := by
  rcases Int.le_total a v with h | h
  · obtain ⟨h1, h2, h3⟩ := next_above hN h
    rw [abs_of_nonpos (by omega : a - v ≤ 0), abs_of_nonpos (by omega : next N a v - v ≤ 0)]
    refine ⟨by omega, fun hh => ?_⟩
    by_contra hc
    have := h3 (by omega); omega
  · obtain ⟨h1, h2, h3⟩ := next_below hN h
    rw [abs_of_nonneg (by omega : 0 ≤ a - v), abs_of_nonneg (by omega : 0 ≤ next N a v - v)]
    refine ⟨by omega, fun hh => ?_⟩
    by_contra hc
    have := h3 (by omega); omega

theorem repeat_eq (S : Nat) (N x : Int) : ∀ (k : Nat) (a : Int), ((List.replicate k (Op.add x)).foldl (ideal S) ⟨a, N⟩) = ⟨(fun a => next N a (S * x))^[k] a, N⟩ := by
  intro k
  induction k with
  | zero => intro a; rfl
  | succ k ih =>
    intro a
    rw [List.replicate_succ, List.foldl_cons, Function.iterate_succ_apply]
    exact ih _

theorem iterate_near {N v : Int} (hN : 0 ≤ N) (k : Nat) : ∀ a : Int, |(fun a => next N a v)^[k] a - v| ≤ max N (|a - v| - k) := by
  induction k with
  | zero => intro a; simp
  | succ k ih =>
    intro a
    rw [Function.iterate_succ_apply]
    have := ih (next N a v)
    obtain ⟨h1, h2⟩ := next_near (a := a) (v := v) hN
    refine le_trans this ?_
    push_cast
    rcases Int.lt_or_le N |a - v| with h | h
    · have := h2 h; omega
    · omega

/-! ## Properties -/

/-- C86: after every history the value is between the least and the greatest of the (scaled) values given, and nothing overflows, if the type has room for the sample size plus one times these; it is what exact integers give. -/
theorem C86_value (hr : Room t S L U N) {i : Int} {n : Nat} (hi : L ≤ S * i ∧ S * i ≤ U) (hn : n ≤ N) (os : List Op) (ho : ∀ o ∈ os, Within S L U N o) :
    ∃ s, (do run t S (← new t S i n) os : Res Avg) = .ok s ∧ s = os.foldl (ideal S) ⟨S * i, n⟩ ∧ L ≤ value s ∧ value s ≤ U := by
  obtain ⟨e, hg⟩ := new_ok hr hi hn
  obtain ⟨e', hg'⟩ := run_ok hr os hg ho
  refine ⟨_, ?_, rfl, hg'.low, hg'.high⟩
  simp only [bind, Except.bind, e, e']

/-- C86: with the same sample again and again the value comes to at most the sample size from it, at the latest after as many additions as it was away, and stays there. -/
theorem C86_settles (hr : Room t S L U N) {i x : Int} {n : Nat} (hi : L ≤ S * i ∧ S * i ≤ U) (hx : L ≤ S * x ∧ S * x ≤ U) (hn : n ≤ N) (k : Nat) :
    ∃ s, (do run t S (← new t S i n) (List.replicate k (.add x)) : Res Avg) = .ok s ∧ |value s - S * x| ≤ |S * i - S * x| ∧ (|S * i - S * x| ≤ k + n → |value s - S * x| ≤ n) := by
  obtain ⟨s, e, hs, _⟩ := C86_value hr hi hn (List.replicate k (.add x)) (by
    intro o ho
    rw [List.eq_of_mem_replicate ho]
    exact hx)
  refine ⟨s, e, ?_⟩
  rw [repeat_eq] at hs
  rw [hs]
  have h0 : (0 : Int) ≤ n := Int.natCast_nonneg n
  constructor
  · show |(fun a => next n a (S * x))^[k] (S * i) - S * x| ≤ _
    clear hs e
    have : ∀ (k : Nat) (a : Int), |(fun a => next n a (S * x))^[k] a - S * x| ≤ |a - S * x| := by
      intro k
      induction k with
      | zero => intro a; simp
      | succ k ih => intro a; rw [Function.iterate_succ_apply]; exact le_trans (ih _) (next_near h0).1
    exact this k _
  · intro hk
    have := iterate_near (v := S * x) h0 k (S * i)
    show |(fun a => next n a (S * x))^[k] (S * i) - S * x| ≤ _
    refine le_trans this ?_
    omega

/-! ## Finding and examples -/

/-- Without scaling the value can stay away from the samples for ever: from 0, over 10 samples, however often 10 is added. -/
theorem C86_finding_stuck (k : Nat) : ∃ s, (do run ⟨true, 32⟩ 1 (← new ⟨true, 32⟩ 1 0 10) (List.replicate k (.add 10)) : Res Avg) = .ok s ∧ value s = 0 := by
  have hr : Room ⟨true, 32⟩ 1 0 10 10 := ⟨by decide, by decide, by decide, by decide, by unfold In; decide, by unfold In; decide⟩
  obtain ⟨s, e, hs, _⟩ := C86_value hr (i := 0) (n := 10) (by decide) (by decide) (List.replicate k (.add 10)) (by
    intro o ho
    rw [List.eq_of_mem_replicate ho]
    exact ⟨by decide, by decide⟩)
  refine ⟨s, e, ?_⟩
  rw [repeat_eq] at hs
  rw [hs]
  show (fun a => next ((10 : Nat) : Int) a (((1 : Nat) : Int) * 10))^[k] (((1 : Nat) : Int) * 0) = 0
  have : ∀ k : Nat, (fun a => next ((10 : Nat) : Int) a (((1 : Nat) : Int) * 10))^[k] 0 = 0 := by
    intro k
    induction k with
    | zero => rfl
    | succ k ih => rw [Function.iterate_succ_apply]; exact ih
  exact this k

example : Room ⟨true, 16⟩ 10 (-200) 200 4 := ⟨by decide, by decide, by decide, by decide, by unfold In; decide, by unfold In; decide⟩
example : ∃ s, (do run ⟨true, 16⟩ 10 (← new ⟨true, 16⟩ 10 0 4) [.add 20, .add (-3), .setSize 1, .add 7] : Res Avg) = .ok s ∧ value s = 48 := ⟨_, rfl, by decide +kernel⟩
/-- Without room: an int8_t overflows with two samples of 100. -/
example : ∃ s, (do run ⟨true, 8⟩ 1 (← new ⟨true, 8⟩ 1 100 4) [.add 100] : Res Avg) = .ok s ∧ value s = -2 := ⟨_, rfl, by decide +kernel⟩

end Etl.MovAvg
