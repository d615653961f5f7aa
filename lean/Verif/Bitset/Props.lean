import Verif.Bitset.Lemmas3

/-!
# C26: a bitset is a vector of N bits

The specification: each bitset variable is a function `Nat → Bool` that is false from `N` on, and a flag that says whether the unused bits of its last element can be set.
`flip()`, `~`, `<<` and the constructor from a number do not clear these bits (a defect: see `flip_leaks`), `count`, `any`, `none`, `==`, `value` and `>>` look at them.
-/
namespace Etl.Bitset

/-- Operations on numbered bitsets of the same type. -/
inductive Op where
  | reset (x : Nat) | setAll (x : Nat) | flipAll (x : Nat)
  | set (x p : Nat) (v : Bool) | resetAt (x p : Nat) | flipAt (x p : Nat)
  | text (x : Nat) (t : Option (List Bool)) | num (x n : Nat)
  | and (x y : Nat) | or (x y : Nat) | xor (x y : Nat) | assign (x y : Nat)
  | shl (x s : Nat) | shr (x s : Nat)

/-! ## The specification -/

structure Vec where
  v : Nat → Bool
  leak : Bool

/-- The effect of an operation on ideal vectors of `N` bits in elements of `w` bits.  A position outside raises the error and changes nothing. -/
def spec (N w : Nat) (σ : Nat → Vec) : Op → Bool × (Nat → Vec)
  | .reset x => (false, upd σ x ⟨fun _ => false, false⟩)
  | .setAll x => (false, upd σ x ⟨fun i => decide (i < N), false⟩)
  | .flipAll x => (false, upd σ x ⟨fun i => decide (i < N) && !(σ x).v i, decide (N % w ≠ 0)⟩)
  | .set x p v => if p < N then (false, upd σ x ⟨fun i => if i = p then v else (σ x).v i, (σ x).leak⟩) else (true, σ)
  | .resetAt x p => if p < N then (false, upd σ x ⟨fun i => if i = p then false else (σ x).v i, (σ x).leak⟩) else (true, σ)
  | .flipAt x p => if p < N then (false, upd σ x ⟨fun i => if i = p then !(σ x).v p else (σ x).v i, (σ x).leak⟩) else (true, σ)
  | .text x .none => (false, upd σ x ⟨fun _ => false, false⟩)
  | .text x (some t) => (false, upd σ x ⟨fun i => ((t.take N).reverse[i]?).getD false, false⟩)
  | .num x n => (false, upd σ x ⟨fun i => decide (i < N) && n.testBit i, decide (N % w ≠ 0 ∧ 2 ^ N ≤ n)⟩)
  | .and x y => (false, upd σ x ⟨fun i => (σ x).v i && (σ y).v i, (σ x).leak && (σ y).leak⟩)
  | .or x y => (false, upd σ x ⟨fun i => (σ x).v i || (σ y).v i, (σ x).leak || (σ y).leak⟩)
  | .xor x y => (false, upd σ x ⟨fun i => (σ x).v i ^^ (σ y).v i, (σ x).leak || (σ y).leak⟩)
  | .assign x y => (false, upd σ x (σ y))
  | .shl x s => (false, upd σ x ⟨fun i => decide (i < N) && decide (s ≤ i) && (σ x).v (i - s), decide (N % w ≠ 0 ∧ s < N)⟩)
  | .shr x s => (false, upd σ x ⟨fun i => (σ x).v (i + s), false⟩)

/-- Shifts with defined behaviour. -/
def ShiftOk (c : Cfg) (s : Nat) : Prop := c.w < 32 ∨ s % c.w ≠ 0 ∨ c.N ≤ s ∨ c.N ≤ c.w
/-- Calls covered by the theorem: numbers have 64 bits; the text for a one element bitset is not empty; shifts are defined; a right shift of a bitset whose unused bits may be set is excluded. -/
def Legal (c : Cfg) (σ : Nat → Vec) : Op → Prop
  | .text _ (some t) => c.N ≤ c.w → t ≠ []
  | .num _ n => n < 2 ^ 64
  | .shl _ s => ShiftOk c s
  | .shr x s => ShiftOk c s ∧ ((σ x).leak = false ∨ c.N ≤ s)
  | _ => True

def specRun (N w : Nat) (σ : Nat → Vec) : List Op → List Bool × (Nat → Vec)
  | [] => ([], σ)
  | o :: os => ((spec N w σ o).1 :: (specRun N w (spec N w σ o).2 os).1, (specRun N w (spec N w σ o).2 os).2)
def LegalRun (c : Cfg) (σ : Nat → Vec) : List Op → Prop
  | [] => True
  | o :: os => Legal c σ o ∧ LegalRun c (spec c.N c.w σ o).2 os

/-! ## Running the model -/

/-- The result is stored, or the error was raised. -/
def store (env : Nat → Buf) (x : Nat) : Res (Option Buf) → Res (Bool × (Nat → Buf))
  | .error u => .error u
  | .ok .none => .ok (true, env)
  | .ok (some b) => .ok (false, upd env x b)
def store1 (env : Nat → Buf) (x : Nat) : Res Buf → Res (Bool × (Nat → Buf))
  | .error u => .error u
  | .ok b => .ok (false, upd env x b)

def exec (c : Cfg) (env : Nat → Buf) : Op → Res (Bool × (Nat → Buf))
  | .reset x => store1 env x (.ok (resetAll c (env x)))
  | .setAll x => store1 env x (.ok (setAll c (env x)))
  | .flipAll x => store1 env x (.ok (flipAll c (env x)))
  | .set x p v => store env x (set c (env x) p v)
  | .resetAt x p => store env x (reset c (env x) p)
  | .flipAt x p => store env x (flip c (env x) p)
  | .text x t => store1 env x (fromString c (env x) t)
  | .num x n => store1 env x (.ok (initialise c (env x) n))
  | .and x y => store1 env x (.ok (andWith c (env x) (env y)))
  | .or x y => store1 env x (.ok (orWith c (env x) (env y)))
  | .xor x y => store1 env x (.ok (xorWith c (env x) (env y)))
  | .assign x y => store1 env x (.ok (assign c (env x) (env y)))
  | .shl x s => store1 env x (shiftLeft c (env x) s)
  | .shr x s => store1 env x (shiftRight c (env x) s)

def run (c : Cfg) (env : Nat → Buf) : List Op → Res (List Bool × (Nat → Buf))
  | [] => .ok ([], env)
  | o :: os => match exec c env o with
    | .error u => .error u
    | .ok r => match run c r.2 os with
      | .error u => .error u
      | .ok q => .ok (r.1 :: q.1, q.2)

/-! ## Agreement -/

structure Agree (c : Cfg) (b : Buf) (s : Vec) : Prop where
  wf : WF c b
  act : ∀ i, i < c.N → bits c b i = s.v i
  out : ∀ i, c.N ≤ i → s.v i = false
  cln : s.leak = false → ∀ i, c.N ≤ i → i < c.ne * c.w → bits c b i = false
  full : c.N % c.w = 0 → s.leak = false

theorem agree_mk {c : Cfg} {b : Buf} {f : Nat → Bool} {s : Vec} (h : Eff c b f) (h1 : ∀ i, i < c.N → f i = s.v i) (h2 : ∀ i, c.N ≤ i → s.v i = false)
    (h3 : s.leak = false → ∀ i, c.N ≤ i → i < c.ne * c.w → f i = false) (h4 : c.N % c.w = 0 → s.leak = false) : Agree c b s :=
  ⟨h.1, fun i hi => by rw [h.2 i (by have := N_le c; omega)]; exact h1 i hi, h2, fun hl i hi hj => by rw [h.2 i hj]; exact h3 hl i hi hj, h4⟩

theorem full_ne {c : Cfg} (hp : 0 < c.N) (h : c.N % c.w = 0) : c.ne * c.w = c.N := by
  unfold Cfg.ne; rw [if_pos h]; exact Nat.div_mul_cancel (Nat.dvd_of_mod_eq_zero h)

theorem ne_one_iff {c : Cfg} (hp : 0 < c.N) : c.ne = 1 ↔ c.N ≤ c.w := by
  constructor
  · exact ne_one
  · intro h
    have h1 := ne_lt hp; have h2 := ne_pos hp
    by_contra hh
    have := Nat.mul_le_mul_right c.w (show 1 ≤ c.ne - 1 by omega)
    omega

theorem agree_upd {c : Cfg} {env : Nat → Buf} {σ : Nat → Vec} (h : ∀ x, Agree c (env x) (σ x)) {x : Nat} {b : Buf} {s : Vec} (hb : Agree c b s) : ∀ y, Agree c (upd env x b y) (upd σ x s y) := by
  intro y
  by_cases e : y = x
  · subst e; simpa using hb
  · rw [upd_other _ _ e, upd_other _ _ e]; exact h y

theorem textBit_spec {N i : Nat} {t : List Bool} : textBit t (min N t.length) i = ((t.take N).reverse[i]?).getD false := by
  unfold textBit
  have hl : (t.take N).length = min N t.length := List.length_take
  by_cases h : i < min N t.length
  · rw [List.getElem?_reverse (by omega), hl, getElem_take_or (by omega)]
    simp [h]
  · rw [List.getElem?_eq_none (l := (t.take N).reverse) (by rw [List.length_reverse]; omega)]; simp [h]

/-- One operation keeps the bitsets in agreement with the vectors. -/
theorem step {c : Cfg} (hc : Ok c) {env : Nat → Buf} {σ : Nat → Vec} (h : ∀ x, Agree c (env x) (σ x)) {o : Op} (hl : Legal c σ o) :
    ∃ env', exec c env o = .ok ((spec c.N c.w σ o).1, env') ∧ ∀ x, Agree c (env' x) ((spec c.N c.w σ o).2 x) := by
  have hp := hc.pos
  have hN := N_le c
  cases o with
  | reset x => exact ⟨_, rfl, agree_upd h (agree_mk (resetAll_eff c _) (fun _ _ => rfl) (fun _ _ => rfl) (fun _ _ _ _ => rfl) (fun _ => rfl))⟩
  | setAll x => exact ⟨_, rfl, agree_upd h (agree_mk (setAll_eff hp _) (fun _ _ => rfl) (fun i hi => by simp; omega) (fun _ i hi _ => by simp; omega) (fun _ => rfl))⟩
  | flipAll x =>
    refine ⟨_, rfl, agree_upd h (agree_mk (flipAll_eff (h x).wf) (fun i hi => ?_) (fun i hi => ?_) (fun hk i hi hj => ?_) (fun hk => ?_))⟩
    · rw [(h x).act i hi]; simp [hi]
    · simp; intro; omega
    · have : c.N % c.w = 0 := by simpa using hk
      rw [full_ne hp this] at hj; omega
    · simp [hk]
  | set x p v =>
    simp only [exec, spec]
    by_cases hq : p < c.N
    · rw [if_pos hq]
      obtain ⟨b, e, ef⟩ := set_eff (v := v) (h x).wf hq
      rw [e]
      refine ⟨_, rfl, agree_upd h (agree_mk ef (fun i hi => ?_) (fun i hi => ?_) (fun hk i hi hj => ?_) (h x).full)⟩
      · by_cases e : i = p
        · simp [e]
        · simp [e, (h x).act i hi]
      · simp only [if_neg (show ¬ i = p by omega)]; exact (h x).out i hi
      · simp only [if_neg (show ¬ i = p by omega)]; exact (h x).cln hk i hi hj
    · rw [if_neg hq]; unfold set; rw [if_neg hq]; exact ⟨env, rfl, h⟩
  | resetAt x p =>
    simp only [exec, spec]
    by_cases hq : p < c.N
    · rw [if_pos hq]
      obtain ⟨b, e, ef⟩ := reset_eff (h x).wf hq
      rw [e]
      refine ⟨_, rfl, agree_upd h (agree_mk ef (fun i hi => ?_) (fun i hi => ?_) (fun hk i hi hj => ?_) (h x).full)⟩
      · by_cases e : i = p
        · simp [e]
        · simp [e, (h x).act i hi]
      · simp only [if_neg (show ¬ i = p by omega)]; exact (h x).out i hi
      · simp only [if_neg (show ¬ i = p by omega)]; exact (h x).cln hk i hi hj
    · rw [if_neg hq]; unfold reset; rw [if_neg hq]; exact ⟨env, rfl, h⟩
  | flipAt x p =>
    simp only [exec, spec]
    by_cases hq : p < c.N
    · rw [if_pos hq]
      obtain ⟨b, e, ef⟩ := flip_eff (h x).wf hq
      rw [e]
      refine ⟨_, rfl, agree_upd h (agree_mk ef (fun i hi => ?_) (fun i hi => ?_) (fun hk i hi hj => ?_) (h x).full)⟩
      · by_cases e : i = p
        · simp [e, (h x).act p hq]
        · simp [e, (h x).act i hi]
      · simp only [if_neg (show ¬ i = p by omega)]; exact (h x).out i hi
      · simp only [if_neg (show ¬ i = p by omega)]; exact (h x).cln hk i hi hj
    · rw [if_neg hq]; unfold flip; rw [if_neg hq]; exact ⟨env, rfl, h⟩
  | text x t =>
    cases t with
    | none =>
      obtain ⟨b, e, ef⟩ := fromString_none (env x) hp
      simp only [exec, spec, e]
      exact ⟨_, rfl, agree_upd h (agree_mk ef (fun _ _ => rfl) (fun _ _ => rfl) (fun _ _ _ _ => rfl) (fun _ => rfl))⟩
    | some t =>
      obtain ⟨b, e, ef⟩ := fromString_some (t := t) (h x).wf hp (fun h1 => hl (ne_one h1))
      simp only [exec, spec, e]
      have out : ∀ i, c.N ≤ i → ((t.take c.N).reverse[i]?).getD false = false := by
        intro i hi
        rw [← textBit_spec]; unfold textBit; rw [decide_eq_false (by omega), Bool.false_and]
      exact ⟨_, rfl, agree_upd h (agree_mk ef (fun i _ => textBit_spec) out (fun _ i hi _ => by rw [textBit_spec]; exact out i hi) (fun _ => rfl))⟩
  | num x n =>
    refine ⟨_, rfl, agree_upd h (agree_mk (initialise_eff hp _ hl) (fun i hi => by simp [hi]) (fun i hi => by simp; intro; omega) (fun hk i hi hj => ?_) (fun hk => by simp [hk]))⟩
    simp only [ne_eq, decide_eq_false_iff_not, not_and, not_le] at hk
    by_cases hf : c.N % c.w = 0
    · rw [full_ne hp hf] at hj; omega
    · exact Binary.testBit_ge (hk hf) hi
  | and x y =>
    refine ⟨_, rfl, agree_upd h (agree_mk (andWith_eff (h x).wf) (fun i hi => ?_) (fun i hi => ?_) (fun hk i hi hj => ?_) (fun hk => ?_))⟩
    · rw [(h x).act i hi, (h y).act i hi]
    · simp [(h x).out i hi]
    · rcases Bool.and_eq_false_iff.mp hk with hk | hk
      · rw [(h x).cln hk i hi hj]; rfl
      · rw [(h y).cln hk i hi hj]; simp
    · simp [(h x).full hk]
  | or x y =>
    refine ⟨_, rfl, agree_upd h (agree_mk (orWith_eff (h x).wf (h y).wf) (fun i hi => ?_) (fun i hi => ?_) (fun hk i hi hj => ?_) (fun hk => ?_))⟩
    · rw [(h x).act i hi, (h y).act i hi]
    · simp [(h x).out i hi, (h y).out i hi]
    · rw [Bool.or_eq_false_iff] at hk
      rw [(h x).cln hk.1 i hi hj, (h y).cln hk.2 i hi hj]; rfl
    · simp [(h x).full hk, (h y).full hk]
  | xor x y =>
    refine ⟨_, rfl, agree_upd h (agree_mk (xorWith_eff (h x).wf (h y).wf) (fun i hi => ?_) (fun i hi => ?_) (fun hk i hi hj => ?_) (fun hk => ?_))⟩
    · rw [(h x).act i hi, (h y).act i hi]
    · simp [(h x).out i hi, (h y).out i hi]
    · rw [Bool.or_eq_false_iff] at hk
      rw [(h x).cln hk.1 i hi hj, (h y).cln hk.2 i hi hj]; rfl
    · simp [(h x).full hk, (h y).full hk]
  | assign x y =>
    exact ⟨_, rfl, agree_upd h (agree_mk (assign_eff (h y).wf) (h y).act (h y).out (h y).cln (h y).full)⟩
  | shl x s =>
    obtain ⟨b, e, ef⟩ := shiftLeft_eff (s := s) (h x).wf hp (by rw [ne_one_iff hp]; exact hl)
    simp only [exec, spec, e]
    refine ⟨_, rfl, agree_upd h (agree_mk ef (fun i hi => ?_) (fun i hi => ?_) (fun hk i hi hj => ?_) (fun hk => by simp [hk]))⟩
    · simp only [hi, decide_true, Bool.true_and]
      by_cases h1 : s ≤ i
      · rw [(h x).act (i - s) (by omega)]; simp [h1, show s < c.N by omega]
      · simp [h1]
    · simp; intro; omega
    · simp only [ne_eq, decide_eq_false_iff_not, not_and] at hk
      by_cases hf : c.N % c.w = 0
      · rw [full_ne hp hf] at hj; omega
      · have := hk hf
        rw [decide_eq_false this]; simp
  | shr x s =>
    obtain ⟨b, e, ef⟩ := shiftRight_eff (s := s) (h x).wf hp (by rw [ne_one_iff hp]; exact hl.1)
    simp only [exec, spec, e]
    have key : ∀ i, (decide (s < c.N) && decide (i + s < c.ne * c.w) && bits c (env x) (i + s)) = (σ x).v (i + s) := by
      intro i
      by_cases h1 : i + s < c.N
      · rw [(h x).act _ h1]; simp [show s < c.N by omega, show i + s < c.ne * c.w by omega]
      · rw [(h x).out _ (by omega)]
        rcases hl.2 with h2 | h2
        · by_cases h3 : i + s < c.ne * c.w
          · rw [(h x).cln h2 _ (by omega) h3]; simp
          · simp [h3]
        · rw [decide_eq_false (show ¬ s < c.N by omega)]; rfl
    exact ⟨_, rfl, agree_upd h (agree_mk ef (fun i _ => key i) (fun i hi => (h x).out _ (by omega)) (fun _ i hi _ => by rw [key]; exact (h x).out _ (by omega)) (fun _ => rfl))⟩

theorem run_agree {c : Cfg} (hc : Ok c) (os : List Op) : ∀ {env : Nat → Buf} {σ : Nat → Vec}, (∀ x, Agree c (env x) (σ x)) → LegalRun c σ os →
    ∃ env', run c env os = .ok ((specRun c.N c.w σ os).1, env') ∧ ∀ x, Agree c (env' x) ((specRun c.N c.w σ os).2 x) := by
  induction os with
  | nil => intro env σ h _; exact ⟨env, rfl, h⟩
  | cons o os ih =>
    intro env σ h hl
    obtain ⟨e1, f1, h1⟩ := step hc h hl.1
    obtain ⟨e2, f2, h2⟩ := ih h1 hl.2
    exact ⟨e2, by simp only [run, f1, f2, specRun], h2⟩

/-! ## The answers -/

/-- What a caller can see of a bitset, if it is the vector `s` of `N` bits. -/
structure Answers (c : Cfg) (b : Buf) (s : Vec) : Prop where
  test : ∀ p, test c b p = .ok (if p < c.N then some (s.v p) else .none)
  all : all c b = true ↔ ∀ i, i < c.N → s.v i = true
  string : toString c b = .ok ((List.range c.N).reverse.map s.v)
  find : ∀ state p, c.w ≤ 32 ∨ p % c.w < 31 → ∃ r, findNext c b state p = .ok r ∧ IsNext c.N s.v state p r
  count : s.leak = false → count c b = (List.range c.N).countP s.v
  any : s.leak = false → (any c b = true ↔ ∃ i, i < c.N ∧ s.v i = true)
  none : s.leak = false → (none c b = true ↔ ∀ i, i < c.N → s.v i = false)
  value : s.leak = false → ∀ tb, c.ne * c.w ≤ tb → ∃ n, value c tb b = some n ∧ ∀ i, n.testBit i = s.v i

theorem answers {c : Cfg} (hc : Ok c) {b : Buf} {s : Vec} (h : Agree c b s) : Answers c b s := by
  have hp := hc.pos
  have hN := N_le c
  refine ⟨fun p => ?_, ?_, ?_, fun state p hd => ?_, fun hl => ?_, fun hl => ?_, fun hl => ?_, fun hl tb ht => ?_⟩
  · by_cases h1 : p < c.N
    · rw [if_pos h1, test_eff h1, h.act p h1]
    · rw [if_neg h1]; unfold test; rw [if_neg h1]
  · rw [all_eff hp h.wf]
    exact ⟨fun g i hi => by rw [← h.act i hi]; exact g i hi, fun g i hi => by rw [h.act i hi]; exact g i hi⟩
  · rw [toString_eff]; congr 1
    apply List.map_congr_left
    intro i hi; simp only [List.mem_reverse, List.mem_range] at hi; exact h.act i hi
  · obtain ⟨r, e, g⟩ := findNext_eff (state := state) (p := p) h.wf hp (by omega) (by omega)
    refine ⟨r, e, ?_⟩
    cases r with
    | none => intro i h1 h2; rw [← h.act i h2]; exact g i h1 h2
    | some q =>
      obtain ⟨g1, g2, g3, g4⟩ := g
      exact ⟨g1, g2, by rw [← h.act q g2]; exact g3, fun i h1 h2 => by rw [← h.act i (by omega)]; exact g4 i h1 h2⟩
  · rw [count_eff hc h.wf, show c.ne * c.w = c.N + (c.ne * c.w - c.N) by omega, List.range_add, List.countP_append]
    have : List.countP (bits c b) (List.map (fun x => c.N + x) (List.range (c.ne * c.w - c.N))) = 0 := by
      rw [List.countP_eq_zero]
      intro i hi
      simp only [List.mem_map, List.mem_range] at hi
      obtain ⟨k, hk, rfl⟩ := hi
      rw [h.cln hl _ (by omega) (by omega)]; simp
    rw [this, Nat.add_zero]
    apply List.countP_congr
    intro i hi; rw [h.act i (List.mem_range.mp hi)]
  · rw [any_not]
    have hn := none_eff (c := c) h.wf
    cases hq : Bitset.none c b
    · simp only [Bool.not_false, true_iff]
      by_contra hh
      rw [hq] at hn
      refine Bool.false_ne_true (hn.mpr fun i hi => ?_)
      by_cases h1 : i < c.N
      · rw [h.act i h1]; by_contra h2; exact hh ⟨i, h1, by simpa using h2⟩
      · exact h.cln hl i (by omega) hi
    · simp only [Bool.not_true, Bool.false_eq_true, false_iff]
      rintro ⟨i, h1, h2⟩
      have := hn.mp hq i (by omega)
      rw [h.act i h1, h2] at this; simp at this
  · rw [none_eff h.wf]
    exact ⟨fun g i hi => by rw [← h.act i hi]; exact g i (by omega), fun g i hi => by
      by_cases h1 : i < c.N
      · rw [h.act i h1]; exact g i h1
      · exact h.cln hl i (by omega) hi⟩
  · obtain ⟨n, e, g1, g2⟩ := value_eff hp h.wf ht
    refine ⟨n, e, fun i => ?_⟩
    by_cases h1 : i < c.N
    · rw [g2 i (by omega), h.act i h1]
    · rw [h.out i (by omega)]
      by_cases h2 : i < c.ne * c.w
      · rw [g2 i h2]; exact h.cln hl i (by omega) h2
      · exact Binary.testBit_ge g1 (by omega)

theorem equal_agree {c : Cfg} {a b : Buf} {s r : Vec} (ha : Agree c a s) (hb : Agree c b r) (hl : s.leak = false) (hr : r.leak = false) : equal c a b = true ↔ ∀ i, i < c.N → s.v i = r.v i := by
  have hN := N_le c
  rw [equal_eff ha.wf hb.wf]
  exact ⟨fun g i hi => by rw [← ha.act i hi, ← hb.act i hi]; exact g i (by omega), fun g i hi => by
    by_cases h1 : i < c.N
    · rw [ha.act i h1, hb.act i h1]; exact g i h1
    · rw [ha.cln hl i (by omega) hi, hb.cln hr i (by omega) hi]⟩

/-- All bits zero, nothing in the unused ones: after the default constructor. -/
def zeros : Nat → Vec := fun _ => ⟨fun _ => false, false⟩

theorem start_agree (c : Cfg) (mem : Nat → Buf) : ∀ x, Agree c (resetAll c (mem x)) (zeros x) := fun x =>
  agree_mk (resetAll_eff c _) (fun _ _ => rfl) (fun _ _ => rfl) (fun _ _ _ _ => rfl) (fun _ => rfl)

/-- C26 (partial): take any number of bitsets of any size `N ≥ 1` with 8, 16, 32 or 64 bit elements, whatever their memory held before construction, and any sequence of operations whose shifts are defined and
which does not shift right a bitset whose unused bits may be set.  No undefined behaviour occurs, exactly the positions `≥ N` raise the error, and then `test`, `all`, `to_string`, `find_first` and `find_next` agree with the
ideal vectors; `count`, `any`, `none`, `value` and `==` do so for the bitsets whose unused bits cannot be set.
Missing, because false: the last part for the other bitsets (`flip_leaks`), other shifts (`shift_by_width_undefined`), `find_next` from bit 31 on of a 64 bit element (`find_next_64_undefined`). -/
theorem C26_histories_partial {c : Cfg} (hc : Ok c) (mem : Nat → Buf) (os : List Op) (hl : LegalRun c zeros os) :
    ∃ env, run c (fun x => resetAll c (mem x)) os = .ok ((specRun c.N c.w zeros os).1, env) ∧ (∀ x, Answers c (env x) ((specRun c.N c.w zeros os).2 x)) ∧
      ∀ x y, ((specRun c.N c.w zeros os).2 x).leak = false → ((specRun c.N c.w zeros os).2 y).leak = false →
        (equal c (env x) (env y) = true ↔ ∀ i, i < c.N → ((specRun c.N c.w zeros os).2 x).v i = ((specRun c.N c.w zeros os).2 y).v i) := by
  obtain ⟨env, e, h⟩ := run_agree hc os (start_agree c mem) hl
  exact ⟨env, e, fun x => answers hc (h x), fun x y hx hy => equal_agree (h x) (h y) hx hy⟩

/-- If `N` is a multiple of the element width there are no unused bits: every answer is right after every sequence whose shifts are defined. -/
theorem C26_full_elements {c : Cfg} (hc : Ok c) (hf : c.N % c.w = 0) (mem : Nat → Buf) (os : List Op) (hl : LegalRun c zeros os) :
    ∃ env, run c (fun x => resetAll c (mem x)) os = .ok ((specRun c.N c.w zeros os).1, env) ∧ ∀ x, Answers c (env x) ((specRun c.N c.w zeros os).2 x) ∧ ((specRun c.N c.w zeros os).2 x).leak = false := by
  obtain ⟨env, e, h⟩ := run_agree hc os (start_agree c mem) hl
  exact ⟨env, e, fun x => ⟨answers hc (h x), (h x).full hf⟩⟩

/-! ## Examples -/

example : Ok ⟨20, 3⟩ := ⟨by decide, by decide, by decide⟩
/-- A run with an error, a shift over an element border, a leaking complement (variable 1) and logic between variables. -/
def demo : List Op := [.num 0 0x8F3F1, .set 0 20 true, .shl 1 3, .shr 0 5, .assign 1 0, .flipAll 1, .text 2 (some [true, false, true, true]), .xor 2 0, .and 1 2, .flipAt 2 19]
example : LegalRun ⟨20, 3⟩ zeros demo := by simp [demo, LegalRun, Legal, ShiftOk, Cfg.w, spec, zeros, upd]
example : (specRun 20 8 zeros demo).1 = [false, true, false, false, false, false, false, false, false, false] := by decide
example : (List.range 20).map ((specRun 20 8 zeros demo).2 2).v = [false, false, true, false, true, false, false, true, true, true, true, false, false, false, true, false, false, false, false, true] := by decide

/-! ## Findings -/

/-- `bitset<4>`: after `flip()` of the empty set `count()` is 8, and `flip()` of the full set is neither `none()` nor equal to the empty set; `~` then `>> 1` sets bit 3. -/
theorem flip_leaks : let c : Cfg := ⟨4, 3⟩
    count c (flipAll c (fun _ => 0)) = 8 ∧ none c (flipAll c (setAll c (fun _ => 0))) = false ∧ equal c (flipAll c (setAll c (fun _ => 0))) (fun _ => 0) = false ∧
    (shiftRight c (flipAll c (fun _ => 0)) 1).toOption.bind (fun b => (test c b 3).toOption) = some (some true) := by decide +kernel
/-- The same from `<<` and from the constructor. -/
theorem shift_and_number_leak : let c : Cfg := ⟨4, 3⟩
    (shiftLeft c (setAll c (fun _ => 0)) 1).toOption.map (count c) = some 4 ∧ count c (initialise c (fun _ => 0) 0xFF) = 8 := by decide +kernel
/-- A shift of a 64 bit bitset with 32 bit elements by 0 or by 32 shifts an element by its full width. -/
theorem shift_by_width_undefined (b : Buf) : shiftRight ⟨64, 5⟩ b 32 = .error .overflow ∧ shiftRight ⟨64, 5⟩ b 0 = .error .overflow ∧ shiftLeft ⟨64, 5⟩ b 0 = .error .overflow := by
  refine ⟨by rfl, by rfl, ?_⟩
  simp [shiftLeft, mShl, Cfg.ne, Cfg.w, Cfg.shr, Cfg.shl, get, put, shlLoop, bind, Except.bind]
/-- `find_next` on 64 bit elements: undefined from bit 32 of an element; from bit 31 the mask is wrong and bit 31 is reported although only bit 40 is set. -/
theorem find_next_64_undefined (b : Buf) : findNext ⟨128, 6⟩ b true 32 = .error .overflow ∧ findNext ⟨64, 6⟩ b true 40 = .error .overflow ∧
    findNext ⟨128, 6⟩ (fun i => if i = 0 then 2 ^ 40 else 0) true 31 = .ok (some 31) := by
  refine ⟨by rfl, by rfl, by decide +kernel⟩
/-- `from_string("")` for a bitset of one element shifts by `SIZE_MAX`. -/
theorem empty_text_undefined (b : Buf) : fromString ⟨8, 3⟩ b (some []) = .error .overflow := by rfl

end Etl.Bitset
