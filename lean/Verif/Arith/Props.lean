import Verif.Arith.Model
import Mathlib.Data.Nat.Digits.Lemmas
import Mathlib.Tactic.SplitIfs
import Mathlib.Tactic.Ring
import Mathlib.Tactic.IntervalCases

/-!
# C38: to_arithmetic reads exactly the numbers that fit; C39: to_string and back; C61: numbers with a decimal point
-/
namespace Etl.Arith

/-! ### Specification -/

/-- the value of a character as a digit: `0`-`9`, `a`-`z`, `A`-`Z`, below the radix -/
def digitOf (radix c : Nat) : Option Nat :=
  if 48 ≤ c ∧ c ≤ 57 then (if c - 48 < radix then some (c - 48) else none)
  else if 97 ≤ c ∧ c ≤ 122 then (if c - 97 + 10 < radix then some (c - 97 + 10) else none)
  else if 65 ≤ c ∧ c ≤ 90 then (if c - 65 + 10 < radix then some (c - 65 + 10) else none)
  else none
/-- `cs` is a row of digits with the values `ds` -/
def Digits (radix : Nat) (cs ds : List Nat) : Prop := cs.map (digitOf radix) = ds.map some
/-- the number that the digits denote, the first one is the highest -/
def number (radix : Nat) (ds : List Nat) : Nat := Nat.ofDigits radix ds.reverse
/-- the text is an optional sign and the characters `body` -/
def Signed (text : List Nat) (neg : Bool) (body : List Nat) : Prop :=
  (text = body ∧ neg = false ∧ body.head? ≠ some 43 ∧ body.head? ≠ some 45) ∨ (text = 43 :: body ∧ neg = false) ∨ (text = 45 :: body ∧ neg = true)
/-- the smallest and the largest value of the type -/
def Ty.lo (t : Ty) : Int := if t.signed then -2 ^ (t.bits - 1) else 0
def Ty.hi (t : Ty) : Int := if t.signed then 2 ^ (t.bits - 1) - 1 else 2 ^ t.bits - 1
def Ty.Ok (t : Ty) : Prop := t.bits = 8 ∨ t.bits = 16 ∨ t.bits = 32 ∨ t.bits = 64
def Radix (r : Nat) : Prop := r = 2 ∨ r = 8 ∨ r = 10 ∨ r = 16
/-- The largest number that is accepted: the range of the type; without a minus sign a number in base 2, 8 or 16 may have all the bits of the type. -/
def limit (t : Ty) (radix : Nat) (neg : Bool) : Int := if neg then -t.lo else if radix = 10 then t.hi else 2 ^ t.bits - 1
/-- The value: the number, or the value of the type with these bits. -/
def Means (t : Ty) (neg : Bool) (n : Nat) (v : Int) : Prop := t.lo ≤ v ∧ v ≤ t.hi ∧ ((neg = true ∧ v = -n) ∨ (neg = false ∧ (v = n ∨ (t.signed = true ∧ v = n - 2 ^ t.bits))))

/-! ### Digits -/

theorem digit_iff {r c : Nat} (hr : Radix r) (hc : c < 256) : digitOf r c = if isValid (convert c) r then some (digitValue (convert c) r) else none := by
  have all : ∀ r ∈ [2, 8, 10, 16], ∀ c < 256, digitOf r c = if isValid (convert c) r then some (digitValue (convert c) r) else none := by decide +kernel
  exact all r (by rcases hr with rfl | rfl | rfl | rfl <;> simp) c hc
theorem digit_lt {r c d : Nat} (h : digitOf r c = some d) : d < r := by
  unfold digitOf at h
  split_ifs at h <;> first | (injection h with h; omega) | cases h

def horner (r : Nat) (v : Nat) (ds : List Nat) : Nat := ds.foldl (fun a d => a * r + d) v
theorem horner_snoc (r v d : Nat) (ds : List Nat) : horner r v (ds ++ [d]) = horner r v ds * r + d := by unfold horner; rw [List.foldl_append]; rfl
theorem horner_cons (r v d : Nat) (ds : List Nat) : horner r v (d :: ds) = horner r (v * r + d) ds := rfl
theorem horner_number (r : Nat) (ds : List Nat) : ∀ v, horner r v ds = v * r ^ ds.length + number r ds := by
  unfold number
  induction ds with
  | nil => intro v; simp [horner, Nat.ofDigits]
  | cons d ds ih =>
    intro v
    rw [horner_cons, ih, List.reverse_cons, Nat.ofDigits_append, Nat.ofDigits_singleton, List.length_reverse, List.length_cons, Nat.pow_succ]
    ring
theorem number_eq (r : Nat) (ds : List Nat) : number r ds = horner r 0 ds := by rw [horner_number]; omega
theorem horner_le (r : Nat) (hr : 1 ≤ r) (ds : List Nat) (v : Nat) : v ≤ horner r v ds := by
  rw [horner_number]
  have := Nat.le_mul_of_pos_right v (Nat.pow_pos (n := ds.length) hr)
  omega

/-! ### The loop -/

theorem add_ok {A r M v c d : Nat} (hr : Radix r) (hc : c < 256) (hM : M < 2 ^ A) (hM2 : 15 ≤ M) (hv : v ≤ M) (hd : digitOf r c = some d) (h : v * r + d ≤ M) : Acc.add A r M ⟨v, .valid⟩ (convert c) = (⟨v * r + d, .valid⟩, true) := by
  have hlt := digit_lt hd
  have hr16 : r ≤ 16 := by rcases hr with rfl | rfl | rfl | rfl <;> omega
  have hr2 : 2 ≤ r := by rcases hr with rfl | rfl | rfl | rfl <;> omega
  rw [digit_iff hr hc] at hd
  split at hd
  · next hval =>
    injection hd with hd
    unfold Acc.add
    simp only
    rw [if_pos hval, Nat.mod_eq_of_lt (show v * r < 2 ^ A by omega), Nat.mul_div_cancel _ (by omega), if_pos rfl, hd]
    have e : (M + 2 ^ A - d) % 2 ^ A = M - d := by rw [show M + 2 ^ A - d = (M - d) + 2 ^ A by omega, Nat.add_mod_right]; exact Nat.mod_eq_of_lt (by omega)
    rw [e, if_pos (by omega), Nat.mod_eq_of_lt (by omega)]
  · cases hd
theorem add_over {A r M v c d : Nat} (hr : Radix r) (hc : c < 256) (hM : M < 2 ^ A) (hM2 : 15 ≤ M) (hv : v ≤ M) (hd : digitOf r c = some d) (h : M < v * r + d) : ∃ w, Acc.add A r M ⟨v, .valid⟩ (convert c) = (⟨w, .overflow⟩, false) := by
  have hlt := digit_lt hd
  have hr16 : r ≤ 16 := by rcases hr with rfl | rfl | rfl | rfl <;> omega
  have hr2 : 2 ≤ r := by rcases hr with rfl | rfl | rfl | rfl <;> omega
  rw [digit_iff hr hc] at hd
  split at hd
  · next hval =>
    injection hd with hd
    unfold Acc.add
    simp only
    rw [if_pos hval]
    by_cases hov : v * r < 2 ^ A
    · rw [Nat.mod_eq_of_lt hov, Nat.mul_div_cancel _ (by omega), if_pos rfl, hd]
      have e : (M + 2 ^ A - d) % 2 ^ A = M - d := by rw [show M + 2 ^ A - d = (M - d) + 2 ^ A by omega, Nat.add_mod_right]; exact Nat.mod_eq_of_lt (by omega)
      rw [e, if_neg (by omega)]
      exact ⟨_, rfl⟩
    · have hlt2 : v * r % 2 ^ A < v * r := Nat.lt_of_lt_of_le (Nat.mod_lt _ (Nat.two_pow_pos A)) (by omega)
      have hne : ¬ v * r % 2 ^ A / r = v := by
        intro he
        have := Nat.div_mul_le_self (v * r % 2 ^ A) r
        rw [he] at this; omega
      rw [if_neg hne]
      exact ⟨_, rfl⟩
  · cases hd
theorem add_bad {A r M v c : Nat} (hr : Radix r) (hc : c < 256) (hd : digitOf r c = none) : Acc.add A r M ⟨v, .valid⟩ (convert c) = (⟨v, .invalidFormat⟩, false) := by
  rw [digit_iff hr hc] at hd
  split at hd
  · cases hd
  · next hval => unfold Acc.add; rw [if_neg hval]

/-- the loop reads all digits, or stops at the first wrong character or at the first digit that is too much -/
theorem loop_ok {A r M : Nat} (hr : Radix r) (hM : M < 2 ^ A) (hM2 : 15 ≤ M) (cs : List Nat) : ∀ v, v ≤ M → (∀ c ∈ cs, c < 256) →
    (∃ ds, Digits r cs ds ∧ horner r v ds ≤ M ∧ accLoop A r M cs ⟨v, .valid⟩ = ⟨horner r v ds, .valid⟩) ∨
    (∃ pre c rest ds, cs = pre ++ c :: rest ∧ Digits r pre ds ∧ horner r v ds ≤ M ∧
      ((digitOf r c = none ∧ (accLoop A r M cs ⟨v, .valid⟩).status = .invalidFormat) ∨ ∃ d, digitOf r c = some d ∧ M < horner r v (ds ++ [d]) ∧ (accLoop A r M cs ⟨v, .valid⟩).status = .overflow)) := by
  induction cs with
  | nil => intro v hv _; exact .inl ⟨[], rfl, hv, rfl⟩
  | cons c cs ih =>
    intro v hv hcs
    have hc := hcs c List.mem_cons_self
    have hcs' : ∀ c ∈ cs, c < 256 := fun x hx => hcs x (List.mem_cons_of_mem _ hx)
    cases hd : digitOf r c with
    | none =>
      refine .inr ⟨[], c, cs, [], rfl, rfl, hv, .inl ⟨hd, ?_⟩⟩
      simp only [accLoop, add_bad hr hc hd]; rfl
    | some d =>
      by_cases hle : v * r + d ≤ M
      · have ha := add_ok hr hc hM hM2 hv hd hle
        have e : accLoop A r M (c :: cs) ⟨v, .valid⟩ = accLoop A r M cs ⟨v * r + d, .valid⟩ := by simp only [accLoop, ha, if_true]
        rw [e]
        rcases ih (v * r + d) hle hcs' with ⟨ds, h1, h2, h3⟩ | ⟨pre, c', rest, ds, h1, h2, h3, h4⟩
        · exact .inl ⟨d :: ds, by unfold Digits at h1 ⊢; simp only [List.map_cons, hd, h1], h2, h3⟩
        · exact .inr ⟨c :: pre, c', rest, d :: ds, by rw [h1]; rfl, by unfold Digits at h2 ⊢; simp only [List.map_cons, hd, h2], h3, h4⟩
      · obtain ⟨w, ha⟩ := add_over hr hc hM hM2 hv hd (by omega)
        refine .inr ⟨[], c, cs, [], rfl, rfl, hv, .inr ⟨d, hd, by show M < v * r + d; omega, ?_⟩⟩
        simp only [accLoop, ha]; rfl

/-! ### The conversion -/

theorem sign_iff {text : List Nat} (ht : ∀ c ∈ text, c < 256) {neg : Bool} {body : List Nat} : Signed text neg body ↔ removeSign text = (neg, body) := by
  have conv : ∀ c, c < 256 → (convert c = 43 ↔ c = 43) ∧ (convert c = 45 ↔ c = 45) := by
    intro c hc
    unfold convert toLower
    rw [Nat.mod_eq_of_lt hc]
    split_ifs <;> omega
  unfold Signed
  cases text with
  | nil =>
    simp only [removeSign, Prod.mk.injEq]
    constructor
    · rintro (⟨rfl, rfl, _⟩ | ⟨h, _⟩ | ⟨h, _⟩)
      · exact ⟨rfl, rfl⟩
      · cases h
      · cases h
    · rintro ⟨rfl, rfl⟩; exact .inl ⟨rfl, rfl, by simp, by simp⟩
  | cons c cs =>
    obtain ⟨h1, h2⟩ := conv c (ht c List.mem_cons_self)
    simp only [removeSign, h1, h2]
    by_cases h43 : c = 43
    · subst h43
      rw [if_pos (.inl rfl), decide_eq_false (by decide), Prod.mk.injEq]
      constructor
      · rintro (⟨rfl, rfl, h, _⟩ | ⟨h, rfl⟩ | ⟨h, _⟩)
        · simp at h
        · injection h with _ h; exact ⟨rfl, h⟩
        · injection h with h _; cases h
      · rintro ⟨rfl, rfl⟩; exact .inr (.inl ⟨rfl, rfl⟩)
    · by_cases h45 : c = 45
      · subst h45
        rw [if_pos (.inr rfl), decide_eq_true rfl, Prod.mk.injEq]
        constructor
        · rintro (⟨rfl, rfl, _, h⟩ | ⟨h, rfl⟩ | ⟨h, rfl⟩)
          · simp at h
          · injection h with h _; cases h
          · injection h with _ h; exact ⟨rfl, h⟩
        · rintro ⟨rfl, rfl⟩; exact .inr (.inr ⟨rfl, rfl⟩)
      · rw [if_neg (by omega), Prod.mk.injEq]
        constructor
        · rintro (⟨rfl, rfl, _, _⟩ | ⟨h, _⟩ | ⟨h, _⟩)
          · exact ⟨rfl, rfl⟩
          · injection h with h _; exact absurd h h43
          · injection h with h _; exact absurd h h45
        · rintro ⟨rfl, rfl⟩; exact .inl ⟨rfl, rfl, by simpa using h43, by simpa using h45⟩

theorem radix_iff {r : Nat} : validRadix r = true ↔ Radix r := by unfold validRadix Radix; simp [or_assoc]

def maxOf (t : Ty) (radix : Nat) (neg : Bool) : Nat := if neg then t.absMin else if radix = 10 then t.max else t.umax
theorem max_ok {t : Ty} (ht : t.Ok) (radix : Nat) (neg : Bool) (hn : neg = true → t.signed = true) : (maxOf t radix neg : Int) = limit t radix neg ∧ maxOf t radix neg < 2 ^ t.acc ∧ 15 ≤ maxOf t radix neg ∧ maxOf t radix neg < 2 ^ t.bits := by
  obtain ⟨b, sg⟩ := t
  unfold maxOf limit Ty.absMin Ty.max Ty.umax Ty.lo Ty.hi Ty.acc
  unfold Ty.Ok at ht
  simp only at ht hn ⊢
  cases neg <;> cases sg <;> simp only [Bool.false_eq_true, if_false, if_true, forall_const] at hn ⊢ <;> rcases ht with rfl | rfl | rfl | rfl <;> split_ifs <;> first | omega | norm_num

theorem wrap_pos {t : Ty} (ht : t.Ok) {n radix : Nat} (h : (n : Int) ≤ limit t radix false) : Means t false n (t.wrap (n : Int)) := by
  obtain ⟨b, sg⟩ := t
  unfold Ty.Ok at ht
  unfold Means limit Ty.wrap Ty.lo Ty.hi at *
  simp only at *
  cases sg <;> simp only [Bool.false_eq_true, if_false, if_true, false_and, true_and, false_or, or_false] at h ⊢ <;> rcases ht with rfl | rfl | rfl | rfl <;> split_ifs at h <;> norm_num at h ⊢ <;> omega
theorem wrap_neg {t : Ty} (ht : t.Ok) {n : Nat} (hs : t.signed = true) (h : (n : Int) ≤ limit t 10 true) : Means t true n (t.wrap (0 - (n : Int))) := by
  obtain ⟨b, sg⟩ := t
  simp only at hs
  subst hs
  unfold Ty.Ok at ht
  unfold Means limit Ty.wrap Ty.lo Ty.hi at *
  simp only at *
  simp only [if_true, true_and] at h ⊢
  rcases ht with rfl | rfl | rfl | rfl <;> norm_num at h ⊢ <;> omega
theorem means_unique {t : Ty} (ht : t.Ok) {neg : Bool} {n : Nat} {v w : Int} (h1 : Means t neg n v) (h2 : Means t neg n w) : v = w := by
  obtain ⟨b, sg⟩ := t
  unfold Ty.Ok at ht
  unfold Means Ty.lo Ty.hi at *
  simp only at *
  cases neg <;> cases sg <;> simp only [Bool.false_eq_true, if_false, if_true, false_and, true_and, false_or, or_false] at h1 h2 <;> rcases ht with rfl | rfl | rfl | rfl <;> norm_num at h1 h2 <;> omega

/-- what `to_arithmetic` does with a text of `char`, case by case -/
theorem arith_cases {t : Ty} (ht : t.Ok) {radix : Nat} (hr : Radix radix) {text : List Nat} (hc : ∀ c ∈ text, c < 256) {neg : Bool} {body : List Nat} (hsg : Signed text neg body) (hne : body ≠ []) (hn : neg = true → t.signed = true) :
    (∃ ds v, Digits radix body ds ∧ (number radix ds : Int) ≤ limit t radix neg ∧ Means t neg (number radix ds) v ∧ toArithmetic t radix text = (.valid, v)) ∨
    (∃ pre c rest ds, body = pre ++ c :: rest ∧ Digits radix pre ds ∧ (number radix ds : Int) ≤ limit t radix neg ∧
      ((digitOf radix c = none ∧ toArithmetic t radix text = (.invalidFormat, 0)) ∨ ∃ d, digitOf radix c = some d ∧ limit t radix neg < (number radix (ds ++ [d]) : Int) ∧ toArithmetic t radix text = (.overflow, 0))) := by
  obtain ⟨m1, m2, m3, m4⟩ := max_ok ht radix neg hn
  have hrs := (sign_iff hc).mp hsg
  have hcb : ∀ c ∈ body, c < 256 := by
    intro c hcm
    rcases hsg with ⟨rfl, _⟩ | ⟨rfl, _⟩ | ⟨rfl, _⟩
    · exact hc c hcm
    · exact hc c (List.mem_cons_of_mem _ hcm)
    · exact hc c (List.mem_cons_of_mem _ hcm)
  have e : toArithmetic t radix text = (if (accLoop t.acc radix (maxOf t radix neg) body ⟨0, .valid⟩).status = .valid then
      (.valid, t.wrap (if neg then 0 - (((accLoop t.acc radix (maxOf t radix neg) body ⟨0, .valid⟩).value % 2 ^ t.bits : Nat) : Int) else (((accLoop t.acc radix (maxOf t radix neg) body ⟨0, .valid⟩).value % 2 ^ t.bits : Nat) : Int)))
      else ((accLoop t.acc radix (maxOf t radix neg) body ⟨0, .valid⟩).status, 0)) := by
    unfold toArithmetic
    rw [if_pos (radix_iff.mpr hr), hrs]
    simp only
    rw [if_neg (by simpa using hne), if_neg (by cases neg <;> simp_all)]
    rfl
  rw [e]
  rcases loop_ok hr m2 m3 body 0 (Nat.zero_le _) hcb with ⟨ds, h1, h2, h3⟩ | ⟨pre, c, rest, ds, h1, h2, h3, h4⟩
  · rw [← number_eq] at h2 h3
    have hle : (number radix ds : Int) ≤ limit t radix neg := by rw [← m1]; exact_mod_cast h2
    rw [h3, if_pos rfl]
    simp only
    rw [Nat.mod_eq_of_lt (show number radix ds < 2 ^ t.bits by omega)]
    cases neg with
    | false => exact .inl ⟨ds, _, h1, hle, wrap_pos ht hle, rfl⟩
    | true => exact .inl ⟨ds, _, h1, hle, wrap_neg ht (hn rfl) hle, rfl⟩
  · refine .inr ⟨pre, c, rest, ds, h1, h2, by rw [← m1, number_eq]; exact_mod_cast h3, ?_⟩
    rcases h4 with ⟨h4, h5⟩ | ⟨d, h4, h5, h6⟩
    · exact .inl ⟨h4, by rw [h5, if_neg (by decide)]⟩
    · exact .inr ⟨d, h4, by rw [← m1, number_eq]; exact_mod_cast h5, by rw [h6, if_neg (by decide)]⟩

theorem digits_inj {r : Nat} {cs ds ds' : List Nat} (h : Digits r cs ds) (h' : Digits r cs ds') : ds = ds' := by
  unfold Digits at h h'
  rw [h] at h'
  exact (List.map_inj_right (fun _ _ h => by injection h)).mp h'
theorem digits_append {r : Nat} {a b ds : List Nat} (h : Digits r (a ++ b) ds) : ∃ d1 d2, ds = d1 ++ d2 ∧ Digits r a d1 ∧ Digits r b d2 := by
  unfold Digits at h
  rw [List.map_append] at h
  obtain ⟨d1, d2, h1, h2, h3⟩ := List.append_eq_map_iff.mp h
  exact ⟨d1, d2, h1, h2.symm, h3.symm⟩

/-- C38: a value is returned exactly for an optional sign followed by digits of the radix, at least one, whose number fits (a minus sign only for a signed type), and it is the right value. -/
theorem C38_value (t : Ty) (ht : t.Ok) (radix : Nat) (text : List Nat) (hc : ∀ c ∈ text, c < 256) (v : Int) :
    toArithmetic t radix text = (.valid, v) ↔ Radix radix ∧ ∃ neg body ds, Signed text neg body ∧ body ≠ [] ∧ Digits radix body ds ∧ (neg = true → t.signed = true) ∧ (number radix ds : Int) ≤ limit t radix neg ∧ Means t neg (number radix ds) v := by
  constructor
  · intro h
    have hr : Radix radix := by
      by_contra hr
      unfold toArithmetic at h
      rw [if_neg (by rw [radix_iff]; exact hr)] at h
      cases h
    refine ⟨hr, (removeSign text).1, (removeSign text).2, ?_⟩
    have hsg : Signed text (removeSign text).1 (removeSign text).2 := (sign_iff hc).mpr rfl
    have hne : (removeSign text).2 ≠ [] := by
      intro he
      unfold toArithmetic at h
      rw [if_pos (radix_iff.mpr hr), if_pos (by rw [he]; rfl)] at h
      cases h
    have hn : (removeSign text).1 = true → t.signed = true := by
      intro hneg
      by_contra hs
      unfold toArithmetic at h
      rw [if_pos (radix_iff.mpr hr), if_neg (by simpa using hne), if_pos (by simp [hneg, hs])] at h
      cases h
    rcases arith_cases ht hr hc hsg hne hn with ⟨ds, w, h1, h2, h3, h4⟩ | ⟨_, _, _, _, _, _, _, ⟨_, h4⟩ | ⟨_, _, _, h4⟩⟩
    · rw [h] at h4
      injection h4 with _ h4
      subst h4
      exact ⟨ds, hsg, hne, h1, hn, h2, h3⟩
    · rw [h] at h4; cases h4
    · rw [h] at h4; cases h4
  · rintro ⟨hr, neg, body, ds, hsg, hne, hd, hn, hle, hm⟩
    rcases arith_cases ht hr hc hsg hne hn with ⟨ds', w, h1, h2, h3, h4⟩ | ⟨pre, c, rest, ds', h1, h2, h3, h4⟩
    · have := digits_inj hd h1
      subst this
      rw [h4, means_unique ht hm h3]
    · rw [h1] at hd
      obtain ⟨d1, d2, e1, e2, e3⟩ := digits_append hd
      have := digits_inj e2 h2
      subst this
      cases d2 with
      | nil => exact absurd e3 (by simp [Digits])
      | cons d d2 =>
        unfold Digits at e3
        simp only [List.map_cons, List.cons.injEq] at e3
        rcases h4 with ⟨h4, _⟩ | ⟨d', h4, h5, _⟩
        · rw [h4] at e3; exact absurd e3.1 (by simp)
        · rw [h4] at e3
          have hdd : d' = d := by injection e3.1
          subst hdd
          exfalso
          have hr1 : 1 ≤ radix := by rcases hr with rfl | rfl | rfl | rfl <;> omega
          have : number radix (d1 ++ [d']) ≤ number radix ds := by
            rw [number_eq, number_eq, e1, show d1 ++ d' :: d2 = (d1 ++ [d']) ++ d2 by simp]
            rw [show horner radix 0 ((d1 ++ [d']) ++ d2) = horner radix (horner radix 0 (d1 ++ [d'])) d2 by unfold horner; rw [List.foldl_append]]
            exact horner_le radix hr1 d2 _
          omega

/-- C38: which error is reported. -/
theorem C38_errors (t : Ty) (ht : t.Ok) (radix : Nat) (text : List Nat) (hc : ∀ c ∈ text, c < 256) :
    ((toArithmetic t radix text).1 = .invalidRadix ↔ ¬ Radix radix) ∧
    ((toArithmetic t radix text).1 = .signedToUnsigned ↔ Radix radix ∧ t.signed = false ∧ ∃ body, body ≠ [] ∧ text = 45 :: body) ∧
    ((toArithmetic t radix text).1 = .overflow ↔ Radix radix ∧ ∃ neg body pre rest ds, Signed text neg body ∧ (neg = true → t.signed = true) ∧ body = pre ++ rest ∧ Digits radix pre ds ∧ limit t radix neg < (number radix ds : Int)) := by
  by_cases hr : Radix radix
  swap
  · have e : toArithmetic t radix text = (.invalidRadix, 0) := by unfold toArithmetic; rw [if_neg (by rw [radix_iff]; exact hr)]
    rw [e]
    simp [hr]
  have hr1 : 1 ≤ radix := by rcases hr with rfl | rfl | rfl | rfl <;> omega
  obtain ⟨neg, body, hrs⟩ : ∃ neg body, removeSign text = (neg, body) := ⟨_, _, rfl⟩
  have hsg : Signed text neg body := (sign_iff hc).mpr hrs
  have uniq : ∀ {n b}, Signed text n b → n = neg ∧ b = body := fun h => by
    have := (sign_iff hc).mp h; rw [hrs] at this; injection this with h1 h2; exact ⟨h1.symm, h2.symm⟩
  by_cases hne : body = []
  · subst hne
    have e : toArithmetic t radix text = (.invalidFormat, 0) := by unfold toArithmetic; rw [if_pos (radix_iff.mpr hr), hrs]; rfl
    rw [e]
    refine ⟨by simp [hr], ?_, ?_⟩
    · simp only [reduceCtorEq, false_iff]
      rintro ⟨_, _, b, hb, h⟩
      exact hb (uniq (n := true) (b := b) (.inr (.inr ⟨h, rfl⟩))).2
    · simp only [reduceCtorEq, false_iff]
      rintro ⟨_, n, b, pre, rest, ds, h1, h2, h3, h4, h5⟩
      obtain ⟨rfl, rfl⟩ := uniq h1
      have : pre = [] := by cases pre with
        | nil => rfl
        | cons _ _ => cases h3
      subst this
      have : ds = [] := by unfold Digits at h4; simpa using h4.symm
      subst this
      have := (max_ok ht radix n h2)
      rw [← this.1] at h5
      simp [number, Nat.ofDigits] at h5
      omega
  · by_cases hn : neg = true → t.signed = true
    swap
    · obtain ⟨hneg, hs⟩ : neg = true ∧ t.signed = false := by cases neg <;> simp_all
      have e : toArithmetic t radix text = (.signedToUnsigned, 0) := by
        unfold toArithmetic; rw [if_pos (radix_iff.mpr hr), hrs]; simp only
        rw [if_neg (by simpa using hne), if_pos (by simp [hneg, hs])]
      rw [e]
      refine ⟨by simp [hr], ?_, ?_⟩
      · simp only [true_iff]
        refine ⟨hr, hs, body, hne, ?_⟩
        subst hneg
        rcases hsg with ⟨_, h, _⟩ | ⟨_, h⟩ | ⟨h, _⟩
        · cases h
        · cases h
        · exact h
      · simp only [reduceCtorEq, false_iff]
        rintro ⟨_, n, b, pre, rest, ds, h1, h2, _⟩
        obtain ⟨rfl, rfl⟩ := uniq h1
        exact hn h2
    · have notS : ¬ (t.signed = false ∧ ∃ body, body ≠ [] ∧ text = 45 :: body) := by
        rintro ⟨hs, b, hb, h⟩
        have := (uniq (n := true) (b := b) (.inr (.inr ⟨h, rfl⟩))).1
        rw [hn this.symm] at hs; cases hs
      have mono : ∀ d1 d2, number radix d1 ≤ number radix (d1 ++ d2) := fun d1 d2 => by
        rw [number_eq, number_eq, show horner radix 0 (d1 ++ d2) = horner radix (horner radix 0 d1) d2 by unfold horner; rw [List.foldl_append]]
        exact horner_le radix hr1 d2 _
      rcases arith_cases ht hr hc hsg hne hn with ⟨ds, w, h1, h2, h3, h4⟩ | ⟨pre, c, rest, ds, h1, h2, h3, ⟨h4, h5⟩ | ⟨d, h4, h5, h6⟩⟩
      · rw [h4]
        refine ⟨by simp [hr], by simp only [reduceCtorEq, false_iff]; exact fun h => notS h.2, ?_⟩
        simp only [reduceCtorEq, false_iff]
        rintro ⟨_, n, b, pre, rest, ds', k1, k2, k3, k4, k5⟩
        obtain ⟨rfl, rfl⟩ := uniq k1
        rw [k3] at h1
        obtain ⟨d1, d2, e1, e2, e3⟩ := digits_append h1
        have := digits_inj e2 k4
        subst this
        have := mono d1 d2
        rw [← e1] at this
        omega
      · rw [h5]
        refine ⟨by simp [hr], by simp only [reduceCtorEq, false_iff]; exact fun h => notS h.2, ?_⟩
        simp only [reduceCtorEq, false_iff]
        rintro ⟨_, n, b, pre', rest', ds', k1, k2, k3, k4, k5⟩
        obtain ⟨rfl, rfl⟩ := uniq k1
        rw [h1] at k3
        rcases List.append_eq_append_iff.mp k3 with ⟨x, x1, x2⟩ | ⟨x, x1, x2⟩
        · cases x with
          | nil =>
            rw [List.append_nil] at x1
            subst x1
            have := digits_inj h2 k4
            subst this
            omega
          | cons y ys =>
            rw [x1] at k4
            obtain ⟨d1, d2, e1, e2, e3⟩ := digits_append k4
            injection x2 with x2 _
            subst x2
            unfold Digits at e3
            rw [List.map_cons, h4] at e3
            cases d2 <;> simp at e3
        · rw [x1] at h2
          obtain ⟨d1, d2, e1, e2, e3⟩ := digits_append h2
          have := digits_inj e2 k4
          subst this
          have := mono d1 d2
          rw [← e1] at this
          omega
      · rw [h6]
        refine ⟨by simp [hr], by simp only [reduceCtorEq, false_iff]; exact fun h => notS h.2, ?_⟩
        simp only [true_iff]
        refine ⟨hr, neg, body, pre ++ [c], rest, ds ++ [d], hsg, hn, by rw [h1]; simp, ?_, h5⟩
        unfold Digits at h2 ⊢
        simp [h2, h4]

/-! ### to_string: specification -/

/-- the character of a digit -/
def figure (upper : Bool) (d : Nat) : Nat := if d < 10 then 48 + d else if upper then 55 + d else 87 + d
/-- a natural number in a base; zero is "0" -/
def numeral (base : Nat) (upper : Bool) (n : Nat) : List Nat := if n = 0 then [48] else (Nat.digits base n).reverse.map (figure upper)
/-- "0b", "0", "0x" -/
def basePrefix (base : Nat) (upper : Bool) : List Nat := if base = 2 then [48, if upper then 66 else 98] else if base = 8 then [48] else if base = 16 then [48, if upper then 88 else 120] else []
/-- the text without padding: the minus sign only in base 10, the prefix only of numbers that are not zero -/
def textOf (f : Fmt) (v : Int) : List Nat := (if f.base = 10 ∧ v < 0 then [45] else []) ++ (if f.showBase = true ∧ v ≠ 0 then basePrefix f.base f.upper else []) ++ numeral f.base f.upper v.natAbs
/-- padding to the width -/
def padded (f : Fmt) (s : List Nat) : List Nat := if f.left then s ++ List.replicate (f.width - s.length) f.fill else List.replicate (f.width - s.length) f.fill ++ s

/-! ### to_string: proofs -/

theorem push_fit {cap : Nat} {s : List Nat} {c : Nat} (h : s.length < cap) : push cap s c = s ++ [c] := by
  unfold push; exact List.take_of_length_le (by simp; omega)
theorem digitChar_eq (u : Bool) (d : Nat) : digitChar u d = figure u d := by
  unfold digitChar figure
  split_ifs <;> omega

theorem digitLoop_ok {cap : Nat} {f : Fmt} (hb : 2 ≤ f.base) (fuel : Nat) : ∀ (v : Int) (s : List Nat), v.natAbs < fuel → s.length + (Nat.digits f.base v.natAbs).length ≤ cap →
    digitLoop cap f fuel v s = .ok (s ++ (Nat.digits f.base v.natAbs).map (figure f.upper)) := by
  induction fuel with
  | zero => intro v s h; omega
  | succ fuel ih =>
    intro v s h hfit
    simp only [digitLoop]
    by_cases hv : v = 0
    · subst hv; rw [if_pos rfl]; simp
    · rw [if_neg hv, if_neg (by omega)]
      have hpos : 0 < v.natAbs := Int.natAbs_pos.mpr hv
      have hd : Nat.digits f.base v.natAbs = (v.natAbs % f.base) :: Nat.digits f.base (v.natAbs / f.base) := Nat.digits_def' (by omega) hpos
      rw [hd] at hfit ⊢
      simp only [List.length_cons] at hfit
      have e1 : (v.tmod f.base).natAbs = v.natAbs % f.base := by rw [Int.natAbs_tmod]; rfl
      have e2 : (v.tdiv f.base).natAbs = v.natAbs / f.base := by rw [Int.natAbs_tdiv]; rfl
      rw [push_fit (by omega), ih _ _ (by rw [e2]; have := Nat.div_lt_self hpos (show 1 < f.base by omega); omega) (by rw [e2]; simp; omega), e1, e2, digitChar_eq]
      simp

theorem align_ok {cap : Nat} {f : Fmt} (pre s : List Nat) (h : pre.length + max s.length f.width ≤ cap) : addAlignment cap (pre ++ s) pre.length f = pre ++ padded f s := by
  unfold addAlignment padded insertN
  have e : (pre ++ s).length - pre.length = s.length := by simp
  rw [e]
  split
  · next hw =>
    cases f.left
    · simp only [Bool.false_eq_true, if_false]
      rw [List.take_left, List.drop_left, List.take_of_length_le (by simp; omega), List.append_assoc]
    · simp only [if_true]
      rw [List.take_of_length_le (Nat.le_refl _), List.drop_length, List.append_nil, List.take_of_length_le (by simp; omega), List.append_assoc]
  · next hw =>
    have : f.width - s.length = 0 := by omega
    rw [this]; cases f.left <;> simp

theorem addIntegral_ok {cap : Nat} {f : Fmt} (hb : 2 ≤ f.base) (v : Int) (neg : Bool) (str0 : List Nat) (append : Bool) :
    (∀ body, body = (if f.base = 10 ∧ neg = true then [45] else []) ++ (if f.showBase = true ∧ v ≠ 0 then basePrefix f.base f.upper else []) ++ numeral f.base f.upper v.natAbs →
      (if append then str0 else []).length + max body.length f.width ≤ cap → addIntegral cap v str0 f append neg = .ok ((if append then str0 else []) ++ padded f body)) := by
  intro body hbody hfit
  obtain ⟨pre, hpre⟩ : ∃ pre, pre = if append then str0 else [] := ⟨_, rfl⟩
  rw [← hpre] at hfit ⊢
  have hblen : pre.length + body.length ≤ cap := by omega
  unfold addIntegral
  simp only [← hpre]
  by_cases hv : v = 0
  · subst hv
    rw [if_pos rfl]
    have hnum : numeral f.base f.upper (0 : Int).natAbs = [48] := rfl
    rw [hnum, if_neg (show ¬ (f.showBase = true ∧ (0:Int) ≠ 0) from by simp), List.append_nil] at hbody
    have e : push cap (if f.base = 10 ∧ neg = true then push cap pre 45 else pre) 48 = pre ++ body := by
      rw [hbody] at hblen ⊢
      split
      · next hc => rw [if_pos hc] at hblen; simp at hblen; rw [push_fit (show pre.length < cap by omega), push_fit (by simp; omega)]; simp
      · next hc => rw [if_neg hc] at hblen; simp at hblen; rw [push_fit (by omega)]; simp
    rw [e, align_ok pre body hfit]
  · rw [if_neg hv]
    have hnat : v.natAbs ≠ 0 := by simpa using hv
    have hnum : numeral f.base f.upper v.natAbs = (Nat.digits f.base v.natAbs).reverse.map (figure f.upper) := by unfold numeral; rw [if_neg hnat]
    have hpfx : ∀ b u, (if b = 2 then 2 else if b = 8 then 1 else if b = 16 then 2 else 0) = (basePrefix b u).length := by
      intro b u; unfold basePrefix; split_ifs <;> rfl
    have hblen2 : pre.length + ((if f.base = 10 ∧ neg = true then [45] else []) ++ (if f.showBase = true ∧ v ≠ 0 then basePrefix f.base f.upper else [])).length + (Nat.digits f.base v.natAbs).length ≤ cap := by
      rw [hbody, hnum] at hblen
      simp only [List.length_append, List.length_map, List.length_reverse] at hblen ⊢
      omega
    rw [digitLoop_ok hb _ v pre (by omega) (by omega)]
    simp only
    obtain ⟨D, hD⟩ : ∃ D, D = (Nat.digits f.base v.natAbs).map (figure f.upper) := ⟨_, rfl⟩
    have hDl : D.length = (Nat.digits f.base v.natAbs).length := by rw [hD]; simp
    rw [← hD]
    -- sign and prefix, in reverse order
    have e : addBase cap f (if f.base = 10 ∧ neg = true then push cap (pre ++ D) 45 else pre ++ D) = pre ++ (D ++ ((if f.base = 10 ∧ neg = true then [45] else []) ++ (if f.showBase = true ∧ v ≠ 0 then basePrefix f.base f.upper else [])).reverse) := by
      by_cases h10 : f.base = 10
      · have hp : basePrefix f.base f.upper = [] := by unfold basePrefix; rw [h10]; simp
        have ha : ∀ s, addBase cap f s = s := by intro s; unfold addBase; rw [h10]; simp
        rw [ha, hp, ite_self, List.append_nil]
        by_cases hn : neg = true
        · have hc : f.base = 10 ∧ neg = true := ⟨h10, hn⟩
          rw [if_pos hc, if_pos hc]
          rw [if_pos hc, List.length_append] at hblen2
          simp only [List.length_cons, List.length_nil] at hblen2
          rw [push_fit (by rw [List.length_append]; omega)]; simp
        · have hc : ¬ (f.base = 10 ∧ neg = true) := fun h => hn h.2
          rw [if_neg hc, if_neg hc]; simp
      · have h10' : ¬ (f.base = 10 ∧ neg = true) := fun h => h10 h.1
        rw [if_neg h10', if_neg h10', List.nil_append]
        rw [if_neg h10', List.nil_append] at hblen2
        unfold addBase
        by_cases hs : f.showBase = true
        · have hc : f.showBase = true ∧ v ≠ 0 := ⟨hs, hv⟩
          rw [if_pos hc] at hblen2
          rw [if_pos hc, if_pos hs]
          unfold basePrefix at hblen2 ⊢
          by_cases h2 : f.base = 2
          · rw [if_pos h2] at hblen2
            rw [if_pos h2, if_pos h2]
            simp only [List.length_cons, List.length_nil] at hblen2
            rw [push_fit (show (pre ++ D).length < cap by rw [List.length_append]; omega), push_fit (by simp only [List.length_append, List.length_cons, List.length_nil]; omega)]; simp
          · rw [if_neg h2] at hblen2
            rw [if_neg h2, if_neg h2]
            by_cases h8 : f.base = 8
            · rw [if_pos h8] at hblen2
              rw [if_pos h8, if_pos h8]
              simp only [List.length_cons, List.length_nil] at hblen2
              rw [push_fit (show (pre ++ D).length < cap by rw [List.length_append]; omega)]; simp
            · rw [if_neg h8] at hblen2
              rw [if_neg h8, if_neg h8]
              by_cases h16 : f.base = 16
              · rw [if_pos h16] at hblen2
                rw [if_pos h16, if_pos h16]
                simp only [List.length_cons, List.length_nil] at hblen2
                rw [push_fit (show (pre ++ D).length < cap by rw [List.length_append]; omega), push_fit (by simp only [List.length_append, List.length_cons, List.length_nil]; omega)]; simp
              · rw [if_neg h16, if_neg h16]; simp
        · rw [if_neg hs, if_neg (show ¬ (f.showBase = true ∧ v ≠ 0) from fun h => hs h.1)]; simp
    rw [e, List.take_left, List.drop_left, List.reverse_append, List.reverse_reverse]
    have e2 : ((if f.base = 10 ∧ neg = true then [45] else []) ++ (if f.showBase = true ∧ v ≠ 0 then basePrefix f.base f.upper else [])) ++ D.reverse = body := by
      rw [hbody, hnum, hD, List.map_reverse]
    rw [e2, align_ok pre body hfit]

/-- C39: what `to_string` writes, for every value, base from 2 on, case, width, fill, side, with and without the prefix, appended or not, if it fits. -/
theorem C39_text {cap : Nat} {f : Fmt} (hb : 2 ≤ f.base) (v : Int) (str0 : List Nat) (append : Bool) (hfit : (if append then str0 else []).length + max (textOf f v).length f.width ≤ cap) :
    toString cap v str0 f append = .ok ((if append then str0 else []) ++ padded f (textOf f v)) := by
  unfold toString
  refine addIntegral_ok hb v _ str0 append _ ?_ hfit
  unfold textOf; simp only [decide_eq_true_eq]

theorem figure_digit {r d : Nat} (hr : Radix r) (u : Bool) (hd : d < r) : digitOf r (figure u d) = some d ∧ figure u d < 256 ∧ 48 ≤ figure u d := by
  have all : ∀ r ∈ [2, 8, 10, 16], ∀ u, ∀ d < r, digitOf r (figure u d) = some d ∧ figure u d < 256 ∧ 48 ≤ figure u d := by decide +kernel
  exact all r (by rcases hr with rfl | rfl | rfl | rfl <;> simp) u d hd

theorem numeral_ok {r : Nat} (hr : Radix r) (u : Bool) (n : Nat) : ∃ ds, Digits r (numeral r u n) ds ∧ number r ds = n ∧ numeral r u n ≠ [] ∧ ∀ c ∈ numeral r u n, c < 256 ∧ 48 ≤ c := by
  have hr2 : 1 < r := by rcases hr with rfl | rfl | rfl | rfl <;> omega
  unfold numeral
  split
  · next h0 =>
    subst h0
    refine ⟨[0], ?_, by simp [number, Nat.ofDigits], by simp, by simp⟩
    have := (figure_digit hr false (show 0 < r by omega)).1
    have e : figure false 0 = 48 := rfl
    rw [e] at this
    unfold Digits
    simp [this]
  · next h0 =>
    refine ⟨(Nat.digits r n).reverse, ?_, by unfold number; rw [List.reverse_reverse, Nat.ofDigits_digits], ?_, ?_⟩
    · unfold Digits
      rw [List.map_map]
      refine List.map_congr_left fun d hd => ?_
      exact (figure_digit hr u (Nat.digits_lt_base hr2 (List.mem_reverse.mp hd))).1
    · simp only [ne_eq,  List.map_eq_nil_iff, List.reverse_eq_nil_iff, Nat.digits_eq_nil_iff_eq_zero]; exact h0
    · intro c hc
      obtain ⟨d, hd, rfl⟩ := List.mem_map.mp hc
      exact (figure_digit hr u (Nat.digits_lt_base hr2 (List.mem_reverse.mp hd))).2
theorem numeral_len {r : Nat} (hr : Radix r) (u : Bool) {n : Nat} (hn : n < 2 ^ 64) : (numeral r u n).length ≤ 64 := by
  have hr2 : 1 < r := by rcases hr with rfl | rfl | rfl | rfl <;> omega
  unfold numeral
  split
  · simp
  · next h0 =>
    rw [List.length_map, List.length_reverse]
    rw [Nat.digits_length_le_iff hr2]
    exact Nat.lt_of_lt_of_le hn (Nat.pow_le_pow_left (by omega) 64)

/-- C39 (partial): what `to_string` writes in base 10 is read back as the same number; in base 2, 8 and 16 for the numbers that are not negative (in every case of the letters).  Missing: the negative numbers in the other bases, whose sign is lost: `negative_hex_wrong`. -/
theorem C39_round_trip_partial (t : Ty) (ht : t.Ok) (v : Int) (hlo : t.lo ≤ v) (hhi : v ≤ t.hi) (base : Nat) (hr : Radix base) (hb : base = 10 ∨ 0 ≤ v) (upper : Bool) (cap : Nat) (hcap : 65 ≤ cap) (old : List Nat) :
    ∃ text, toString cap v old { base := base, upper := upper } false = .ok text ∧ toArithmetic t base text = (.valid, v) := by
  obtain ⟨ds, n1, n2, n3, n4⟩ := numeral_ok hr upper v.natAbs
  have hr2 : 2 ≤ base := by rcases hr with rfl | rfl | rfl | rfl <;> omega
  have hn64 : v.natAbs < 2 ^ 64 := by
    obtain ⟨b, sg⟩ := t
    unfold Ty.Ok at ht
    unfold Ty.lo at hlo
    unfold Ty.hi at hhi
    simp only at *
    cases sg <;> simp only [Bool.false_eq_true, if_false, if_true] at hlo hhi <;> rcases ht with rfl | rfl | rfl | rfl <;> norm_num at hlo hhi ⊢ <;> omega
  have hlen := numeral_len hr upper hn64
  have htext : textOf { base := base, upper := upper } v = (if base = 10 ∧ v < 0 then [45] else []) ++ numeral base upper v.natAbs := by unfold textOf; simp
  have hfit : (textOf { base := base, upper := upper } v).length ≤ 65 := by
    rw [htext]; split_ifs <;> simp <;> omega
  refine ⟨textOf { base := base, upper := upper } v, ?_, ?_⟩
  · have := C39_text (f := { base := base, upper := upper }) hr2 v old false (cap := cap) (by simp; omega)
    rw [this]
    simp [padded]
  · rw [htext]
    have head : ∀ x, (numeral base upper v.natAbs).head? = some x → 48 ≤ x := fun x hx => (n4 x (List.mem_of_head? hx)).2
    rw [C38_value t ht base _ (by
      intro c hc
      rcases List.mem_append.mp hc with h | h
      · split at h
        · simp at h; omega
        · cases h
      · exact (n4 c h).1)]
    refine ⟨hr, ?_⟩
    by_cases hneg : base = 10 ∧ v < 0
    · rw [if_pos hneg]
      obtain ⟨h10, hv⟩ := hneg
      have hs : t.signed = true := by
        by_contra hs
        unfold Ty.lo at hlo
        rw [if_neg hs] at hlo
        omega
      refine ⟨true, numeral base upper v.natAbs, ds, .inr (.inr ⟨rfl, rfl⟩), n3, n1, fun _ => hs, ?_, hlo, hhi, .inl ⟨rfl, ?_⟩⟩
      · rw [n2]; unfold limit; rw [if_pos rfl]; omega
      · rw [n2]; omega
    · rw [if_neg hneg]
      have hv : 0 ≤ v := hb.elim (fun h => not_lt.mp (fun hv => hneg ⟨h, hv⟩)) id
      refine ⟨false, numeral base upper v.natAbs, ds, .inl ⟨rfl, rfl, fun h => ?_, fun h => ?_⟩, n3, n1, (fun h => by cases h), ?_, hlo, hhi, .inr ⟨rfl, .inl ?_⟩⟩
      · have := head _ h; omega
      · have := head _ h; omega
      · rw [n2]
        have e : (v.natAbs : Int) = v := by omega
        rw [e]
        unfold limit
        rw [if_neg (by simp)]
        split
        · exact hhi
        · refine Int.le_trans hhi ?_
          unfold Ty.hi
          split
          · obtain ⟨b, sg⟩ := t
            unfold Ty.Ok at ht
            simp only at ht ⊢
            rcases ht with rfl | rfl | rfl | rfl <;> norm_num
          · exact Int.le_refl _
      · rw [n2]; omega

/-! ### C61: fixed point numbers -/

/-- `v / 10 ^ k` with at most `p` decimals, rounded to the nearest, halves away from zero: the rounded number of units of the last decimal -/
def units (k p : Nat) (v : Int) : Nat := (v.natAbs + 10 ^ (k - min p k) / 2) / 10 ^ (k - min p k)
def decimal (k p : Nat) (v : Int) : List Nat :=
  (if v < 0 then [45] else []) ++ numeral 10 false (units k p v / 10 ^ min p k) ++
    (if min p k > 0 then [46] ++ (List.replicate (min p k - (numeral 10 false (units k p v % 10 ^ min p k)).length) 48 ++ numeral 10 false (units k p v % 10 ^ min p k)) else [])

theorem mul10_ok (W n : Nat) : ∀ x, x * 10 ^ n < 2 ^ W → mul10 W n x = x * 10 ^ n := by
  induction n with
  | zero => intro x _; simp [mul10]
  | succ n ih =>
    intro x h
    have hle : x * 10 ≤ x * 10 ^ (n + 1) := Nat.mul_le_mul_left _ (by rw [Nat.pow_succ]; have := Nat.one_le_pow n 10 (by omega); omega)
    simp only [mul10]
    rw [Nat.mod_eq_of_lt (by omega), ih _ (by rw [Nat.pow_succ] at h; rw [Nat.mul_assoc, Nat.mul_comm 10]; exact h), Nat.pow_succ]
    ring
theorem div10_ok (n : Nat) : ∀ x, div10 n x = x / 10 ^ n := by
  induction n with
  | zero => intro x; simp [div10]
  | succ n ih => intro x; simp only [div10]; rw [ih, Nat.div_div_eq_div_mul, Nat.pow_succ, Nat.mul_comm]

/-- C61: `to_string(value, exponent, …)` writes the value divided by the power of ten, with the decimals of the precision, correctly rounded, if the power and the rounded value fit into the type and the text into the string. -/
theorem C61_denominated {W cap : Nat} {f : Fmt} (v : Int) (k : Nat) (str0 : List Nat) (append : Bool) (hk : 10 ^ k < 2 ^ W) (hround : 10 ^ (k - min f.precision k) / 2 < 2 ^ 32) (hv : v.natAbs + 10 ^ (k - min f.precision k) / 2 < 2 ^ W)
    (hbase : f.showBase = false) (hup : f.upper = false)
    (hfit : (if append then str0 else []).length + max (decimal k f.precision v).length f.width ≤ cap) :
    addDenominated W cap v k str0 f append = .ok ((if append then str0 else []) ++ padded f (decimal k f.precision v)) := by
  obtain ⟨pre, hpre⟩ : ∃ pre, pre = if append then str0 else [] := ⟨_, rfl⟩
  obtain ⟨p, hp⟩ : ∃ p, p = min f.precision k := ⟨_, rfl⟩
  have hp' : (if f.precision > k then k else f.precision) = p := by rw [hp]; split_ifs <;> omega
  have hpk : p ≤ k := by omega
  have hden : mul10 W k 1 = 10 ^ k := by rw [mul10_ok W k 1 (by omega)]; omega
  have hhalf : k > p → mul10 32 (k - p - 1) 5 = 10 ^ (k - p) / 2 := by
    intro hgt
    have e : 10 ^ (k - p) = 2 * (5 * 10 ^ (k - p - 1)) := by
      rw [show k - p = (k - p - 1) + 1 by omega, Nat.pow_succ, Nat.add_sub_cancel]; ring
    have e2 : 10 ^ (k - p) / 2 = 5 * 10 ^ (k - p - 1) := by rw [e, Nat.mul_div_cancel_left _ (by omega)]
    rw [e2]
    exact mul10_ok 32 _ 5 (by rw [← e2]; rw [hp]; exact hround)
  have habs : (if k > p then (v.natAbs + mul10 32 (k - p - 1) 5) % 2 ^ W else v.natAbs) = v.natAbs + 10 ^ (k - p) / 2 := by
    split
    · next hgt => rw [hhalf hgt, Nat.mod_eq_of_lt (by rw [hp]; exact hv)]
    · next hgt => rw [show k - p = 0 by omega]; simp
  have hkp : 10 ^ k = 10 ^ (k - p) * 10 ^ p := by rw [← Nat.pow_add]; congr 1; omega
  have hint : (v.natAbs + 10 ^ (k - p) / 2) / 10 ^ k = units k f.precision v / 10 ^ p := by
    unfold units; rw [← hp, hkp, Nat.div_div_eq_div_mul]
  have hfrac : div10 (k - p) ((v.natAbs + 10 ^ (k - p) / 2) % 10 ^ k) = units k f.precision v % 10 ^ p := by
    unfold units; rw [← hp, div10_ok, hkp, Nat.mod_mul_right_div_self]
  rw [← hpre] at hfit ⊢
  have hdec : decimal k f.precision v = (if v < 0 then [45] else []) ++ numeral 10 false (units k f.precision v / 10 ^ p) ++
      (if p > 0 then [46] ++ (List.replicate (p - (numeral 10 false (units k f.precision v % 10 ^ p)).length) 48 ++ numeral 10 false (units k f.precision v % 10 ^ p)) else []) := by unfold decimal; rw [← hp]
  have hlen : pre.length + ((if v < 0 then [45] else []) ++ numeral 10 false (units k f.precision v / 10 ^ p)).length +
      (if p > 0 then [46] ++ (List.replicate (p - (numeral 10 false (units k f.precision v % 10 ^ p)).length) 48 ++ numeral 10 false (units k f.precision v % 10 ^ p)) else []).length ≤ cap := by
    rw [hdec, List.length_append] at hfit; omega
  obtain ⟨I, hI⟩ : ∃ I, I = (if v < 0 then [45] else []) ++ numeral 10 false (units k f.precision v / 10 ^ p) := ⟨_, rfl⟩
  have natA : ∀ q : Nat, numeral 10 false ((q : Int)).natAbs = numeral 10 false q := fun q => by rw [Int.natAbs_natCast]
  have step1 : addIntegral cap (((v.natAbs + 10 ^ (k - p) / 2) / 10 ^ k : Nat) : Int) pre { f with base := 10, width := 0 } true (decide (v < 0)) = .ok (pre ++ I) := by
    rw [hint]
    have := addIntegral_ok (cap := cap) (f := { f with base := 10, width := 0 }) (by show 2 ≤ 10; omega) ((units k f.precision v / 10 ^ p : Nat) : Int) (decide (v < 0)) pre true I (by
      rw [hI]; show _ = _ ++ numeral 10 f.upper _; rw [hup, natA]; simp [hbase]) (by
      show pre.length + max I.length 0 ≤ cap
      rw [← hI] at hlen; omega)
    rw [this]
    simp [padded]
  unfold addDenominated
  simp only [← hpre, hp', hden, habs]
  rw [if_neg (by have := Nat.one_le_pow k 10 (by omega); omega), step1]
  simp only
  by_cases hp0 : p > 0
  · rw [if_pos hp0]
    rw [if_pos hp0, ← hI] at hlen
    obtain ⟨F, hF⟩ : ∃ F, F = numeral 10 false (units k f.precision v % 10 ^ p) := ⟨_, rfl⟩
    rw [← hF] at hlen hdec
    simp only [List.length_append, List.length_cons, List.length_nil, List.length_replicate] at hlen
    rw [push_fit (by rw [List.length_append]; omega), hfrac]
    have step2 := addIntegral_ok (cap := cap) (f := { f with base := 10, width := p, precision := p, fill := 48, left := false }) (by show 2 ≤ 10; omega) ((units k f.precision v % 10 ^ p : Nat) : Int) false (pre ++ I ++ [46]) true F (by
      rw [hF]; show _ = _ ++ numeral 10 f.upper _; rw [hup, natA]; simp [hbase]) (by
      show (pre ++ I ++ [46]).length + max F.length p ≤ cap
      simp only [List.length_append, List.length_cons, List.length_nil]; omega)
    rw [step2]
    simp only [if_true]
    have e : pre ++ I ++ [46] ++ padded { f with base := 10, width := p, precision := p, fill := 48, left := false } F = pre ++ decimal k f.precision v := by
      rw [hdec, if_pos hp0, ← hI]; simp [padded]
    rw [e, align_ok pre _ hfit]
  · rw [if_neg hp0]
    have e : I = decimal k f.precision v := by rw [hdec, if_neg hp0, hI, List.append_nil]
    rw [e, align_ok pre _ hfit]

/-! ### Examples -/

/-- "-128" is the smallest `int8_t`, "-129" and "128" are refused; "FF" in base 16 is the bit pattern of -1 -/
example : toArithmetic ⟨8, true⟩ 10 [45, 49, 50, 56] = (.valid, -128) ∧ toArithmetic ⟨8, true⟩ 10 [45, 49, 50, 57] = (.overflow, 0) ∧ toArithmetic ⟨8, true⟩ 10 [49, 50, 56] = (.overflow, 0) ∧ toArithmetic ⟨8, true⟩ 16 [70, 102] = (.valid, -1) := by decide +kernel
/-- "18446744073709551615" is the largest `uint64_t`, one more is refused, "-1", "", "+", "1x" and radix 7 too -/
example : toArithmetic ⟨64, false⟩ 10 [49,56,52,52,54,55,52,52,48,55,51,55,48,57,53,53,49,54,49,53] = (.valid, 18446744073709551615) ∧ toArithmetic ⟨64, false⟩ 10 [49,56,52,52,54,55,52,52,48,55,51,55,48,57,53,53,49,54,49,54] = (.overflow, 0) ∧
    toArithmetic ⟨64, false⟩ 10 [45, 49] = (.signedToUnsigned, 0) ∧ toArithmetic ⟨64, false⟩ 10 [] = (.invalidFormat, 0) ∧ toArithmetic ⟨64, false⟩ 10 [43] = (.invalidFormat, 0) ∧ toArithmetic ⟨64, false⟩ 10 [49, 120] = (.invalidFormat, 0) ∧ toArithmetic ⟨64, false⟩ 7 [49] = (.invalidRadix, 0) := by decide +kernel
/-- the hypotheses of the theorems -/
example : (Ty.mk 8 true).Ok ∧ Radix 16 ∧ Signed [45, 49] true [49] ∧ Digits 16 [70, 102] [15, 15] ∧ number 16 [15, 15] = 255 := by
  refine ⟨by unfold Ty.Ok; simp, by unfold Radix; simp, .inr (.inr ⟨rfl, rfl⟩), by unfold Digits; decide +kernel, by decide +kernel⟩

def okText : Res (List Nat) → Option (List Nat)
  | .ok s => some s
  | .error _ => none
/-- -42 with width 6; 0x1F with a prefix after "a"; 123.46 -/
example : okText (toString 10 (-42) [] { width := 6 } false) = some [32, 32, 32, 45, 52, 50] ∧ okText (toString 10 31 [97] { base := 16, upper := true, showBase := true } true) = some [97, 48, 88, 49, 70] ∧
    okText (addDenominated 32 10 123456 3 [] { precision := 2 } false) = some [49, 50, 51, 46, 52, 54] := by decide +kernel
/-- the hypotheses of `C61_denominated` -/
example : 10 ^ 3 < 2 ^ 32 ∧ 10 ^ (3 - min 2 3) / 2 < 2 ^ 32 ∧ (123456 : Int).natAbs + 10 ^ (3 - min 2 3) / 2 < 2 ^ 32 ∧ max (decimal 3 2 123456).length 0 ≤ 10 := by decide +kernel

/-! ### Findings -/

/-- The sign of a negative number is dropped in base 16, and neither is its bit pattern written: -1 becomes "1", which is read back as 1. -/
theorem negative_hex_wrong : okText (toString 10 (-1) [] { base := 16 } false) = some [49] ∧ toArithmetic ⟨32, true⟩ 16 [49] = (.valid, 1) := by decide +kernel
/-- A 64 bit integer whose type is not `int64_t` or `uint64_t` (`long long`, where `int64_t` is `long`) is cut to 32 bits: 2^32 becomes "0". -/
theorem other_long_long_truncated : okText (toStringOther true 20 (2 ^ 32) [] {} false) = some [48] := by decide +kernel
/-- What `to_string` writes with `show_base` is not accepted by `to_arithmetic`. -/
theorem show_base_not_read : okText (toString 10 31 [] { base := 16, showBase := true } false) = some [48, 120, 49, 102] ∧ toArithmetic ⟨32, true⟩ 16 [48, 120, 49, 102] = (.invalidFormat, 0) := by decide +kernel
/-- A wide character is cut to eight bits: the letter U+0130 is accepted as the digit 0. -/
theorem wide_character_accepted : toArithmetic ⟨32, true⟩ 10 [0x130] = (.valid, 0) := by decide +kernel
/-- Without room the lowest digits are kept: 123 in two characters is "23". -/
theorem small_string_keeps_low_digits : okText (toString 2 123 [] {} false) = some [50, 51] := by decide +kernel
/-- The rounding is not checked: 429496729.5 rounded to an integer is "0". -/
theorem denominated_wraps : okText (addDenominated 32 20 4294967295 1 [] { precision := 0 } false) = some [48] := by decide +kernel
/-- The half of the rounding is a 32 bit number also for 64 bit values: with eleven decimals removed 5·10^10 does not fit, and 0.6 is rounded to 0. -/
theorem denominated_half_wraps : okText (addDenominated 64 20 99999999999 11 [] { precision := 0 } false) = some [49] ∧ okText (addDenominated 64 20 60000000000 11 [] { precision := 0 } false) = some [48] := by decide +kernel
/-- A negative number that is rounded to zero keeps its sign: -0.1 is "-0". -/
theorem denominated_minus_zero : okText (addDenominated 32 20 (-1) 1 [] { precision := 0 } false) = some [45, 48] := by decide +kernel

end Etl.Arith
