import Verif.Locked.Model
import Mathlib.Tactic.ByContra
import Mathlib.Tactic.SplitIfs
import Mathlib.Data.Nat.ModEq

/-!
# C44: the locked queues are linearizable bounded FIFOs, and the lock is released
-/
namespace Etl.Locked
variable {α : Type}

/-! ## Specification -/

/-- one operation of a sequential bounded FIFO.  The state is the number of elements removed so far (it says which slot is the first, for `front`) and the elements. -/
def specOp (cap : Nat) (k : Nat) (l : List α) : Op α → (Nat × List α) × Resp α
  | .push v _ => if l.length = cap then ((k, l), .bool false) else ((k, l ++ [v]), .bool true)
  | .pop => match l with
    | [] => ((k, []), .popped none)
    | a :: t => ((k + 1, t), .popped (some a))
  | .drop => match l with
    | [] => ((k, []), .bool false)
    | _ :: t => ((k + 1, t), .bool true)
  | .clear => ((k + l.length, []), .unit)
  | .empty => ((k, l), .bool (decide (l.length = 0)))
  | .full => ((k, l), .bool (decide (l.length = cap)))
  | .size => ((k, l), .num l.length)
  | .available => ((k, l), .num (cap - l.length))
  | .front => ((k, l), .ref (k % cap))
/-- a sequential history, from a state to a state -/
inductive Legal (cap : Nat) : Nat → List α → List (Op α × Resp α) → Nat → List α → Prop where
  | nil (k l) : Legal cap k l [] k l
  | cons {k l o r k1 l1 h k2 l2} (h1 : specOp cap k l o = ((k1, l1), r)) (h2 : Legal cap k1 l1 h k2 l2) : Legal cap k l ((o, r) :: h) k2 l2
/-- the operations in the order in which they take effect -/
def lins : List (Ev α) → List (Op α × Resp α)
  | [] => []
  | .lin _ o r :: t => (o, r) :: lins t
  | _ :: t => lins t
/-- what can be seen from outside: calls and returns -/
def visible : List (Ev α) → List (Ev α)
  | [] => []
  | .lin _ _ _ :: t => visible t
  | e :: t => e :: visible t
/-- a context in a history: between calls; in a call that has not taken effect; in one that has -/
inductive Phase (α : Type) where
  | out
  | before (o : Op α)
  | after (o : Op α) (r : Resp α)
/-- the events of context `c`: a call, then it takes effect, then it returns with the same result.  Each step says from what phase to what phase an event leads. -/
inductive Follows (c : Ctx) : List (Ev α) → Phase α → Prop where
  | nil : Follows c [] .out
  | inv {h o} (p : Follows c h .out) : Follows c (h ++ [.inv c o]) (.before o)
  | lin {h o r} (p : Follows c h (.before o)) : Follows c (h ++ [.lin c o r]) (.after o r)
  | ret {h o r} (p : Follows c h (.after o r)) : Follows c (h ++ [.ret c o r]) .out
  | inv' {h ph d o} (p : Follows c h ph) (n : d ≠ c) : Follows c (h ++ [.inv d o]) ph
  | lin' {h ph d o r} (p : Follows c h ph) (n : d ≠ c) : Follows c (h ++ [.lin d o r]) ph
  | ret' {h ph d o r} (p : Follows c h ph) (n : d ≠ c) : Follows c (h ++ [.ret d o r]) ph
/-- Linearizable: a point can be put into the history between each call and its return, such that the calls in the order of these points, with the results that were returned, are a history of the sequential FIFO. -/
def Linearizable (cap : Nat) (h : List (Ev α)) (l : List α) : Prop :=
  ∃ h', visible h' = h ∧ (∀ c, ∃ p, Follows c h' p) ∧ ∃ k, Legal cap 0 [] (lins h') k l

/-- no constructor throws, and nobody looks behind a reference of `front` -/
def Plain : Act α → Prop
  | .call _ (.push _ true) => False
  | .irq (.push _ true) => False
  | .look _ => False
  | _ => True

/-! ## The shared variables -/

theorem next_mod {n cap : Nat} (h : 0 < cap) : next (n % cap) cap = (n + 1) % cap := by
  have h1 := Nat.mod_lt n h
  rw [← Nat.mod_add_mod n cap 1]
  unfold next
  by_cases e : n % cap + 1 = cap
  · rw [if_pos e, e, Nat.mod_self]
  · rw [if_neg e, Nat.mod_eq_of_lt (show n % cap + 1 < cap by omega)]
theorem idx_inj {k cap i j : Nat} (hi : i < cap) (hj : j < cap) (h : (k + i) % cap = (k + j) % cap) : i = j := by
  have : i ≡ j [MOD cap] := Nat.ModEq.add_left_cancel' k h
  have := Nat.ModEq.eq_of_lt_of_lt this hi hj
  exact this

/-- the variables, with the elements `l` in the slots from `k` on, and the three numbers as given -/
structure Rep (cap : Nat) (q : Q α) (k : Nat) (l : List α) (nw nr ns : Nat) : Prop where
  cp : q.cap = cap
  wi : q.wi = nw % cap
  ri : q.ri = nr % cap
  sz : q.sz = ns
  len : l.length ≤ cap
  slot : ∀ j < cap, q.slot ((k + j) % cap) = l[j]?

theorem rep_push {cap : Nat} {q : Q α} {k : Nat} {l : List α} (h : Rep cap q k l (k + l.length) k l.length) (hl : l.length < cap) (v : α) :
    q.wi < cap ∧ q.slot q.wi = none ∧ Rep cap { q with slot := upd q.slot q.wi (some v) } k (l ++ [v]) (k + l.length) k l.length := by
  have hs := h.slot l.length hl
  rw [List.getElem?_eq_none (Nat.le_refl _), ← h.wi] at hs
  refine ⟨by rw [h.wi]; exact Nat.mod_lt _ (by omega), hs, h.cp, h.wi, h.ri, h.sz, by simp; omega, ?_⟩
  intro j hj
  show upd q.slot q.wi (some v) ((k + j) % cap) = _
  by_cases e : j = l.length
  · subst e; rw [h.wi, upd_same _ _ _]; simp
  · rw [upd_other _ _ (by rw [h.wi]; exact fun c => e (idx_inj hj hl c)), h.slot j hj]
    by_cases e2 : j < l.length
    · rw [List.getElem?_append_left e2]
    · rw [List.getElem?_eq_none (by omega), List.getElem?_eq_none (by simp; omega)]
theorem rep_head {cap : Nat} {q : Q α} {k nw ns : Nat} {a : α} {t : List α} (h : Rep cap q k (a :: t) nw k ns) : q.ri < cap ∧ q.slot q.ri = some a := by
  have hl := h.len
  simp only [List.length_cons] at hl
  have hs := h.slot 0 (by omega)
  rw [Nat.add_zero, ← h.ri] at hs
  exact ⟨by rw [h.ri]; exact Nat.mod_lt _ (by omega), hs⟩
theorem rep_pop {cap : Nat} {q : Q α} {k nw ns : Nat} {a : α} {t : List α} (h : Rep cap q k (a :: t) nw k ns) :
    Rep cap { q with slot := upd q.slot q.ri none } (k + 1) t nw k ns := by
  have hl := h.len
  simp only [List.length_cons] at hl
  refine ⟨h.cp, h.wi, h.ri, h.sz, by omega, ?_⟩
  intro j hj
  show upd q.slot q.ri none ((k + 1 + j) % cap) = _
  rw [show k + 1 + j = k + (j + 1) by omega]
  by_cases e : j + 1 = cap
  · rw [e, Nat.add_mod_right, h.ri, upd_same _ _ _, List.getElem?_eq_none (by omega)]
  · rw [upd_other _ _ (by
      rw [h.ri]; intro c
      have : j + 1 = 0 := idx_inj (k := k) (cap := cap) (by omega) (by omega) (by rw [c, Nat.add_zero])
      omega), h.slot (j + 1) (by omega)]
    rfl

/-- the number of elements that the call has already removed, for `clear` -/
def cur (o : Op α) (k : Nat) (l : List α) (k' : Nat) (l' : List α) : Prop := match o with
  | .clear => k' + l'.length = k + l.length
  | _ => k' = k ∧ l' = l
/-- what is in the shared variables while a call is in its implementation; `k`, `l` is the state of the sequential FIFO -/
def Mid (cap : Nat) (q : Q α) (k : Nat) (l : List α) : Pc α → Prop
  | .check o => (match o with | .push _ th => th = false | _ => True) ∧ ∃ k' l', cur o k l k' l' ∧ Rep cap q k' l' (k' + l'.length) k' l'.length
  | .construct _ th => th = false ∧ l.length < cap ∧ Rep cap q k l (k + l.length) k l.length
  | .advW v => l.length < cap ∧ Rep cap q k (l ++ [v]) (k + l.length) k l.length
  | .incSize v => l.length < cap ∧ Rep cap q k (l ++ [v]) (k + l.length + 1) k l.length
  | .take => l ≠ [] ∧ Rep cap q k l (k + l.length) k l.length
  | .destroy o v => ∃ k' a t, cur o k l k' (a :: t) ∧ (match o with | .pop => v = some a | .drop => True | .clear => True | _ => False) ∧
      Rep cap q k' (a :: t) (k' + (t.length + 1)) k' (t.length + 1)
  | .advR o v => ∃ k' a t, cur o k l k' (a :: t) ∧ (match o with | .pop => v = some a | .drop => True | .clear => True | _ => False) ∧
      t.length < cap ∧ Rep cap q (k' + 1) t (k' + (t.length + 1)) k' (t.length + 1)
  | .decSize o v => ∃ k' a t, cur o k l k' (a :: t) ∧ (match o with | .pop => v = some a | .drop => True | .clear => True | _ => False) ∧
      t.length < cap ∧ Rep cap q (k' + 1) t (k' + (t.length + 1)) (k' + 1) (t.length + 1)
  | .leave o r => ∃ k' l', specOp cap k l o = ((k', l'), r) ∧ Rep cap q k' l' (k' + l'.length) k' l'.length
  | _ => False

theorem rep_cast {cap : Nat} {q : Q α} {k k' : Nat} {l l' : List α} {nw nr ns nw' nr' ns' : Nat} (h : Rep cap q k l nw nr ns) (h1 : k = k') (h2 : l = l') (h3 : nw = nw') (h4 : nr = nr') (h5 : ns = ns') :
    Rep cap q k' l' nw' nr' ns' := by subst h1 h2 h3 h4 h5; exact h

/-- the phase of a context, from where it is -/
def phase : Pc α → Phase α
  | .idle => .out
  | .want o => .before o
  | .check o => .before o
  | .construct v th => .before (.push v th)
  | .advW v => .before (.push v false)
  | .incSize v => .before (.push v false)
  | .take => .before .pop
  | .destroy o _ => .before o
  | .advR o _ => .before o
  | .decSize o _ => .before o
  | .leave o _ => .before o
  | .done o r => .after o r
  | .threw => .out
/-- one access keeps the description, and is defined -/
theorem mid_body {cap : Nat} (hc : 0 < cap) {q : Q α} {k : Nat} {l : List α} {pc : Pc α} (h : Mid cap q k l pc) : ∃ q' pc', body q pc = .ok (q', pc') ∧ Mid cap q' k l pc' := by
  cases pc with
  | idle => exact h.elim
  | want o => exact h.elim
  | done o r => exact h.elim
  | threw => exact h.elim
  | leave o r => exact ⟨q, _, rfl, h⟩
  | check o =>
    obtain ⟨hth, k', l', hcur, hr⟩ := h
    have hsz := hr.sz
    cases o with
    | push v th =>
      obtain ⟨rfl, rfl⟩ : k' = k ∧ l' = l := hcur
      simp only [body]
      rw [hr.cp, hsz]
      by_cases e : l'.length = cap
      · rw [if_neg (by simp [e])]
        exact ⟨q, _, rfl, k', l', by simp only [specOp]; rw [if_pos e], hr⟩
      · rw [if_pos e]
        have := hr.len
        exact ⟨q, _, rfl, hth, by omega, hr⟩
    | pop =>
      obtain ⟨rfl, rfl⟩ : k' = k ∧ l' = l := hcur
      simp only [body]
      rw [hsz]
      cases l' with
      | nil => exact ⟨q, _, rfl, k', [], rfl, hr⟩
      | cons a t => exact ⟨q, _, rfl, by simp, hr⟩
    | drop =>
      obtain ⟨rfl, rfl⟩ : k' = k ∧ l' = l := hcur
      simp only [body]
      rw [hsz]
      cases l' with
      | nil => exact ⟨q, _, rfl, k', [], rfl, hr⟩
      | cons a t => exact ⟨q, _, rfl, k', a, t, ⟨rfl, rfl⟩, trivial, hr⟩
    | clear =>
      simp only [body]
      rw [hsz]
      cases l' with
      | nil =>
        have hcur : k' + 0 = k + l.length := hcur
        exact ⟨q, _, rfl, k', [], by simp only [specOp]; rw [← hcur, Nat.add_zero], hr⟩
      | cons a t => exact ⟨q, _, rfl, k', a, t, hcur, trivial, hr⟩
    | empty =>
      obtain ⟨rfl, rfl⟩ : k' = k ∧ l' = l := hcur
      refine ⟨q, _, rfl, k', l', ?_, hr⟩
      unfold specOp; rw [hsz]
    | full =>
      obtain ⟨rfl, rfl⟩ : k' = k ∧ l' = l := hcur
      refine ⟨q, _, rfl, k', l', ?_, hr⟩
      unfold specOp; rw [hsz, hr.cp]
    | size =>
      obtain ⟨rfl, rfl⟩ : k' = k ∧ l' = l := hcur
      refine ⟨q, _, rfl, k', l', ?_, hr⟩
      unfold specOp; rw [hsz]
    | available =>
      obtain ⟨rfl, rfl⟩ : k' = k ∧ l' = l := hcur
      refine ⟨q, _, rfl, k', l', ?_, hr⟩
      unfold specOp; rw [hsz, hr.cp]
    | front =>
      obtain ⟨rfl, rfl⟩ : k' = k ∧ l' = l := hcur
      refine ⟨q, _, rfl, k', l', ?_, hr⟩
      unfold specOp; rw [hr.ri]
  | construct v th =>
    obtain ⟨rfl, hl, hr⟩ := h
    obtain ⟨h1, h2, h3⟩ := rep_push hr hl v
    refine ⟨_, .advW v, ?_, hl, h3⟩
    simp only [body]
    rw [hr.cp, if_pos h1, h2]; rfl
  | advW v =>
    obtain ⟨hl, hr⟩ := h
    refine ⟨_, _, rfl, hl, hr.cp, ?_, hr.ri, hr.sz, hr.len, hr.slot⟩
    show next q.wi q.cap = _
    rw [hr.cp, hr.wi, next_mod hc]
  | incSize v =>
    obtain ⟨hl, hr⟩ := h
    refine ⟨_, _, rfl, k, l ++ [v], ?_, hr.cp, ?_, hr.ri, ?_, hr.len, hr.slot⟩
    · simp only [specOp]; rw [if_neg (by omega)]
    · rw [List.length_append]; exact hr.wi
    · show q.sz + 1 = _
      rw [hr.sz]; simp
  | take =>
    obtain ⟨hl, hr⟩ := h
    cases l with
    | nil => exact absurd rfl hl
    | cons a t =>
      obtain ⟨h1, h2⟩ := rep_head hr
      refine ⟨q, .destroy .pop (some a), ?_, k, a, t, ⟨rfl, rfl⟩, rfl, hr⟩
      simp only [body]
      rw [hr.cp, if_pos h1, h2]
  | destroy o v =>
    obtain ⟨k', a, t, hcur, ho, hr⟩ := h
    obtain ⟨h1, h2⟩ := rep_head hr
    refine ⟨_, .advR o v, ?_, k', a, t, hcur, ho, hr.len, rep_pop hr⟩
    simp only [body]
    rw [hr.cp, if_pos h1, h2]
  | advR o v =>
    obtain ⟨k', a, t, hcur, ho, hlt, hr⟩ := h
    refine ⟨_, _, rfl, k', a, t, hcur, ho, hlt, hr.cp, hr.wi, ?_, hr.sz, hr.len, hr.slot⟩
    show next q.ri q.cap = _
    rw [hr.cp, hr.ri, next_mod hc]
  | decSize o v =>
    obtain ⟨k', a, t, hcur, ho, hlt, hr⟩ := h
    have hr' : Rep cap { q with sz := q.sz - 1 } (k' + 1) t (k' + 1 + t.length) (k' + 1) t.length :=
      ⟨hr.cp, by rw [show k' + 1 + t.length = k' + (t.length + 1) by omega]; exact hr.wi, hr.ri, by show q.sz - 1 = _; rw [hr.sz]; omega, hr.len, hr.slot⟩
    cases o with
    | pop =>
      obtain ⟨rfl, rfl⟩ : k' = k ∧ a :: t = l := hcur
      have hv : v = some a := ho
      subst hv
      exact ⟨_, _, rfl, k' + 1, t, rfl, hr'⟩
    | drop =>
      obtain ⟨rfl, rfl⟩ : k' = k ∧ a :: t = l := hcur
      exact ⟨_, _, rfl, k' + 1, t, rfl, hr'⟩
    | clear =>
      refine ⟨_, _, rfl, trivial, k' + 1, t, ?_, hr'⟩
      have : k' + (t.length + 1) = k + l.length := hcur
      show k' + 1 + t.length = _
      omega
    | _ => exact ho.elim

theorem phase_body {cap : Nat} {q q' : Q α} {k : Nat} {l : List α} {pc pc' : Pc α} (h : Mid cap q k l pc) (hb : body q pc = .ok (q', pc')) : phase pc' = phase pc := by
  cases pc with
  | check o => cases o <;> simp only [body] at hb <;> (try split_ifs at hb) <;> (simp only [Except.ok.injEq, Prod.mk.injEq] at hb; rw [← hb.2]; rfl)
  | construct v th =>
    obtain ⟨rfl, _⟩ := h
    simp only [body] at hb
    repeat' split at hb
    all_goals first | (cases hb; done) | (simp only [Except.ok.injEq, Prod.mk.injEq] at hb; rw [← hb.2]; first | rfl | (rename_i c; cases c))
  | decSize o v =>
    obtain ⟨k', a, t, _, ho, _⟩ := h
    simp only [body, Except.ok.injEq, Prod.mk.injEq] at hb
    rw [← hb.2]
    cases o <;> first | rfl | exact ho.elim
  | take =>
    simp only [body] at hb
    repeat' split at hb
    all_goals first | (simp only [Except.ok.injEq, Prod.mk.injEq] at hb; rw [← hb.2]; rfl) | cases hb
  | destroy o v =>
    simp only [body] at hb
    repeat' split at hb
    all_goals first | (simp only [Except.ok.injEq, Prod.mk.injEq] at hb; rw [← hb.2]; rfl) | cases hb
  | _ => simp only [body, Except.ok.injEq, Prod.mk.injEq] at hb; obtain ⟨_, rfl⟩ := hb; rfl

/-! ## The invariant -/

/-- outside of the lock -/
def Outside : Pc α → Prop
  | .idle => True
  | .want (.push _ th) => th = false
  | .want _ => True
  | .done _ _ => True
  | _ => False
structure Inv (cap : Nat) (s : St α) (k : Nat) (l : List α) : Prop where
  legal : Legal cap 0 [] (lins s.trace) k l
  free : s.lock = none → s.isr = false → Rep cap s.q k l (k + l.length) k l.length
  held : ∀ t, s.lock = some t → s.isr = false ∧ Mid cap s.q k l (s.pc t)
  other : ∀ t, s.lock ≠ some t → Outside (s.pc t)
  noirq : s.isr = false → s.ipc = .idle
  irq : s.isr = true → s.lock = none ∧ (Mid cap s.q k l s.ipc ∨ ((∃ o r, s.ipc = .done o r) ∧ Rep cap s.q k l (k + l.length) k l.length))
  thr : ∀ t, Follows (some t) s.trace (phase (s.pc t))
  int : Follows none s.trace (phase s.ipc)

theorem lins_append (t u : List (Ev α)) : lins (t ++ u) = lins t ++ lins u := by
  induction t with
  | nil => rfl
  | cons e t ih => cases e <;> simp [lins, ih]
theorem legal_snoc {cap : Nat} {k k1 k2 : Nat} {l l1 l2 : List α} {h : List (Op α × Resp α)} {o : Op α} {r : Resp α} (h1 : Legal cap k l h k1 l1) (h2 : specOp cap k1 l1 o = ((k2, l2), r)) :
    Legal cap k l (h ++ [(o, r)]) k2 l2 := by
  induction h1 with
  | nil k l => exact .cons h2 (.nil _ _)
  | cons a b ih => exact .cons a (ih h2)

theorem inv_init (cap : Nat) (hc : 0 < cap) : Inv cap (init cap : St α) 0 [] where
  legal := .nil _ _
  free := fun _ _ => ⟨rfl, by show 0 = _; simp, by show 0 = _; simp, rfl, Nat.zero_le _, fun j _ => rfl⟩
  held := fun t h => by cases h
  other := fun t _ => trivial
  noirq := fun _ => rfl
  irq := fun h => by cases h
  thr := fun t => .nil
  int := .nil

/-- an implementation step of a thread with the lock -/
theorem inv_body {cap : Nat} (hc : 0 < cap) {s : St α} {k : Nat} {l : List α} (h : Inv cap s k l) {t : Nat} (hl : s.lock = some t) :
    ∃ q' pc', body s.q (s.pc t) = .ok (q', pc') ∧ Inv cap { s with q := q', pc := upd s.pc t pc' } k l := by
  obtain ⟨hi, hm⟩ := h.held t hl
  obtain ⟨q', pc', hb, hm'⟩ := mid_body hc hm
  refine ⟨q', pc', hb, h.legal, ?_, ?_, ?_, h.noirq, ?_, ?_, h.int⟩
  · intro hn; replace hn : s.lock = none := hn; rw [hl] at hn; cases hn
  · intro u hu
    replace hu : s.lock = some u := hu
    rw [hl] at hu; cases hu
    refine ⟨hi, ?_⟩
    show Mid cap q' k l (upd s.pc t pc' t)
    rw [upd_same _ _ _]; exact hm'
  · intro u hu
    replace hu : s.lock ≠ some u := hu
    have : u ≠ t := fun e => hu (by rw [e]; exact hl)
    show Outside (upd s.pc t pc' u)
    rw [upd_other _ _ this]; exact h.other u hu
  · intro e; replace e : s.isr = true := e; rw [hi] at e; cases e
  · intro u
    show Follows (some u) s.trace (phase (upd s.pc t pc' u))
    by_cases e : u = t
    · rw [e, upd_same _ _ _, phase_body hm hb]; exact h.thr t
    · rw [upd_other _ _ e]; exact h.thr u

theorem inv_stepT {cap : Nat} (hc : 0 < cap) {s : St α} {k : Nat} {l : List α} (h : Inv cap s k l) (t : Nat) : ∃ s' k' l', stepT s t = .ok s' ∧ Inv cap s' k' l' := by
  unfold stepT
  by_cases hi0 : s.isr = true
  · rw [if_pos hi0]; exact ⟨s, k, l, rfl, h⟩
  · rw [if_neg hi0]
    have hi : s.isr = false := by simpa using hi0
    by_cases hl : s.lock = some t
    · obtain ⟨_, hm⟩ := h.held t hl
      obtain ⟨q', pc', hb, hinv⟩ := inv_body hc h hl
      cases hp : s.pc t with
      | idle => rw [hp] at hm; exact hm.elim
      | want o => rw [hp] at hm; exact hm.elim
      | done o r => rw [hp] at hm; exact hm.elim
      | threw => rw [hp] at hm; exact hm.elim
      | leave o r =>
        rw [hp] at hm
        obtain ⟨k', l', hs, hr⟩ := hm
        refine ⟨_, k', l', rfl, ?_, fun _ _ => hr, ?_, ?_, h.noirq, ?_, ?_, ?_⟩
        · show Legal cap 0 [] (lins (s.trace ++ _)) k' l'
          rw [lins_append]; exact legal_snoc h.legal hs
        · intro u hu; cases hu
        · intro u _
          show Outside (upd s.pc t _ u)
          by_cases e : u = t
          · rw [e, upd_same _ _ _]; trivial
          · rw [upd_other _ _ e]
            exact h.other u (by rw [hl]; intro c; cases c; exact e rfl)
        · intro e; replace e : s.isr = true := e; rw [hi] at e; cases e
        · intro u
          show Follows (some u) (s.trace ++ _) (phase (upd s.pc t _ u))
          by_cases e : u = t
          · rw [e, upd_same _ _ _]
            have := h.thr t
            rw [hp] at this
            exact .lin this
          · rw [upd_other _ _ e]
            exact .lin' (h.thr u) (by intro c; cases c; exact e rfl)
        · exact .lin' h.int (by simp)
      | _ =>
        rw [hp] at hb
        dsimp only
        rw [if_pos hl, hb]
        exact ⟨_, k, l, rfl, hinv⟩
    · have ho := h.other t hl
      cases hp : s.pc t with
      | idle => exact ⟨s, k, l, rfl, h⟩
      | want o =>
        by_cases hf : s.lock = none
        · refine ⟨{ s with lock := some t, pc := upd s.pc t (.check o) }, k, l, ?_, h.legal, ?_, ?_, ?_, h.noirq, ?_, ?_, h.int⟩
          · dsimp only; rw [if_pos hf]
          · intro e; cases e
          · intro u hu
            replace hu : some t = some u := hu
            cases hu
            refine ⟨hi, ?_⟩
            show Mid cap s.q k l (upd s.pc t _ t)
            rw [upd_same _ _ _]
            rw [hp] at ho
            refine ⟨by cases o <;> first | exact ho | trivial, k, l, ?_, h.free hf hi⟩
            unfold cur; cases o <;> first | exact ⟨rfl, rfl⟩ | rfl
          · intro u hu
            have : u ≠ t := fun e => hu (by rw [e])
            show Outside (upd s.pc t _ u)
            rw [upd_other _ _ this]; exact h.other u (by rw [hf]; simp)
          · intro e; replace e : s.isr = true := e; rw [hi] at e; cases e
          · intro u
            show Follows (some u) s.trace (phase (upd s.pc t _ u))
            by_cases e : u = t
            · rw [e, upd_same _ _ _]
              have := h.thr t
              rw [hp] at this
              exact this
            · rw [upd_other _ _ e]; exact h.thr u
        · refine ⟨s, k, l, ?_, h⟩
          dsimp only; rw [if_neg hf]
      | done o r =>
        refine ⟨_, k, l, rfl, ?_, h.free, ?_, ?_, h.noirq, h.irq, ?_, ?_⟩
        · show Legal cap 0 [] (lins (s.trace ++ _)) k l
          rw [lins_append]; simp only [lins, List.append_nil]; exact h.legal
        · intro u hu
          have : u ≠ t := fun e => hl (by rw [← e]; exact hu)
          show s.isr = false ∧ Mid cap s.q k l (upd s.pc t _ u)
          rw [upd_other _ _ this]; exact h.held u hu
        · intro u hu
          show Outside (upd s.pc t _ u)
          by_cases e : u = t
          · rw [e, upd_same _ _ _]; trivial
          · rw [upd_other _ _ e]; exact h.other u hu
        · intro u
          show Follows (some u) (s.trace ++ _) (phase (upd s.pc t _ u))
          by_cases e : u = t
          · rw [e, upd_same _ _ _]
            have := h.thr t
            rw [hp] at this
            exact .ret this
          · rw [upd_other _ _ e]
            exact .ret' (h.thr u) (by intro c; cases c; exact e rfl)
        · exact .ret' h.int (by simp)
      | _ => rw [hp] at ho; exact ho.elim

theorem inv_stepI {cap : Nat} (hc : 0 < cap) {s : St α} {k : Nat} {l : List α} (h : Inv cap s k l) : ∃ s' k' l', stepI s = .ok s' ∧ Inv cap s' k' l' := by
  unfold stepI
  by_cases hi : s.isr = true
  swap
  · rw [if_neg hi]; exact ⟨s, k, l, rfl, h⟩
  · rw [if_pos hi]
    obtain ⟨hl, hm⟩ := h.irq hi
    rcases hm with hm | ⟨⟨o, r, hp⟩, hr⟩
    · obtain ⟨q', pc', hb, hm'⟩ := mid_body hc hm
      have hph := phase_body hm hb
      cases hp : s.ipc with
      | idle => rw [hp] at hm; exact hm.elim
      | want o => rw [hp] at hm; exact hm.elim
      | done o r => rw [hp] at hm; exact hm.elim
      | threw => rw [hp] at hm; exact hm.elim
      | leave o r =>
        rw [hp] at hm
        obtain ⟨k', l', hs, hr⟩ := hm
        refine ⟨_, k', l', rfl, ?_, ?_, ?_, h.other, ?_, fun _ => ⟨hl, Or.inr ⟨⟨o, r, rfl⟩, hr⟩⟩, ?_, ?_⟩
        · show Legal cap 0 [] (lins (s.trace ++ _)) k' l'
          rw [lins_append]; exact legal_snoc h.legal hs
        · intro _ e; replace e : s.isr = false := e; rw [hi] at e; cases e
        · intro u hu; replace hu : s.lock = some u := hu; rw [hl] at hu; cases hu
        · intro e; replace e : s.isr = false := e; rw [hi] at e; cases e
        · intro u; exact .lin' (h.thr u) (by simp)
        · have := h.int
          rw [hp] at this
          exact .lin this
      | _ =>
        rw [hp] at hb hph
        dsimp only
        rw [if_pos hl, hb]
        refine ⟨_, k, l, rfl, h.legal, ?_, ?_, h.other, ?_, fun _ => ⟨hl, Or.inl hm'⟩, h.thr, ?_⟩
        · intro _ e; replace e : s.isr = false := e; rw [hi] at e; cases e
        · intro u hu; replace hu : s.lock = some u := hu; rw [hl] at hu; cases hu
        · intro e; replace e : s.isr = false := e; rw [hi] at e; cases e
        · show Follows none s.trace (phase pc')
          rw [hph, ← hp]; exact h.int
    · rw [hp]
      refine ⟨_, k, l, rfl, ?_, fun _ _ => hr, ?_, h.other, fun _ => rfl, ?_, ?_, ?_⟩
      · show Legal cap 0 [] (lins (s.trace ++ _)) k l
        rw [lins_append]; simp only [lins, List.append_nil]; exact h.legal
      · intro u hu; replace hu : s.lock = some u := hu; rw [hl] at hu; cases hu
      · intro e; cases e
      · intro u; exact .ret' (h.thr u) (by simp)
      · have := h.int
        rw [hp] at this
        exact .ret this

theorem inv_step {cap : Nat} (hc : 0 < cap) {s : St α} {k : Nat} {l : List α} (h : Inv cap s k l) (a : Act α) (ha : Plain a) : ∃ s' k' l', step s a = .ok s' ∧ Inv cap s' k' l' := by
  cases a with
  | step t => exact inv_stepT hc h t
  | istep => exact inv_stepI hc h
  | look i => exact ha.elim
  | call t o =>
    simp only [step]
    by_cases hi0 : s.isr = true
    · rw [if_pos hi0]; exact ⟨s, k, l, rfl, h⟩
    · rw [if_neg hi0]
      cases hp : s.pc t with
      | idle =>
        have hl : s.lock ≠ some t := by
          intro e
          have := (h.held t e).2
          rw [hp] at this; exact this
        refine ⟨_, k, l, rfl, ?_, h.free, ?_, ?_, h.noirq, h.irq, ?_, ?_⟩
        · show Legal cap 0 [] (lins (s.trace ++ _)) k l
          rw [lins_append]; simp only [lins, List.append_nil]; exact h.legal
        · intro u hu
          have : u ≠ t := fun e => hl (by rw [← e]; exact hu)
          show s.isr = false ∧ Mid cap s.q k l (upd s.pc t _ u)
          rw [upd_other _ _ this]; exact h.held u hu
        · intro u hu
          show Outside (upd s.pc t _ u)
          by_cases e : u = t
          · rw [e, upd_same _ _ _]
            cases o <;> first | trivial | skip
            rename_i v th
            cases th <;> first | rfl | exact ha.elim
          · rw [upd_other _ _ e]; exact h.other u hu
        · intro u
          show Follows (some u) (s.trace ++ _) (phase (upd s.pc t _ u))
          by_cases e : u = t
          · rw [e, upd_same _ _ _]
            have := h.thr t
            rw [hp] at this
            exact .inv this
          · rw [upd_other _ _ e]
            exact .inv' (h.thr u) (by intro c; cases c; exact e rfl)
        · exact .inv' h.int (by simp)
      | _ => exact ⟨s, k, l, rfl, h⟩
  | irq o =>
    simp only [step]
    by_cases e : s.isr = false ∧ s.lock = none
    · rw [if_pos e]
      refine ⟨_, k, l, rfl, ?_, ?_, ?_, h.other, ?_, fun _ => ⟨e.2, Or.inl ?_⟩, ?_, ?_⟩
      · show Legal cap 0 [] (lins (s.trace ++ _)) k l
        rw [lins_append]; simp only [lins, List.append_nil]; exact h.legal
      · intro _ c; cases c
      · intro u hu; replace hu : s.lock = some u := hu; rw [e.2] at hu; cases hu
      · intro c; cases c
      · refine ⟨?_, k, l, ?_, h.free e.2 e.1⟩
        · cases o with
          | push v th =>
            cases th with
            | false => rfl
            | true => exact ha.elim
          | _ => trivial
        · unfold cur; cases o <;> first | exact ⟨rfl, rfl⟩ | rfl
      · intro u; exact .inv' (h.thr u) (by simp)
      · have := h.int
        rw [h.noirq e.1] at this
        exact .inv this
    · rw [if_neg e]; exact ⟨s, k, l, rfl, h⟩

theorem inv_run {cap : Nat} (hc : 0 < cap) (acts : List (Act α)) : ∀ {s : St α} {k : Nat} {l : List α}, Inv cap s k l → (∀ a ∈ acts, Plain a) → ∃ s' k' l', run s acts = .ok s' ∧ Inv cap s' k' l' := by
  induction acts with
  | nil => intro s k l h _; exact ⟨s, k, l, rfl, h⟩
  | cons a as ih =>
    intro s k l h hp
    obtain ⟨s1, k1, l1, e, h1⟩ := inv_step hc h a (hp a List.mem_cons_self)
    simp only [run, e]
    exact ih h1 (fun b hb => hp b (List.mem_cons_of_mem _ hb))

/-- C44.  For every capacity, every number of threads, every interrupt pattern and every interleaving: no data race and no access to a dead element, and the calls and returns are linearizable with respect to the bounded FIFO. -/
theorem C44_linearizable (cap : Nat) (hc : 0 < cap) (acts : List (Act α)) (hp : ∀ a ∈ acts, Plain a) :
    ∃ s, run (init cap) acts = .ok s ∧ ∃ l, Linearizable cap (visible s.trace) l ∧
      (s.lock = none → s.isr = false → s.q.sz = l.length ∧ ∃ k, ∀ j < cap, s.q.slot ((k + j) % cap) = l[j]?) := by
  obtain ⟨s, k, l, h1, h2⟩ := inv_run hc acts (inv_init cap hc) hp
  refine ⟨s, h1, l, ⟨s.trace, rfl, ?_, k, h2.legal⟩, fun a b => ⟨(h2.free a b).sz, k, (h2.free a b).slot⟩⟩
  intro c
  cases c with
  | none => exact ⟨_, h2.int⟩
  | some t => exact ⟨_, h2.thr t⟩

/-- C44: an interrupt whose push throws changes nothing: after any history, it ends within three steps, the queue, the lock and the threads are as before, and the interrupt can come again; if the queue is full, nothing throws and the push is refused. -/
theorem C44_throw_in_interrupt (cap : Nat) (hc : 0 < cap) (acts : List (Act α)) (hp : ∀ a ∈ acts, Plain a) (s : St α) (hr : run (init cap) acts = .ok s) (hl : s.lock = none) (hi : s.isr = false) (v : α) :
    ∃ s', run s [.irq (.push v true), .istep, .istep, .istep] = .ok s' ∧ s'.q = s.q ∧ s'.lock = none ∧ s'.isr = false ∧ s'.pc = s.pc ∧ s'.ipc = .idle ∧
      visible s'.trace = visible s.trace ++ [.inv none (.push v true), if s.q.sz = cap then .ret none (.push v true) (.bool false) else .threw none] := by
  obtain ⟨s1, k, l, h1, h2⟩ := inv_run hc acts (inv_init cap hc) hp
  rw [hr] at h1
  cases h1
  have hrep := h2.free hl hi
  obtain ⟨q, lock, isr, pc, ipc, trace⟩ := s
  cases hl; cases hi
  have hvis : ∀ a b : List (Ev α), visible (a ++ b) = visible a ++ visible b := by
    intro a b
    induction a with
    | nil => rfl
    | cons e a ih => cases e <;> simp [visible, ih]
  have hcp : q.cap = cap := hrep.cp
  by_cases hf : q.sz = cap
  · have hb : body q (.check (.push v true)) = .ok (q, .leave (.push v true) (.bool false)) := by
      simp only [body]; rw [if_neg (by omega)]
    refine ⟨{ q := q, lock := none, isr := false, pc := pc, ipc := .idle, trace := trace ++ [.inv none (.push v true)] ++ [.lin none (.push v true) (.bool false)] ++ [.ret none (.push v true) (.bool false)] }, ?_, rfl, rfl, rfl, rfl, rfl, ?_⟩
    · simp [run, step, stepI, hb]
    · simp only [hvis, visible]; rw [if_pos hf]; simp
  · have hb : body q (.check (.push v true)) = .ok (q, .construct v true) := by
      simp only [body]; rw [if_pos (by omega)]
    have hw : q.wi < q.cap := by
      rw [hcp, hrep.wi]; exact Nat.mod_lt _ hc
    have hb2 : body q (.construct v true) = .ok (q, .threw) := by
      simp only [body]; rw [if_pos hw]; rfl
    refine ⟨{ q := q, lock := none, isr := false, pc := pc, ipc := .idle, trace := trace ++ [.inv none (.push v true)] ++ [.threw none] }, ?_, rfl, rfl, rfl, rfl, rfl, ?_⟩
    · simp [run, step, stepI, hb, hb2]
    · simp only [hvis, visible]; rw [if_neg hf]; simp

/-! ## The lock is released -/

/-- an upper bound for the steps until the unlock -/
def left (q : Q α) : Pc α → Nat
  | .check .clear => 4 * q.sz + 2
  | .check _ => 6
  | .construct _ _ => 5
  | .advW _ => 3
  | .incSize _ => 2
  | .take => 5
  | .destroy .clear _ => 4 * q.sz + 1
  | .destroy _ _ => 4
  | .advR .clear _ => 4 * q.sz
  | .advR _ _ => 3
  | .decSize .clear _ => 4 * q.sz - 1
  | .decSize _ _ => 2
  | .leave _ _ => 1
  | _ => 0
theorem left_body {cap : Nat} {q q' : Q α} {k : Nat} {l : List α} {pc pc' : Pc α} (h : Mid cap q k l pc) (hb : body q pc = .ok (q', pc')) (hn : ∀ o r, pc ≠ .leave o r) : left q' pc' < left q pc := by
  cases pc with
  | idle => exact h.elim
  | want o => exact h.elim
  | done o r => exact h.elim
  | threw => exact h.elim
  | leave o r => exact absurd rfl (hn o r)
  | check o => cases o <;> simp only [body] at hb <;> (try split_ifs at hb) <;> (simp only [Except.ok.injEq, Prod.mk.injEq] at hb; rw [← hb.1, ← hb.2]; simp only [left]; omega)
  | construct v th =>
    obtain ⟨rfl, _⟩ := h
    simp only [body] at hb
    repeat' split at hb
    all_goals first | (simp only [Except.ok.injEq, Prod.mk.injEq] at hb; rw [← hb.2]; simp only [left]; omega) | cases hb
  | decSize o v =>
    obtain ⟨k', a, t, _, ho, _, hr⟩ := h
    have := hr.sz
    simp only [body, Except.ok.injEq, Prod.mk.injEq] at hb
    rw [← hb.1, ← hb.2]
    cases o <;> first | (simp only [left]; omega) | exact ho.elim
  | take =>
    simp only [body] at hb
    repeat' split at hb
    all_goals first | (simp only [Except.ok.injEq, Prod.mk.injEq] at hb; rw [← hb.2]; simp only [left]; omega) | cases hb
  | destroy o v =>
    obtain ⟨k', a, t, _, ho, hr⟩ := h
    have := hr.sz
    simp only [body] at hb
    repeat' split at hb
    all_goals first | (simp only [Except.ok.injEq, Prod.mk.injEq] at hb; rw [← hb.1, ← hb.2]; cases o <;> first | (simp only [left]; omega) | exact ho.elim) | cases hb
  | advR o v =>
    obtain ⟨k', a, t, _, ho, _, hr⟩ := h
    have := hr.sz
    simp only [body, Except.ok.injEq, Prod.mk.injEq] at hb
    rw [← hb.1, ← hb.2]
    cases o <;> first | (simp only [left]; omega) | exact ho.elim
  | _ => simp only [body, Except.ok.injEq, Prod.mk.injEq] at hb; rw [← hb.1, ← hb.2]; simp only [left]; omega

theorem released {cap : Nat} (hc : 0 < cap) (t n : Nat) : ∀ {s : St α} {k : Nat} {l : List α}, Inv cap s k l → s.lock = some t → left s.q (s.pc t) ≤ n →
    ∃ m s', m ≤ n ∧ run s (List.replicate m (.step t)) = .ok s' ∧ s'.lock = none := by
  induction n with
  | zero =>
    intro s k l h hl hn
    obtain ⟨_, hm⟩ := h.held t hl
    obtain ⟨q', pc', hb, _⟩ := mid_body hc hm
    cases hp : s.pc t with
    | leave o r => rw [hp] at hn; simp [left] at hn
    | _ =>
      have := left_body hm hb (by intro o r; rw [hp]; simp)
      omega
  | succ n ih =>
    intro s k l h hl hn
    obtain ⟨hi, hm⟩ := h.held t hl
    obtain ⟨q', pc', hb, hinv⟩ := inv_body hc h hl
    by_cases hp : ∃ o r, s.pc t = .leave o r
    · obtain ⟨o, r, hp⟩ := hp
      refine ⟨1, { s with lock := none, pc := upd s.pc t (.done o r), trace := s.trace ++ [.lin (some t) o r] }, by omega, ?_, ?_⟩
      · simp only [List.replicate, run, step, stepT, hi, hp]; rfl
      · rfl
    · have hlt := left_body hm hb (fun o r e => hp ⟨o, r, e⟩)
      obtain ⟨m, s', h1, h2, h3⟩ := ih hinv hl (by
        show left q' (upd s.pc t pc' t) ≤ n
        rw [upd_same _ _ _]; omega)
      refine ⟨m + 1, s', by omega, ?_, h3⟩
      rw [List.replicate_succ]
      have hst : step s (.step t) = .ok { s with q := q', pc := upd s.pc t pc' } := by
        simp only [step, stepT, hi, Bool.false_eq_true, if_false]
        cases hq : s.pc t with
        | leave o r => exact absurd ⟨o, r, hq⟩ hp
        | idle => rw [hq] at hm; exact hm.elim
        | want o => rw [hq] at hm; exact hm.elim
        | done o r => rw [hq] at hm; exact hm.elim
        | threw => rw [hq] at hm; exact hm.elim
        | _ => dsimp only; rw [if_pos hl, ← hq, hb]
      simp only [run, hst]
      exact h2
/-- C44, the lock: nobody outside of a call has it; and whoever has it releases it after a bounded number of own steps, whatever the others have done before. -/
theorem C44_lock_released (cap : Nat) (hc : 0 < cap) (acts : List (Act α)) (hp : ∀ a ∈ acts, Plain a) (s : St α) (hr : run (init cap) acts = .ok s) (t : Nat) (hl : s.lock = some t) :
    (s.pc t ≠ .idle ∧ ∀ o r, s.pc t ≠ .done o r) ∧ ∃ m s', m ≤ 4 * cap + 6 ∧ run s (List.replicate m (.step t)) = .ok s' ∧ s'.lock = none := by
  obtain ⟨s2, k, l, h1, h2⟩ := inv_run hc acts (inv_init cap hc) hp
  rw [hr] at h1
  cases h1
  obtain ⟨_, hm⟩ := h2.held t hl
  refine ⟨⟨fun e => by rw [e] at hm; exact hm, fun o r e => by rw [e] at hm; exact hm⟩, ?_⟩
  refine released hc t _ h2 hl ?_
  have bound : ∀ {k l nw nr ns}, Rep cap s.q k l nw nr ns → ns ≤ cap → s.q.sz ≤ cap := fun h h' => by rw [h.sz]; exact h'
  cases hq : s.pc t with
  | check o =>
    rw [hq] at hm
    obtain ⟨_, k', l', _, hr⟩ := hm
    have := bound hr hr.len
    cases o <;> simp only [left] <;> omega
  | destroy o v =>
    rw [hq] at hm
    obtain ⟨k', a, x, _, _, hr⟩ := hm
    have := bound hr hr.len
    cases o <;> simp only [left] <;> omega
  | advR o v =>
    rw [hq] at hm
    obtain ⟨k', a, x, _, _, hlt, hr⟩ := hm
    have : s.q.sz ≤ cap := by rw [hr.sz]; exact hlt
    cases o <;> simp only [left] <;> omega
  | decSize o v =>
    rw [hq] at hm
    obtain ⟨k', a, x, _, _, hlt, hr⟩ := hm
    have : s.q.sz ≤ cap := by rw [hr.sz]; exact hlt
    cases o <;> simp only [left] <;> omega
  | _ => simp only [left]; omega

/-! ## Examples and findings -/

def steps (t n : Nat) : List (Act Nat) := List.replicate n (.step t)
/-- two threads and the interrupt, interleaved: the hypotheses of the theorems are met, and the results are those of a queue -/
example : (match run (init 2) ([.call 0 (.push 5 false), .call 1 (.push 6 false), .step 0, .step 1, .irq .pop] ++ steps 0 6 ++ [.irq .size] ++ List.replicate 4 .istep ++ steps 1 7 ++ [.call 0 .pop, .step 0, .step 1] ++ steps 0 7) with
    | .ok s => (lins s.trace).map (fun p => match p.2 with | .bool b => if b then 1 else 0 | .popped (some v) => 100 + v | .popped none => 100 | .num n => 200 + n | _ => 300)
    | .error _ => []) = [1, 201, 1, 105] := by decide +kernel
/-- `clear` while another thread waits -/
example : (match run (init 3) ([.call 0 (.push 5 false)] ++ steps 0 8 ++ [.call 0 (.push 6 false)] ++ steps 0 8 ++ [.call 0 .clear] ++ steps 0 3 ++ [.call 1 .pop, .step 1] ++ steps 0 8 ++ steps 1 9) with
    | .ok s => some ((lins s.trace).length, s.q.sz, (s.lock).isNone)
    | .error _ => none) = some (4, 0, true) := by decide +kernel

/-- Finding.  If the constructor of the element throws, `push` is left without `unlock`: the lock stays taken, and no other thread will ever get it. -/
theorem throwing_push_keeps_lock (s : St Nat) (h : run (init 2) ([.call 0 (.push 5 true)] ++ steps 0 4) = .ok s) : (match s.pc 0 with | .idle => true | _ => false) = true ∧ s.lock = some 0 := by
  have : run (init 2) ([.call 0 (.push 5 true)] ++ steps 0 4) = .ok
      { q := ⟨2, 0, 0, 0, fun _ => none⟩, lock := some 0, isr := false,
        pc := upd (upd (upd (upd (upd (fun _ => .idle) 0 (.want (.push 5 true))) 0 (.check (.push 5 true))) 0 (.construct 5 true)) 0 .threw) 0 .idle, ipc := .idle, trace := [.inv (some 0) (.push 5 true), .threw (some 0)] } := rfl
  rw [this] at h
  cases h
  exact ⟨rfl, rfl⟩
/-- Finding.  `front` returns a reference and releases the lock: the element can be destroyed by another thread before it is read (and a read at the same time as an access of another thread is a data race). -/
theorem front_reference_dies :
    (match run (init 2) ([.call 0 (.push 5 false)] ++ steps 0 8 ++ [.call 0 .front] ++ steps 0 4 ++ [.call 1 .drop] ++ steps 1 8 ++ [.look 0]) with | .ok _ => none | .error e => some e) = some .deadAccess ∧
    (match run (init 2) ([.call 0 (.push 5 false)] ++ steps 0 8 ++ [.call 0 .front] ++ steps 0 4 ++ [.call 1 .drop] ++ steps 1 2 ++ [.look 0]) with | .ok _ => none | .error e => some e) = some .dataRace := by
  decide +kernel
/-- Finding.  `front` of an empty queue is a reference to a slot without an element. -/
theorem front_of_empty : (match run (init 2) ([.call 0 .front] ++ steps 0 4 ++ [.look 0] : List (Act Nat)) with | .ok _ => none | .error e => some e) = some UB.deadAccess := by decide +kernel
end Etl.Locked
