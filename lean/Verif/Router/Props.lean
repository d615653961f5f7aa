import Verif.Router.Model
import Verif.Algo.Partition
import Mathlib.Tactic.SplitIfs

/-!
# C34, C35: message routers and message buses
-/
namespace Etl.Router

/-! ## C34: chains of routers

A chain is a list of links: routers, and null routers or producers which only pass messages on. -/

inductive Link where
  | router (name id : Nat) (types : List Nat)
  | forward (name id : Nat)
  deriving DecidableEq, Repr

/-- The router handles messages of this type itself. -/
def Link.handles (m : Nat) : Link → Bool
  | .router _ _ ts => decide (m ∈ ts)
  | .forward _ _ => false

def Link.name : Link → Nat
  | .router n _ _ => n
  | .forward n _ => n

def Link.id : Link → Nat
  | .router _ i _ => i
  | .forward _ i => i

/-- The object at the head of a chain whose links are connected by successors. -/
def Link.obj (succ : Option Obj) : Link → Obj
  | .router n i ts => mkRouter n i ts succ
  | .forward n i => mkForward n i succ

def chain : List Link → Option Obj
  | [] => none
  | l :: ls => some (l.obj (chain ls))

/-- Who handles the message: the first router in the chain with a handler for it; if there is none, the last link gets `on_receive_unknown` if it is a router. -/
def delivery (ls : List Link) (m : Nat) : Log :=
  match ls.find? (Link.handles m) with
  | some l => [(l.name, .handled m)]
  | none =>
    match ls.getLast? with
    | some (.router n _ _) => [(n, .unknown m)]
    | _ => []

theorem tryTypes_eq (name m : Nat) (ts : List Nat) : tryTypes name m ts = if m ∈ ts then ([(name, .handled m)], true) else ([], false) := by
  induction ts with
  | nil => rfl
  | cons t ts ih =>
    simp only [tryTypes, ih, List.mem_cons]
    by_cases h : t = m
    · subst h; simp
    · rw [if_neg h]; simp only [Ne.symm h, false_or]

/-- The run time and the compile time dispatch agree. -/
theorem C34_static_dispatch (name : Nat) (ts : List Nat) (succ : Option Obj) (m : Nat) : routerRecvStatic name ts succ m = routerRecv name ts succ m := by
  simp only [routerRecvStatic, routerRecv, tryTypes_eq]
  split_ifs <;> simp_all

/-- **C34.**  A message sent to the head of any chain of routers is handled exactly once, by the first router with a handler for it; when no router has one,
the last router's `on_receive_unknown` is called, once. -/
theorem C34_chain (l : Link) (ls : List Link) (m : Nat) : ((l.obj (chain ls)).recv m) = .ok (delivery (l :: ls) m) := by
  induction ls generalizing l with
  | nil =>
    cases l with
    | router n i ts =>
      simp only [Link.obj, mkRouter, routerRecv, tryTypes_eq, chain, delivery, List.find?_cons, Link.handles, passOn]
      by_cases h : m ∈ ts <;> simp [h, Link.name]
    | forward n i => rfl
  | cons k ls ih =>
    cases l with
    | router n i ts =>
      show routerRecv n ts (some (k.obj (chain ls))) m = _
      simp only [routerRecv, tryTypes_eq, passOn]
      by_cases h : m ∈ ts
      · simp [h, delivery, List.find?_cons, Link.handles, Link.name]
      · simp only [h, if_false, Bool.not_false, if_true, ih k]
        have hn : Link.handles m (.router n i ts) = false := by simp [Link.handles, h]
        simp [delivery, List.find?_cons, hn]
    | forward n i =>
      show (k.obj (chain ls)).recv m = _
      rw [ih k]
      have hn : Link.handles m (.forward n i) = false := rfl
      simp [delivery, List.find?_cons, hn]

/-- At most one handler call, whatever the chain. -/
theorem C34_exactly_once (l : Link) (ls : List Link) (m : Nat) :
    ∃ log, (l.obj (chain ls)).recv m = .ok log ∧ log.length ≤ 1 ∧ (l ≠ .forward l.name l.id → ls = [] → log.length = 1) := by
  refine ⟨_, C34_chain l ls m, ?_, ?_⟩
  · unfold delivery; split
    · simp
    · split <;> simp
  · intro hl hls; subst hls
    cases l with
    | router n i ts =>
      unfold delivery
      by_cases h : m ∈ ts <;> simp [List.find?_cons, Link.handles, h]
    | forward n i => exact absurd rfl hl

/-- Every router of the chain has at least one message type. -/
def TypesNonempty (ls : List Link) : Prop := ∀ n i ts, Link.router n i ts ∈ ls → ts ≠ []

theorem acceptsTypes_eq (succ : Option Obj) (m : Nat) (ts : List Nat) :
    acceptsTypes succ m ts = (decide (m ∈ ts) || (decide (ts ≠ []) && (match succ with | some s => s.accepts m | none => false))) := by
  induction ts with
  | nil => simp [acceptsTypes]
  | cons t ts ih =>
    simp only [acceptsTypes, ih, List.mem_cons]
    by_cases h : t = m
    · subst h; simp
    · rw [if_neg h]
      cases succ with
      | none => simp [Ne.symm h]
      | some s => cases hs : s.accepts m <;> simp [hs, Ne.symm h]

/-- **C34**: `accepts` predicts delivery: it says yes exactly when some router of the chain will handle the message. -/
theorem C34_accepts (l : Link) (ls : List Link) (m : Nat) (hne : TypesNonempty (l :: ls)) :
    ((l.obj (chain ls)).accepts m = true ↔ ∃ k ∈ l :: ls, k.handles m = true) ∧
    ((l.obj (chain ls)).accepts m = true ↔ ∃ n, (l.obj (chain ls)).recv m = .ok [(n, .handled m)]) := by
  have key : ∀ (ls : List Link) (l : Link), TypesNonempty (l :: ls) → ((l.obj (chain ls)).accepts m = true ↔ ∃ k ∈ l :: ls, k.handles m = true) := by
    intro ls
    induction ls with
    | nil =>
      intro l _
      cases l with
      | router n i ts => simp [Link.obj, mkRouter, acceptsTypes_eq, chain, Link.handles]
      | forward n i => simp [Link.obj, mkForward, forwardAccepts, chain, Link.handles]
    | cons k ls ih =>
      intro l hne
      have ih := ih k (fun n i ts h => hne n i ts (List.mem_cons_of_mem _ h))
      cases l with
      | router n i ts =>
        have h0 := hne n i ts (by simp)
        show acceptsTypes (some (k.obj (chain ls))) m ts = true ↔ _
        have hn : Link.handles m (.router n i ts) = decide (m ∈ ts) := rfl
        rw [acceptsTypes_eq]
        simp only [h0, ne_eq, not_false_eq_true, decide_true, Bool.true_and, Bool.or_eq_true, ih, ]
        simp only [List.mem_cons (a := _) (b := Link.router n i ts)]
        constructor
        · rintro (h | ⟨x, hx, hh⟩)
          · exact ⟨_, .inl rfl, by rw [hn]; exact h⟩
          · exact ⟨x, .inr hx, hh⟩
        · rintro ⟨x, rfl | hx, hh⟩
          · left; rw [hn] at hh; exact hh
          · exact .inr ⟨x, hx, hh⟩
      | forward n i =>
        show (k.obj (chain ls)).accepts m = true ↔ _
        have hn : Link.handles m (.forward n i) = false := rfl
        rw [ih]
        constructor
        · rintro ⟨x, hx, hh⟩; exact ⟨x, List.mem_cons_of_mem _ hx, hh⟩
        · rintro ⟨x, hx, hh⟩
          rcases List.mem_cons.1 hx with rfl | hx
          · rw [hn] at hh; cases hh
          · exact ⟨x, hx, hh⟩
  refine ⟨key ls l hne, (key ls l hne).trans ?_⟩
  rw [C34_chain]
  unfold delivery
  constructor
  · rintro ⟨k, hk, hh⟩
    cases hf : (l :: ls).find? (Link.handles m) with
    | none => rw [List.find?_eq_none] at hf; exact absurd hh (hf k hk)
    | some x => exact ⟨x.name, rfl⟩
  · rintro ⟨n, hn⟩
    cases hf : (l :: ls).find? (Link.handles m) with
    | none =>
      rw [hf] at hn
      simp only at hn
      split at hn <;> simp at hn
    | some x => exact ⟨x, List.mem_of_find?_eq_some hf, List.find?_some hf⟩

/-- **C34**, addressed messages: a router takes the ones addressed to its own id or to everybody, and ignores the others. -/
theorem C34_addressed (l : Link) (ls : List Link) (d m : Nat) :
    (l.obj (chain ls)).recvTo d m = .ok (if d = l.id ∨ d = ALL_MESSAGE_ROUTERS then delivery (l :: ls) m else []) := by
  have e : (l.obj (chain ls)).recvTo d m = baseRecvTo l.id (l.obj (chain ls)).recv d m := by cases l <;> rfl
  rw [e, baseRecvTo, C34_chain]
  split_ifs <;> rfl

/-! ### Building chains (successor.h) -/

/-- Successor pointers of router objects, by address. -/
abbrev Succs := Nat → Option Nat

/-- `append_successor`, successor.h l.113-123: walk to the end and set the successor there. Running out of fuel: a cycle. -/
def appendSuccessor (h : Succs) (s : Nat) : Nat → Nat → Res Succs
  | 0, _ => .error .diverge
  | fuel + 1, r =>
    match h r with
    | some r' => appendSuccessor h s fuel r'
    | none => .ok (upd h r (some s))

/-- `clear_successor_chain`, successor.h l.160-167: the recursion comes first, then this link is cleared. -/
def clearChain (h : Succs) : Nat → Nat → Res Succs
  | 0, _ => .error .diverge
  | fuel + 1, r =>
    match h r with
    | some r' => do
      let h ← clearChain h fuel r'
      .ok (upd h r none)
    | none => .ok h

/-- The successors of `r`, in order, are `rs`, and the chain ends. -/
def IsChain (h : Succs) : Nat → List Nat → Prop
  | r, [] => h r = none
  | r, s :: rs => h r = some s ∧ IsChain h s rs

theorem isChain_upd {h : Succs} {x : Nat} {v : Option Nat} : ∀ {rs : List Nat} {r : Nat}, x ∉ r :: rs → IsChain h r rs → IsChain (upd h x v) r rs
  | [], r, hx, hc => by
    simp at hx
    simp only [IsChain] at hc ⊢
    rw [upd_other _ _ (Ne.symm hx)]; exact hc
  | s :: rs, r, hx, hc => by
    simp at hx
    obtain ⟨h1, h2⟩ := hc
    exact ⟨by rw [upd_other _ _ (Ne.symm hx.1)]; exact h1, isChain_upd (by simpa using hx.2) h2⟩

/-- **C34**: `append_successor` puts the new router at the end of the chain and leaves the order of the others. -/
theorem C34_append_successor (s : Nat) (rs : List Nat) : ∀ (h : Succs) (r fuel : Nat), IsChain h r rs → (r :: rs).Nodup → s ∉ r :: rs → h s = none → rs.length < fuel →
    ∃ h', appendSuccessor h s fuel r = .ok h' ∧ IsChain h' r (rs ++ [s]) ∧ ∀ x, x ∉ r :: rs → h' x = h x := by
  induction rs with
  | nil =>
    intro h r fuel hc _ hs hn hf
    obtain ⟨fuel, rfl⟩ : ∃ f, fuel = f + 1 := ⟨fuel - 1, by simp at hf; omega⟩
    simp at hs
    simp only [IsChain] at hc
    refine ⟨upd h r (some s), by simp [appendSuccessor, hc], ⟨by simp, ?_⟩, ?_⟩
    · simp only [IsChain]; rw [upd_other _ _ hs]; exact hn
    · intro x hx; simp at hx; rw [upd_other _ _ hx]
  | cons k rs ih =>
    intro h r fuel hc hnd hs hn hf
    obtain ⟨fuel, rfl⟩ : ∃ f, fuel = f + 1 := ⟨fuel - 1, by simp at hf; omega⟩
    obtain ⟨h1, h2⟩ := hc
    rw [List.nodup_cons] at hnd
    obtain ⟨h', e, hc', hfr⟩ := ih h k fuel h2 hnd.2 (fun hm => hs (List.mem_cons_of_mem _ hm)) hn (by simpa using hf)
    refine ⟨h', by simp only [appendSuccessor, h1]; exact e, ⟨?_, hc'⟩, fun x hx => hfr x (fun hm => hx (List.mem_cons_of_mem _ hm))⟩
    rw [hfr r hnd.1]; exact h1

/-- **C34**: `clear_successor_chain` leaves every router of the chain without a successor. -/
theorem C34_clear_chain (rs : List Nat) : ∀ (h : Succs) (r fuel : Nat), IsChain h r rs → rs.length < fuel →
    ∃ h', clearChain h fuel r = .ok h' ∧ ∀ x, h' x = if x ∈ r :: rs then none else h x := by
  induction rs with
  | nil =>
    intro h r fuel hc hf
    obtain ⟨fuel, rfl⟩ : ∃ f, fuel = f + 1 := ⟨fuel - 1, by simp at hf; omega⟩
    simp only [IsChain] at hc
    refine ⟨h, by simp [clearChain, hc], fun x => ?_⟩
    by_cases hx : x = r
    · subst hx; simp [hc]
    · simp [hx]
  | cons k rs ih =>
    intro h r fuel hc hf
    obtain ⟨fuel, rfl⟩ : ∃ f, fuel = f + 1 := ⟨fuel - 1, by simp at hf; omega⟩
    obtain ⟨h1, h2⟩ := hc
    obtain ⟨h', e, hh⟩ := ih h k fuel h2 (by simpa using hf)
    refine ⟨upd h' r none, by simp [clearChain, h1, e, bind, Except.bind], fun x => ?_⟩
    by_cases hx : x = r
    · subst hx; simp
    · rw [upd_other _ _ hx, hh]; simp [hx]

example : delivery [.router 1 0 [10], .forward 2 255, .router 3 7 [20, 30]] 30 = [(3, .handled 30)] := by decide +kernel
example : delivery [.router 1 0 [10], .forward 2 255, .router 3 7 [20, 30]] 99 = [(3, .unknown 99)] := by decide +kernel
example : TypesNonempty [.router 1 0 [10], .forward 2 255, .router 3 7 [20, 30]] := by
  intro n i ts h; simp at h; rcases h with ⟨_, _, rfl⟩ | ⟨_, _, rfl⟩ <;> simp

/-! ## C35: subscriptions -/

inductive SubOp (α : Type) where
  | subscribe (r : α)
  | unsubscribeId (id : Nat)
  | unsubscribe (addr : Nat)
  deriving Repr

section
variable {α : Type} (key addr : α → Nat) (consumer : α → Bool)

/-- the code -/
def subStep (cap : Nat) (l : List α) : SubOp α → Res (List α × Bool)
  | .subscribe r => subscribe key consumer cap l r
  | .unsubscribeId id => do .ok (← unsubscribeId key l id, true)
  | .unsubscribe a => .ok (unsubscribe addr l a, true)

def subRun (cap : Nat) (l : List α) : List (SubOp α) → Res (List α × List Bool)
  | [] => .ok (l, [])
  | o :: os => do
    let (l, b) ← subStep key addr consumer cap l o
    let (l, bs) ← subRun cap l os
    .ok (l, b :: bs)

/-- Specification: the subscriptions as a list in the order they were made. -/
def subSpec (cap : Nat) (l : List α) : SubOp α → List α × Bool
  | .subscribe r => if consumer r then (if l.length < cap then (l ++ [r], true) else (l, false)) else (l, true)
  | .unsubscribeId id => (if id = ALL_MESSAGE_ROUTERS then [] else l.filter (fun x => decide (key x ≠ id)), true)
  | .unsubscribe a => (unsubscribe addr l a, true)

def subSpecRun (cap : Nat) (l : List α) : List (SubOp α) → List α × List Bool
  | [] => (l, [])
  | o :: os =>
    let (l, b) := subSpec key addr consumer cap l o
    let (l, bs) := subSpecRun cap l os
    (l, b :: bs)

/-- `l` lists the subscriptions `s` in ascending id order, those with equal id in the order they were made. -/
structure SortedView (l s : List α) : Prop where
  sorted : l.Pairwise (fun x y => key x ≤ key y)
  same : ∀ k, l.filter (fun x => decide (key x = k)) = s.filter (fun x => decide (key x = k))
  length : l.length = s.length
  mem : ∀ x, x ∈ l ↔ x ∈ s

end

section
variable {α : Type} {key addr : α → Nat} {consumer : α → Bool}

theorem length_of_same {l s : List α} (h : ∀ k, l.filter (fun x => decide (key x = k)) = s.filter (fun x => decide (key x = k))) : l.length = s.length := by
  have mem1 : ∀ x, x ∈ l → x ∈ s := fun x hx => by
    have : x ∈ l.filter (fun y => decide (key y = key x)) := by simp [hx]
    rw [h] at this; exact (List.mem_filter.1 this).1
  -- count by key, for all keys below a bound
  have key' : ∀ (n : Nat) (l s : List α), (∀ k, l.filter (fun x => decide (key x = k)) = s.filter (fun x => decide (key x = k))) →
      (l.filter (fun x => decide (key x < n))).length = (s.filter (fun x => decide (key x < n))).length := by
    intro n
    induction n with
    | zero =>
      intro l s _
      rw [List.filter_eq_nil_iff.2 (by simp), List.filter_eq_nil_iff.2 (by simp)]
    | succ n ih =>
      intro l s h
      have e : ∀ l : List α, (l.filter (fun x => decide (key x < n + 1))).length = (l.filter (fun x => decide (key x < n))).length + (l.filter (fun x => decide (key x = n))).length := by
        intro l
        induction l with
        | nil => rfl
        | cons a l ih =>
          simp only [List.filter_cons]
          by_cases h1 : key a < n
          · simp [h1, show key a < n + 1 by omega, show ¬ key a = n by omega, ih]; omega
          · by_cases h2 : key a = n
            · simp [h2, ih]; omega
            · simp [h1, h2, show ¬ key a < n + 1 by omega, ih]
      rw [e, e, ih l s h, h n]
  obtain ⟨n, hn⟩ : ∃ n, ∀ x ∈ l ++ s, key x < n := by
    generalize l ++ s = t
    induction t with
    | nil => exact ⟨0, by simp⟩
    | cons a t ih =>
      obtain ⟨n, hn⟩ := ih
      refine ⟨n + key a + 1, fun x hx => ?_⟩
      rcases List.mem_cons.1 hx with rfl | hx
      · omega
      · have := hn x hx; omega
  have := key' n l s h
  rwa [List.filter_eq_self.2 (fun x hx => by simpa using hn x (by simp [hx])), List.filter_eq_self.2 (fun x hx => by simpa using hn x (by simp [hx]))] at this

theorem SortedView.mk' {l s : List α} (h1 : l.Pairwise (fun x y => key x ≤ key y))
    (h2 : ∀ k, l.filter (fun x => decide (key x = k)) = s.filter (fun x => decide (key x = k))) : SortedView key l s := by
  refine ⟨h1, h2, length_of_same h2, fun x => ?_⟩
  have e : ∀ t : List α, x ∈ t ↔ x ∈ t.filter (fun y => decide (key y = key x)) := fun t => by simp
  rw [e l, e s, h2]

theorem unsubscribe_sublist (l : List α) (a : Nat) : (unsubscribe addr l a).Sublist l := by
  induction l with
  | nil => exact List.Sublist.refl _
  | cons x xs ih =>
    simp only [unsubscribe]; split_ifs
    · exact List.sublist_cons_self _ _
    · exact ih.cons_cons x

/-- Addresses identify objects: the same address means the same object. -/
def AddrInj (addr : α → Nat) (l : List α) : Prop := ∀ x ∈ l, ∀ y ∈ l, addr x = addr y → x = y

theorem unsubscribe_filter (l : List α) (a k : Nat) (hk : ∀ x ∈ l, addr x = a → key x = k) :
    (unsubscribe addr l a).filter (fun x => decide (key x = k)) = unsubscribe addr (l.filter (fun x => decide (key x = k))) a ∧
    ∀ k', k' ≠ k → (unsubscribe addr l a).filter (fun x => decide (key x = k')) = l.filter (fun x => decide (key x = k')) := by
  induction l with
  | nil => exact ⟨rfl, fun _ _ => rfl⟩
  | cons x xs ih =>
    obtain ⟨i1, i2⟩ := ih (fun y hy => hk y (List.mem_cons_of_mem _ hy))
    simp only [unsubscribe]
    by_cases hx : addr x = a
    · have hkx := hk x (by simp) hx
      rw [if_pos hx]
      refine ⟨by simp [List.filter_cons, hkx, unsubscribe, hx], fun k' hk' => ?_⟩
      rw [List.filter_cons, if_neg (by simp [hkx]; exact Ne.symm hk')]
    · rw [if_neg hx]
      refine ⟨?_, fun k' hk' => by simp only [List.filter_cons, i2 k' hk']⟩
      simp only [List.filter_cons]
      split_ifs with h
      · simp [unsubscribe, hx, i1]
      · exact i1

theorem unsubscribe_noop (l : List α) (a : Nat) (h : ∀ x ∈ l, addr x ≠ a) : unsubscribe addr l a = l := by
  induction l with
  | nil => rfl
  | cons x xs ih =>
    simp only [unsubscribe]
    rw [if_neg (h x (by simp)), ih (fun y hy => h y (List.mem_cons_of_mem _ hy))]

theorem subStep_inv {cap : Nat} {l s : List α} (h : SortedView key l s) (hlen : s.length ≤ cap) (ha : ∀ x y, addr x = addr y → key x = key y) (o : SubOp α) :
    ∃ l', subStep key addr consumer cap l o = .ok (l', (subSpec key addr consumer cap s o).2) ∧ SortedView key l' (subSpec key addr consumer cap s o).1 ∧
      (subSpec key addr consumer cap s o).1.length ≤ cap := by
  cases o with
  | subscribe r =>
    simp only [subStep, subscribe, subSpec]
    by_cases hc : consumer r = true
    · simp only [hc, if_true]
      by_cases hf : l.length = cap
      · rw [if_pos hf, if_neg (by rw [← h.length]; omega)]
        exact ⟨l, rfl, h, hlen⟩
      · have hlt : s.length < cap := by have := h.length; omega
        rw [if_neg hf, if_pos hlt]
        obtain ⟨i, e, hi, ht, hd⟩ := Algo.upperBound_filter l (key r) (fun id x => decide (id < key x)) (h.sorted.imp (by intro y z hyz; simp; omega))
        rw [e]
        refine ⟨l.take i ++ [r] ++ l.drop i, rfl, ?_, by simp; omega⟩
        apply SortedView.mk'
        · rw [List.append_assoc, List.pairwise_append]
          refine ⟨h.sorted.sublist (List.take_sublist _ _), ?_, ?_⟩
          · rw [List.singleton_append, List.pairwise_cons]
            refine ⟨fun y hy => ?_, h.sorted.sublist (List.drop_sublist _ _)⟩
            rw [hd, List.mem_filter] at hy
            have := hy.2; simp at this; omega
          · intro x hx y hy
            rw [List.singleton_append, List.mem_cons] at hy
            rw [ht, List.mem_filter] at hx
            have hx2 := hx.2; simp at hx2
            rcases hy with rfl | hy
            · exact hx2
            · rw [hd, List.mem_filter] at hy
              have := hy.2; simp at this; omega
        · intro k
          have hs := h.same k
          have hsplit : l.filter (fun x => decide (key x = k)) = (l.take i).filter (fun x => decide (key x = k)) ++ (l.drop i).filter (fun x => decide (key x = k)) := by
            rw [← List.filter_append, List.take_append_drop]
          simp only [List.filter_append]
          by_cases hk : key r = k
          · have : (l.drop i).filter (fun x => decide (key x = k)) = [] := by
              rw [List.filter_eq_nil_iff]
              intro x hx
              rw [hd, List.mem_filter] at hx
              have := hx.2; simp at this ⊢; omega
            rw [this] at hsplit ⊢
            rw [← hs, hsplit]; simp
          · have hr : [r].filter (fun x => decide (key x = k)) = [] := by simp [hk]
            rw [hr, List.append_nil, List.append_nil, ← hsplit, hs]
    · simp only [hc]
      exact ⟨l, rfl, h, hlen⟩
  | unsubscribeId id =>
    simp only [subStep, unsubscribeId, subSpec]
    by_cases hall : id = ALL_MESSAGE_ROUTERS
    · rw [if_pos hall, if_pos hall]
      exact ⟨[], rfl, SortedView.mk' (by simp) (by simp), by simp⟩
    · rw [if_neg hall, if_neg hall]
      obtain ⟨a, b, e, hab, hb, h1, h2, h3⟩ := Algo.equalRange_key l key id h.sorted
      rw [e]
      refine ⟨l.take a ++ l.drop b, rfl, ?_, Nat.le_trans (List.length_filter_le _ _) hlen⟩
      have el : l.take a ++ l.drop b = l.filter (fun x => decide (key x ≠ id)) := by
        have hl : l = l.take a ++ ((l.take b).drop a ++ l.drop b) := by
          conv => lhs; rw [← List.take_append_drop b l]
          conv => lhs; lhs; rw [← List.take_append_drop a (l.take b), List.take_take, Nat.min_eq_left hab]
          rw [List.append_assoc]
        conv => rhs; rw [hl]
        rw [List.filter_append, List.filter_append]
        have g1 : (l.take a).filter (fun x => decide (key x ≠ id)) = l.take a := by
          rw [List.filter_eq_self]; intro x hx; rw [h1, List.mem_filter] at hx; have := hx.2; simp at this ⊢; omega
        have g2 : ((l.take b).drop a).filter (fun x => decide (key x ≠ id)) = [] := by
          rw [List.filter_eq_nil_iff]; intro x hx; rw [h2, List.mem_filter] at hx; have := hx.2; simp at this ⊢; omega
        have g3 : (l.drop b).filter (fun x => decide (key x ≠ id)) = l.drop b := by
          rw [List.filter_eq_self]; intro x hx; rw [h3, List.mem_filter] at hx; have := hx.2; simp at this ⊢; omega
        rw [g1, g2, g3]; rfl
      rw [el]
      apply SortedView.mk' (h.sorted.filter _)
      intro k
      rw [List.filter_filter, List.filter_filter]
      by_cases hk : k = id
      · subst hk
        rw [List.filter_eq_nil_iff.2, List.filter_eq_nil_iff.2]
        · intro x _; simp
        · intro x _; simp
      · have e : ∀ t : List α, t.filter (fun x => decide (key x = k) && decide (key x ≠ id)) = t.filter (fun x => decide (key x = k)) := by
          intro t; apply List.filter_congr; intro x _; by_cases hx : key x = k <;> simp [hx]; exact hk
        rw [e, e, h.same]
  | unsubscribe a =>
    simp only [subStep, subSpec]
    refine ⟨_, rfl, ?_, Nat.le_trans (unsubscribe_sublist s a).length_le hlen⟩
    apply SortedView.mk' (h.sorted.sublist (unsubscribe_sublist l a))
    by_cases hex : ∃ x ∈ l, addr x = a
    · obtain ⟨x0, hx0, hax⟩ := hex
      have hk : ∀ x, addr x = a → key x = key x0 := fun x hx => ha x x0 (hx.trans hax.symm)
      obtain ⟨p1, p2⟩ := unsubscribe_filter (key := key) (addr := addr) l a (key x0) (fun x _ hx => hk x hx)
      obtain ⟨q1, q2⟩ := unsubscribe_filter (key := key) (addr := addr) s a (key x0) (fun x _ hx => hk x hx)
      intro k
      by_cases hkk : k = key x0
      · rw [hkk, p1, q1, h.same]
      · rw [p2 k hkk, q2 k hkk, h.same]
    · have hex' : ∀ x ∈ l, addr x ≠ a := fun x hx e => hex ⟨x, hx, e⟩
      intro k
      rw [unsubscribe_noop l a hex', unsubscribe_noop s a (fun x hx => hex' x ((h.mem x).2 hx)), h.same]

end

/-- **C35**, subscriptions: after any history the bus holds exactly the current subscriptions, in ascending id order and in order of subscription within one id;
`subscribe` fails exactly when the bus is full; and there is no undefined behaviour. -/
theorem C35_subscriptions {α : Type} (key addr : α → Nat) (consumer : α → Bool) (cap : Nat) (ha : ∀ x y, addr x = addr y → key x = key y) (os : List (SubOp α)) :
    ∃ l, subRun key addr consumer cap [] os = .ok (l, (subSpecRun key addr consumer cap [] os).2) ∧
      SortedView key l (subSpecRun key addr consumer cap [] os).1 ∧ l.length ≤ cap := by
  have key' : ∀ (os : List (SubOp α)) (l s : List α), SortedView key l s → s.length ≤ cap →
      ∃ l', subRun key addr consumer cap l os = .ok (l', (subSpecRun key addr consumer cap s os).2) ∧ SortedView key l' (subSpecRun key addr consumer cap s os).1 ∧ l'.length ≤ cap := by
    intro os
    induction os with
    | nil => intro l s h hl; exact ⟨l, rfl, h, by rw [h.length]; exact hl⟩
    | cons o os ih =>
      intro l s h hl
      obtain ⟨l1, e1, h1, hl1⟩ := subStep_inv (consumer := consumer) h hl ha o
      obtain ⟨l2, e2, h2, hl2⟩ := ih _ _ h1 hl1
      exact ⟨l2, by simp [subRun, e1, e2, subSpecRun, bind, Except.bind], h2, hl2⟩
  exact key' os [] [] (SortedView.mk' (by simp) (by simp)) (by simp)

/-! ## C35: delivery -/

/-- Networks of routers, forwarders and buses. -/
inductive Tree where
  | router (name id : Nat) (types : List Nat) (succ : Option Tree)
  | forward (name id : Nat) (succ : Option Tree)
  | bus (name : Nat) (subs : List Tree) (succ : Option Tree)

theorem Tree.ind {P : Tree → Prop} (hr : ∀ n i ts succ, (∀ s, succ = some s → P s) → P (.router n i ts succ))
    (hf : ∀ n i succ, (∀ s, succ = some s → P s) → P (.forward n i succ))
    (hb : ∀ n subs succ, (∀ s ∈ subs, P s) → (∀ s, succ = some s → P s) → P (.bus n subs succ)) : ∀ t, P t := by
  intro t
  refine Tree.rec (motive_1 := P) (motive_2 := fun o => ∀ s, o = some s → P s) (motive_3 := fun l => ∀ s ∈ l, P s) ?_ ?_ ?_ ?_ ?_ ?_ ?_ t
  · intro n i ts succ h; exact hr n i ts succ h
  · intro n i succ h; exact hf n i succ h
  · intro n subs succ h1 h2; exact hb n subs succ h1 h2
  · intro s h; cases h
  · intro v hv s h; cases h; exact hv
  · intro s h; cases h
  · intro x xs hx hxs s h
    rcases List.mem_cons.1 h with rfl | h
    · exact hx
    · exact hxs s h

/-! The objects a network stands for. -/
mutual
def den : Tree → Obj
  | .router n i ts succ => mkRouter n i ts (denO succ)
  | .forward n i succ => mkForward n i (denO succ)
  | .bus n subs succ => mkBus n (denL subs) (denO succ)
def denO : Option Tree → Option Obj
  | none => none
  | some t => some (den t)
def denL : List Tree → List Obj
  | [] => []
  | t :: ts => den t :: denL ts
end

/-! The members of a network: the routers and forwarders that can be reached through buses, nested buses last (they have the highest id). -/
mutual
def members : Tree → List Tree
  | .router n i ts succ => [.router n i ts succ]
  | .forward n i succ => [.forward n i succ]
  | .bus _ subs succ => membersL subs ++ membersO succ
def membersO : Option Tree → List Tree
  | none => []
  | some t => members t
def membersL : List Tree → List Tree
  | [] => []
  | t :: ts => members t ++ membersL ts
end

theorem denL_map (ts : List Tree) : denL ts = ts.map den := by
  induction ts with
  | nil => rfl
  | cons t ts ih => simp [denL, ih]
theorem membersL_flatMap (ts : List Tree) : membersL ts = ts.flatMap members := by
  induction ts with
  | nil => rfl
  | cons t ts ih => simp [membersL, ih]

/-- Well formed: constructor asserts on ids hold, routers have message types, a bus is subscribed to only by consumers and its list is in id order
(`C35_subscriptions`). -/
inductive WF : Tree → Prop
  | router {n i ts succ} : legalId i = true → ts ≠ [] → (∀ s, succ = some s → WF s) → WF (.router n i ts succ)
  | forward {n i succ} : i ≠ MESSAGE_BUS → (∀ s, succ = some s → WF s) → WF (.forward n i succ)
  | bus {n subs succ} : (∀ s ∈ subs, WF s) → (∀ s ∈ subs, (den s).consumer = true) → subs.Pairwise (fun x y => (den x).id ≤ (den y).id) →
      (∀ s, succ = some s → WF s) → WF (.bus n subs succ)

/-- Results of several calls in a row. -/
def collect : List (Res Log) → Res Log
  | [] => .ok []
  | x :: xs =>
    match x with
    | .error u => .error u
    | .ok a => match collect xs with
      | .error u => .error u
      | .ok b => .ok (a ++ b)

theorem collect_append (a b : List (Res Log)) :
    collect (a ++ b) = (match collect a with | .error u => .error u | .ok x => match collect b with | .error u => .error u | .ok y => .ok (x ++ y)) := by
  induction a with
  | nil => simp only [List.nil_append, collect]; cases collect b <;> rfl
  | cons x xs ih =>
    simp only [List.cons_append, collect, ih]
    cases x with
    | error u => rfl
    | ok v =>
      cases collect xs with
      | error u => rfl
      | ok w => cases collect b <;> simp

theorem collect_singleton (x : Res Log) : collect [x] = x := by cases x <;> simp [collect]

def isBus : Tree → Bool
  | .bus _ _ _ => true
  | _ => false

/-- The calls made to the members that accept `m` and satisfy `p`. -/
def calls (m : Nat) (p : Obj → Bool) (ts : List Tree) : List (Res Log) :=
  ((ts.filter (fun t => p (den t) && (den t).accepts m)).map (fun t => (den t).recv m))

theorem calls_append (m : Nat) (p : Obj → Bool) (a b : List Tree) : calls m p (a ++ b) = calls m p a ++ calls m p b := by simp [calls]

theorem broadcast_collect (m : Nat) (os : List Obj) : broadcast m os = collect ((os.map (offer m))) := by
  induction os with
  | nil => rfl
  | cons o os ih =>
    simp only [broadcast, List.map_cons, collect, ih]
    cases hx : offer m o with
    | error u => simp [bind, Except.bind]
    | ok a => simp only [bind, Except.bind]; cases collect _ <;> rfl

theorem callRange_collect (subs : List Obj) (m : Nat) : ∀ (n i : Nat), i + n ≤ subs.length →
    callRange subs m i n = collect ((((subs.take (i + n)).drop i).map (offer m))) := by
  intro n
  induction n with
  | zero => intro i h; simp [callRange, collect]
  | succ n ih =>
    intro i h
    have hi : i < subs.length := by omega
    have e : (subs.take (i + (n + 1))).drop i = subs[i] :: (subs.take (i + 1 + n)).drop (i + 1) := by
      rw [List.drop_eq_getElem_cons (by simp; omega)]
      simp only [List.getElem_take, show i + (n + 1) = i + 1 + n by omega]
    rw [callRange, List.getElem?_eq_getElem hi, e]
    simp only [List.map_cons, collect, ih (i + 1) (by omega)]
    cases hx : offer m subs[i] with
    | error u => simp [bind, Except.bind]
    | ok a => simp only [bind, Except.bind]; cases collect _ <;> rfl

theorem callBuses_collect (d m : Nat) (os : List Obj) : callBuses d m os = collect (os.map (fun o => o.recvTo d m)) := by
  induction os with
  | nil => rfl
  | cons o os ih =>
    simp only [callBuses, List.map_cons, collect, ih]
    cases o.recvTo d m with
    | error u => simp [bind, Except.bind]
    | ok a => simp only [bind, Except.bind]; cases collect _ <;> rfl

/-- a call made under a condition equals the calls it stands for, element by element -/
theorem collect_map_congr (ts : List Tree) (f : Tree → Res Log) (g : Tree → List (Res Log)) (h : ∀ t ∈ ts, f t = collect (g t)) :
    collect (ts.map f) = collect (ts.flatMap g) := by
  induction ts with
  | nil => rfl
  | cons t ts ih =>
    rw [List.flatMap_cons, collect_append, List.map_cons]
    simp only [collect]
    rw [h t (by simp), ih (fun t ht => h t (List.mem_cons_of_mem _ ht))]

theorem calls_flatMap (m : Nat) (p : Obj → Bool) (ts : List Tree) : calls m p (ts.flatMap members) = ts.flatMap (fun t => calls m p (members t)) := by
  induction ts with
  | nil => rfl
  | cons t ts ih => simp [List.flatMap_cons, calls_append, ih]

theorem busAccepts_eq (subs : List Obj) (succ : Option Obj) (m : Nat) :
    busAccepts subs succ m = (subs.any (fun o => o.accepts m) || (match succ with | some s => s.accepts m | none => false)) := by
  induction subs with
  | nil => cases succ <;> rfl
  | cons o os ih => simp only [busAccepts, ih, List.any_cons]; cases o.accepts m <;> simp

theorem accepts_members : ∀ t, WF t → ∀ m, (den t).accepts m = (members t).any (fun x => (den x).accepts m) := by
  refine Tree.ind ?_ ?_ ?_
  · intro n i ts succ _ _ m; simp [members]
  · intro n i succ _ _ m; simp [members]
  · intro n subs succ hs ho hw m
    cases hw with
    | bus w1 w2 w3 w4 =>
      simp only [den, mkBus, busAccepts_eq, members, List.any_append]
      congr 1
      · rw [denL_map, membersL_flatMap, List.any_map]
        clear w3 ho w4
        induction subs with
        | nil => rfl
        | cons t ts ih =>
          simp only [List.any_cons, Function.comp, List.flatMap_cons, List.any_append]
          rw [hs t (by simp) (w1 t (by simp))]
          congr 1
          exact ih (fun s h => hs s (List.mem_cons_of_mem _ h)) (fun s h => w1 s (List.mem_cons_of_mem _ h)) (fun s h => w2 s (List.mem_cons_of_mem _ h))
      · cases succ with
        | none => simp [denO, membersO]
        | some s => simp only [denO, membersO]; exact ho s rfl (w4 s rfl) m

theorem calls_nil_of_not_accepts {t : Tree} (hw : WF t) {m : Nat} (h : (den t).accepts m = false) (p : Obj → Bool) : calls m p (members t) = [] := by
  rw [accepts_members t hw] at h
  rw [List.any_eq_false] at h
  unfold calls
  rw [List.filter_eq_nil_iff.2, List.map_nil]
  intro x hx
  simp [h x hx]

/-- The whole story of delivery, for one network. -/
structure Delivers (t : Tree) : Prop where
  /-- a broadcast -/
  all : ∀ m, (if (den t).accepts m then (den t).recv m else .ok []) = collect (calls m (fun _ => true) (members t))
  /-- `recvTo ALL` is the same as `recv` -/
  allTo : ∀ m, (den t).recvTo ALL_MESSAGE_ROUTERS m = (den t).recv m
  /-- addressed -/
  to : ∀ d m, d ≠ ALL_MESSAGE_ROUTERS → d ≠ MESSAGE_BUS → (if (den t).accepts m then (den t).recvTo d m else .ok []) = collect (calls m (fun o => decide (o.id = d)) (members t))
  /-- a bus does not need to be asked first -/
  busTo : ∀ d m, d ≠ ALL_MESSAGE_ROUTERS → d ≠ MESSAGE_BUS → isBus t = true → (den t).recvTo d m = collect (calls m (fun o => decide (o.id = d)) (members t))
  busAll : ∀ m, isBus t = true → (den t).recv m = collect (calls m (fun _ => true) (members t))

theorem leaf_delivers {t : Tree} (hm : members t = [t]) (hb : isBus t = false) (hto : ∀ d m, (den t).recvTo d m = baseRecvTo (den t).id (den t).recv d m) : Delivers t := by
  refine ⟨?_, ?_, ?_, ?_, ?_⟩
  · intro m
    rw [hm]; simp only [calls, List.filter_cons, Bool.true_and, List.filter_nil]
    by_cases h : (den t).accepts m = true
    · simp only [h, if_true, List.map_cons, List.map_nil, collect_singleton]
    · simp only [h]; rfl
  · intro m; rw [hto, baseRecvTo, if_pos (.inr rfl)]
  · intro d m h1 h2
    rw [hm, hto]; simp only [calls, List.filter_cons, List.filter_nil, baseRecvTo, h1, or_false]
    by_cases h : (den t).accepts m = true
    · by_cases h3 : d = (den t).id
      · subst h3; simp only [h, if_true, decide_true, Bool.and_self, List.map_cons, List.map_nil, collect_singleton]
      · simp [h3, Ne.symm h3, h, collect]
    · simp [h, collect]
  · intro d m _ _ h; rw [hb] at h; cases h
  · intro m h; rw [hb] at h; cases h

theorem consumer_kinds {t : Tree} (hw : WF t) (hc : (den t).consumer = true) : (isBus t = true ∧ (den t).id = MESSAGE_BUS) ∨ (members t = [t] ∧ isBus t = false ∧ (den t).id < MESSAGE_BUS) := by
  cases hw with
  | router h1 h2 h3 =>
    right; refine ⟨rfl, rfl, ?_⟩
    simp only [legalId, MAX_MESSAGE_ROUTER, MESSAGE_ROUTER, Bool.or_eq_true, decide_eq_true_eq] at h1
    show _ < 254; simp only [den, mkRouter]; rcases h1 with h1 | h1 <;> replace h1 := of_decide_eq_true h1 <;> omega
  | forward h1 h2 => simp [den, mkForward] at hc
  | bus h1 h2 h3 h4 => left; exact ⟨rfl, rfl⟩

theorem delivers : ∀ t, WF t → Delivers t := by
  refine Tree.ind ?_ ?_ ?_
  · intro n i ts succ _ _; exact leaf_delivers rfl rfl (fun d m => rfl)
  · intro n i succ _ _; exact leaf_delivers rfl rfl (fun d m => rfl)
  · intro n subs succ hs ho hw
    have hw0 := hw
    cases hw with
    | bus w1 w2 w3 w4 =>
      have hsucc : ∀ (m d : Nat) (p : Obj → Bool), ((d = ALL_MESSAGE_ROUTERS ∧ p = fun _ => true) ∨ (d ≠ ALL_MESSAGE_ROUTERS ∧ d ≠ MESSAGE_BUS ∧ p = fun o => decide (o.id = d))) →
          busSuccessor (denO succ) d m = collect (calls m p (membersO succ)) := by
        intro m d p hd
        cases succ with
        | none => simp [denO, busSuccessor, membersO, calls, collect]
        | some s =>
          have hd' := ho s rfl (w4 s rfl)
          simp only [denO, membersO, busSuccessor]
          rcases hd with ⟨rfl, rfl⟩ | ⟨h1, h2, rfl⟩
          · rw [hd'.allTo]; exact hd'.all m
          · exact hd'.to d m h1 h2
      have hjoin : ∀ (x y : Res Log), (do let a ← x; let b ← y; .ok (a ++ b) : Res Log) = (match x with | .error u => .error u | .ok a => match y with | .error u => .error u | .ok b => .ok (a ++ b)) := by
        intro x y; cases x <;> cases y <;> rfl
      have hall : ∀ m, (den (.bus n subs succ)).recv m = collect (calls m (fun _ => true) (members (.bus n subs succ))) := by
        intro m
        show busRecvTo (denL subs) (denO succ) ALL_MESSAGE_ROUTERS m = _
        rw [busRecvTo, busSubscribers, if_pos rfl, hjoin, hsucc m _ _ (.inl ⟨rfl, rfl⟩), members, calls_append, collect_append]
        congr 1
        rw [broadcast_collect, denL_map, List.map_map, membersL_flatMap, calls_flatMap]
        exact collect_map_congr subs _ _ (fun t ht => (hs t ht (w1 t ht)).all m)
      have hto : ∀ d m, d ≠ ALL_MESSAGE_ROUTERS → d ≠ MESSAGE_BUS → (den (.bus n subs succ)).recvTo d m = collect (calls m (fun o => decide (o.id = d)) (members (.bus n subs succ))) := by
        intro d m hd1 hd2
        show busRecvTo (denL subs) (denO succ) d m = _
        have hsorted : (denL subs).Pairwise (fun x y => x.id ≤ y.id) := by rw [denL_map, List.pairwise_map]; exact w3
        obtain ⟨l, r, e, hlr, hr, _, hmid, _⟩ := Algo.equalRange_key (denL subs) Obj.id d hsorted
        obtain ⟨i, e2, hi, ht, hdr⟩ := Algo.lowerBound_filter (denL subs) MESSAGE_BUS cmp1 (hsorted.imp (by intro y z hyz; simp [cmp1]; omega))
        rw [busRecvTo, busSubscribers, if_neg hd1]
        have e' : Algo.equalRange (denL subs) 0 (denL subs).length d cmp1 cmp2 = .ok (l, r) := e
        rw [e', e2]
        have h1 : callRange (denL subs) m l (r - l) = collect ((subs.filter (fun t => decide ((den t).id = d))).map (fun t => if (den t).accepts m then (den t).recv m else .ok [])) := by
          rw [callRange_collect _ _ _ _ (by omega), show l + (r - l) = r by omega, hmid, denL_map, List.filter_map, List.map_map]; rfl
        have h2 : callBuses d m ((denL subs).drop i) = collect ((subs.filter (fun t => !decide ((den t).id < MESSAGE_BUS))).map (fun t => (den t).recvTo d m)) := by
          rw [callBuses_collect, hdr, denL_map, List.filter_map, List.map_map]; rfl
        -- the members of the subscribers: leaves first, buses last
        have hsplit : collect (calls m (fun o => decide (o.id = d)) (membersL subs)) =
            (match collect ((subs.filter (fun t => decide ((den t).id = d))).map (fun t => if (den t).accepts m then (den t).recv m else .ok [])) with
              | .error u => .error u
              | .ok x => match collect ((subs.filter (fun t => !decide ((den t).id < MESSAGE_BUS))).map (fun t => (den t).recvTo d m)) with
                | .error u => .error u
                | .ok y => .ok (x ++ y)) := by
          -- cut the list at the first bus
          have hcut : subs = subs.filter (fun t => decide ((den t).id < MESSAGE_BUS)) ++ subs.filter (fun t => !decide ((den t).id < MESSAGE_BUS)) := by
            have hp : subs.Pairwise (fun y z => decide ((den z).id < MESSAGE_BUS) = true → decide ((den y).id < MESSAGE_BUS) = true) :=
              w3.imp (by intro y z hyz; simp; omega)
            obtain ⟨k, _, _, hk1, hk2⟩ := Algo.lowerBound_filter subs MESSAGE_BUS (fun t v => decide ((den t).id < v)) hp
            rw [← hk1, ← hk2, List.take_append_drop]
          conv => lhs; rw [hcut]
          rw [membersL_flatMap, List.flatMap_append, calls_append, collect_append]
          have hA : collect (calls m (fun o => decide (o.id = d)) ((subs.filter (fun t => decide ((den t).id < MESSAGE_BUS))).flatMap members)) =
              collect ((subs.filter (fun t => decide ((den t).id = d))).map (fun t => if (den t).accepts m then (den t).recv m else .ok [])) := by
            have hfl : (subs.filter (fun t => decide ((den t).id < MESSAGE_BUS))).flatMap members = subs.filter (fun t => decide ((den t).id < MESSAGE_BUS)) := by
              have : ∀ ts : List Tree, (∀ t ∈ ts, members t = [t]) → ts.flatMap members = ts := by
                intro ts
                induction ts with
                | nil => intro _; rfl
                | cons t ts ih => intro h; rw [List.flatMap_cons, h t (by simp), ih (fun t ht => h t (List.mem_cons_of_mem _ ht))]; rfl
              apply this
              intro t ht
              rw [List.mem_filter] at ht
              rcases consumer_kinds (w1 t ht.1) (w2 t ht.1) with ⟨_, hid⟩ | ⟨hm, _⟩
              · have := ht.2; simp [hid] at this
              · exact hm
            rw [hfl, calls, List.filter_filter]
            have hf : subs.filter (fun t => (decide ((den t).id = d) && (den t).accepts m) && decide ((den t).id < MESSAGE_BUS)) =
                (subs.filter (fun t => decide ((den t).id = d))).filter (fun t => (den t).accepts m) := by
              rw [List.filter_filter]
              apply List.filter_congr
              intro t ht
              by_cases hid : (den t).id = d
              · rcases consumer_kinds (w1 t ht) (w2 t ht) with ⟨_, hid'⟩ | ⟨_, _, hlt⟩
                · exact absurd (hid.symm.trans hid') hd2
                · simp [hid, show d < MESSAGE_BUS by rw [← hid]; exact hlt]
              · simp [hid]
            rw [hf]
            have : ∀ ts : List Tree, collect ((ts.filter (fun t => (den t).accepts m)).map (fun t => (den t).recv m)) = collect (ts.map (fun t => if (den t).accepts m then (den t).recv m else .ok [])) := by
              intro ts
              induction ts with
              | nil => rfl
              | cons t ts ih =>
                simp only [List.filter_cons, List.map_cons]
                by_cases h : (den t).accepts m = true
                · simp only [h, if_true, List.map_cons, collect, ih]
                · rw [Bool.not_eq_true] at h
                  simp only [h, if_false, Bool.false_eq_true, collect]
                  rw [ih]
                  cases collect (ts.map (fun t => if (den t).accepts m then (den t).recv m else .ok [])) <;> rfl
            exact this _
          have hB : collect (calls m (fun o => decide (o.id = d)) ((subs.filter (fun t => !decide ((den t).id < MESSAGE_BUS))).flatMap members)) =
              collect ((subs.filter (fun t => !decide ((den t).id < MESSAGE_BUS))).map (fun t => (den t).recvTo d m)) := by
            rw [calls_flatMap]
            refine (collect_map_congr _ _ _ (fun t ht => ?_)).symm
            rw [List.mem_filter] at ht
            have hk : isBus t = true := by
              rcases consumer_kinds (w1 t ht.1) (w2 t ht.1) with ⟨h, _⟩ | ⟨_, _, hlt⟩
              · exact h
              · have := ht.2; simp at this; omega
            exact (hs t ht.1 (w1 t ht.1)).busTo d m hd1 hd2 hk
          rw [hA, hB]
        rw [members, calls_append, collect_append, hsplit]
        have hsucc' := hsucc m d _ (.inr ⟨hd1, hd2, rfl⟩)
        simp only [bind, Except.bind]
        rw [h1, h2, hsucc']
        cases collect ((subs.filter (fun t => decide ((den t).id = d))).map (fun t => if (den t).accepts m then (den t).recv m else .ok [])) with
        | error u => rfl
        | ok x =>
          cases collect ((subs.filter (fun t => !decide ((den t).id < MESSAGE_BUS))).map (fun t => (den t).recvTo d m)) with
          | error u => rfl
          | ok y => simp only; cases collect (calls m _ (membersO succ)) <;> rfl
      refine ⟨?_, fun m => rfl, ?_, fun d m h1 h2 _ => hto d m h1 h2, fun m _ => hall m⟩
      · intro m
        by_cases h : (den (.bus n subs succ)).accepts m = true
        · rw [if_pos h]; exact hall m
        · rw [if_neg h, calls_nil_of_not_accepts hw0 (by simpa using h)]; rfl
      · intro d m h1 h2
        by_cases h : (den (.bus n subs succ)).accepts m = true
        · rw [if_pos h]; exact hto d m h1 h2
        · rw [if_neg h, calls_nil_of_not_accepts hw0 (by simpa using h)]; rfl

/-- **C35**, addressed messages: a message sent to a bus with destination `d` is given, once each, to exactly the members (of the bus, of nested buses and of the
successor) that have that id and accept the message, and to nobody else. -/
theorem C35_addressed (n : Nat) (subs : List Tree) (succ : Option Tree) (hw : WF (.bus n subs succ)) (d m : Nat) (hd : d ≠ ALL_MESSAGE_ROUTERS ∧ d ≠ MESSAGE_BUS) :
    (den (.bus n subs succ)).recvTo d m =
      collect (((members (.bus n subs succ)).filter (fun t => decide ((den t).id = d) && (den t).accepts m)).map (fun t => (den t).recv m)) :=
  (delivers _ hw).busTo d m hd.1 hd.2 rfl

/-- **C35**, broadcasts: every member that accepts the message gets it, once. -/
theorem C35_broadcast (n : Nat) (subs : List Tree) (succ : Option Tree) (hw : WF (.bus n subs succ)) (m : Nat) :
    (den (.bus n subs succ)).recv m = collect (((members (.bus n subs succ)).filter (fun t => (den t).accepts m)).map (fun t => (den t).recv m)) ∧
    (den (.bus n subs succ)).recvTo ALL_MESSAGE_ROUTERS m = (den (.bus n subs succ)).recv m := by
  refine ⟨?_, rfl⟩
  have := (delivers _ hw).busAll m rfl
  simpa [calls] using this

/-- **C35**: a bus accepts a message exactly when one of its members does. -/
theorem C35_accepts (t : Tree) (hw : WF t) (m : Nat) : (den t).accepts m = true ↔ ∃ x ∈ members t, (den x).accepts m = true := by
  rw [accepts_members t hw, List.any_eq_true]

/-- **C35**: no delivery in a well formed network runs into undefined behaviour: everything returns. -/
theorem C35_total : ∀ t, WF t → ∀ m, (∃ log, (den t).recv m = .ok log) ∧ ∀ d, d ≠ MESSAGE_BUS → ∃ log, (den t).recvTo d m = .ok log := by
  have hcol : ∀ l : List (Res Log), (∀ x ∈ l, ∃ a, x = .ok a) → ∃ a, collect l = .ok a := by
    intro l
    induction l with
    | nil => intro _; exact ⟨[], rfl⟩
    | cons x xs ih =>
      intro h
      obtain ⟨a, rfl⟩ := h x (by simp)
      obtain ⟨b, hb⟩ := ih (fun y hy => h y (List.mem_cons_of_mem _ hy))
      exact ⟨a ++ b, by simp [collect, hb]⟩
  have base : ∀ (i : Nat) (recv : Nat → Res Log) (m : Nat), (∃ log, recv m = .ok log) → ∀ d, ∃ log, baseRecvTo i recv d m = .ok log := by
    intro i recv m h d
    unfold baseRecvTo; split_ifs
    · exact h
    · exact ⟨[], rfl⟩
  -- every member of a network whose parts are total is total
  have key : ∀ t, WF t → ∀ m, (∃ log, (den t).recv m = .ok log) ∧ ∀ x ∈ members t, ∃ log, (den x).recv m = .ok log := by
    refine Tree.ind ?_ ?_ ?_
    · intro n i ts succ ho hw m
      have h1 : ∃ log, (den (.router n i ts succ)).recv m = .ok log := by
        cases hw with
        | router h1 h2 h3 =>
          simp only [den, mkRouter, routerRecv, tryTypes_eq]
          by_cases h : m ∈ ts
          · exact ⟨[(n, .handled m)], by simp [h]⟩
          · cases succ with
            | none => exact ⟨[(n, .unknown m)], by simp [h, passOn, denO]⟩
            | some s =>
              obtain ⟨log, hl⟩ := (ho s rfl (h3 s rfl) m).1
              exact ⟨log, by simp [h, passOn, denO, hl]⟩
      exact ⟨h1, by intro x hx; simp [members] at hx; subst hx; exact h1⟩
    · intro n i succ ho hw m
      have h1 : ∃ log, (den (.forward n i succ)).recv m = .ok log := by
        cases hw with
        | forward h1 h2 =>
          simp only [den, mkForward, forwardRecv]
          cases succ with
          | none => exact ⟨[], rfl⟩
          | some s => exact (ho s rfl (h2 s rfl) m).1
      exact ⟨h1, by intro x hx; simp [members] at hx; subst hx; exact h1⟩
    · intro n subs succ hs ho hw m
      have hmem : ∀ x ∈ members (.bus n subs succ), ∃ log, (den x).recv m = .ok log := by
        cases hw with
        | bus w1 w2 w3 w4 =>
          intro x hx
          rw [members, List.mem_append, membersL_flatMap, List.mem_flatMap] at hx
          rcases hx with ⟨t, ht, hx⟩ | hx
          · exact (hs t ht (w1 t ht) m).2 x hx
          · cases succ with
            | none => simp [membersO] at hx
            | some s => exact (ho s rfl (w4 s rfl) m).2 x hx
      refine ⟨?_, hmem⟩
      rw [(delivers _ hw).busAll m rfl]
      apply hcol
      intro x hx
      simp only [calls, List.mem_map, List.mem_filter] at hx
      obtain ⟨t, ⟨ht, _⟩, rfl⟩ := hx
      exact hmem t ht
  intro t hw m
  refine ⟨(key t hw m).1, fun d hd => ?_⟩
  cases t with
  | router n i ts succ => exact base _ _ _ (key _ hw m).1 d
  | forward n i succ => exact base _ _ _ (key _ hw m).1 d
  | bus n subs succ =>
    by_cases hall : d = ALL_MESSAGE_ROUTERS
    · subst hall; rw [(delivers _ hw).allTo]; exact (key _ hw m).1
    · rw [(delivers _ hw).busTo d m hall hd rfl]
      apply hcol
      intro x hx
      simp only [calls, List.mem_map, List.mem_filter] at hx
      obtain ⟨t, ⟨ht, _⟩, rfl⟩ := hx
      exact (key _ hw m).2 t ht

/-! A network meeting the hypotheses: two routers and a nested bus with one router; a router as successor. -/
def demoNet : Tree :=
  .bus 100 [.router 1 3 [10, 11] none, .router 2 5 [10] none, .bus 200 [.router 3 5 [10, 12] none] none] (some (.router 4 5 [10] none))

theorem demo_wf : WF demoNet := by
  refine .bus ?_ ?_ ?_ ?_
  · intro s hs
    simp at hs
    rcases hs with rfl | rfl | rfl
    · exact .router rfl (by simp) (by intro s h; cases h)
    · exact .router rfl (by simp) (by intro s h; cases h)
    · refine .bus ?_ ?_ (by simp) (by intro s h; cases h)
      · intro s hs; simp at hs; subst hs; exact .router rfl (by simp) (by intro s h; cases h)
      · intro s hs; simp at hs; subst hs; rfl
  · intro s hs; simp at hs; rcases hs with rfl | rfl | rfl <;> rfl
  · simp [den, mkRouter, mkBus, MESSAGE_BUS]
  · intro s hs; cases hs; exact .router rfl (by simp) (by intro s h; cases h)

example : (den demoNet).recvTo 5 10 = .ok [(2, .handled 10), (3, .handled 10), (4, .handled 10)] := rfl
example : (den demoNet).recv 10 = .ok [(1, .handled 10), (2, .handled 10), (3, .handled 10), (4, .handled 10)] := rfl
example : (subRun (fun x : Nat => x % 10) id (fun _ => true) 3 [] [.subscribe 15, .subscribe 13, .subscribe 25, .subscribe 7, .unsubscribe 15, .unsubscribeId 3]) =
    .ok ([25], [true, true, true, false, true, true]) := rfl

/-! ## Findings -/

/-- Why `d ≠ MESSAGE_BUS` is needed: a message addressed to the id of buses is broadcast by each nested bus and then sent on to it again with that address, so buses
nested two deep deliver it twice. -/
theorem addressed_to_bus_id_twice :
    (den (.bus 1 [.bus 2 [.bus 3 [.router 4 5 [10] none] none] none] none)).recvTo MESSAGE_BUS 10 = .ok [(4, .handled 10), (4, .handled 10)] := rfl

end Etl.Router
