import Verif.Observer.Model
import Mathlib.Data.List.Nodup

/-!
# C43: notifications reach exactly the registered, enabled observers
-/
namespace Etl.Observer
variable {ω : Type} [DecidableEq ω]

/-! ## Specification: who is registered, in which order, and who is enabled -/

structure Reg (ω : Type) where
  order : List ω            -- registered observers, oldest registration first
  on : ω → Bool             -- meaningful for registered ones

def specStep (max : Nat) (r : Reg ω) : Op ω → Reg ω × Out ω
  | .add o =>
    if o ∈ r.order then (r, .unit)
    else if r.order.length = max then (r, .full)
    else (⟨r.order ++ [o], fun x => if x = o then true else r.on x⟩, .unit)
  | .remove o => if o ∈ r.order then (⟨r.order.filter (· ≠ o), r.on⟩, .bool true) else (r, .bool false)
  | .enable o b => (⟨r.order, fun x => if x = o ∧ o ∈ r.order then b else r.on x⟩, .unit)
  | .disable o => (⟨r.order, fun x => if x = o ∧ o ∈ r.order then false else r.on x⟩, .unit)
  | .clear => (⟨[], r.on⟩, .unit)

def specSteps (max : Nat) (r : Reg ω) : List (Op ω) → Reg ω
  | [] => r
  | o :: os => specSteps max (specStep max r o).1 os

/-! ## Refinement -/

structure Sim (max : Nat) (s : St ω) (r : Reg ω) : Prop where
  hmax : s.max = max
  hitems : s.items = r.order.map (fun o => ⟨o, r.on o⟩)
  hnodup : r.order.Nodup
  hlen : r.order.length ≤ max

theorem find_map (f : ω → Bool) (o : ω) (l : List ω) : find o (l.map (fun o => (⟨o, f o⟩ : Item ω))) = l.idxOf o := by
  induction l with
  | nil => rfl
  | cons a l ih =>
    simp only [List.map_cons, find, ih]
    by_cases h : o = a
    · subst h; simp
    · rw [if_neg h, List.idxOf_cons_ne _ (Ne.symm h)]

theorem modify_map (f : ω → Bool) (o : ω) (b : Bool) (l : List ω) (hn : l.Nodup) :
    (l.map (fun o => (⟨o, f o⟩ : Item ω))).modify (l.idxOf o) (fun x => { x with enabled := b }) =
      l.map (fun x => ⟨x, if x = o ∧ o ∈ l then b else f x⟩) := by
  induction l with
  | nil => simp
  | cons a l ih =>
    rw [List.nodup_cons] at hn
    by_cases h : o = a
    · subst h
      simp only [List.idxOf_cons_self, List.map_cons, List.modify_zero_cons]
      congr 1
      · simp
      · apply List.map_congr_left
        intro x hx
        rw [if_neg]; rintro ⟨rfl, _⟩; exact hn.1 hx
    · rw [List.idxOf_cons_ne _ (Ne.symm h)]
      simp only [List.map_cons, List.modify_succ_cons, ih hn.2]
      congr 1
      · rw [if_neg]; rintro ⟨rfl, _⟩; exact h rfl
      · apply List.map_congr_left
        intro x _
        simp [h]

theorem eraseIdx_map (f : ω → Bool) (o : ω) (l : List ω) (hn : l.Nodup) (hm : o ∈ l) :
    (l.map (fun o => (⟨o, f o⟩ : Item ω))).eraseIdx (l.idxOf o) = (l.filter (· ≠ o)).map (fun o => ⟨o, f o⟩) := by
  induction l with
  | nil => simp at hm
  | cons a l ih =>
    rw [List.nodup_cons] at hn
    by_cases h : o = a
    · subst h
      have : l.filter (fun x => decide (x ≠ o)) = l := by
        rw [List.filter_eq_self]; intro x hx; simp; rintro rfl; exact hn.1 hx
      simp only [List.idxOf_cons_self, List.map_cons, List.eraseIdx_cons_zero, List.filter_cons]
      simp only [ne_eq, decide_not] at this
      simp [this]
    · have hm' : o ∈ l := by simpa [h] using hm
      rw [List.idxOf_cons_ne _ (Ne.symm h)]
      simp only [List.map_cons, List.eraseIdx_cons_succ, ih hn.2 hm']
      rw [List.filter_cons, if_pos (by simp [Ne.symm h])]; rfl

theorem step_sim {max : Nat} {s : St ω} {r : Reg ω} (h : Sim max s r) (o : Op ω) :
    Sim max (step s o).1 (specStep max r o).1 ∧ (step s o).2 = (specStep max r o).2 := by
  have hl : s.items.length = r.order.length := by rw [h.hitems]; simp
  cases o with
  | add o =>
    simp only [step, specStep, h.hitems, find_map, List.length_map, List.idxOf_eq_length_iff, h.hmax]
    by_cases hm : o ∈ r.order
    · simp only [hm, not_true, if_false, if_true]; exact ⟨h, trivial⟩
    · simp only [hm, not_false_eq_true, if_false, if_true]
      by_cases hf : r.order.length = max
      · rw [if_pos hf, if_pos hf]; exact ⟨h, rfl⟩
      · rw [if_neg hf, if_neg hf]
        refine ⟨⟨rfl, ?_, ?_, ?_⟩, rfl⟩
        · simp only [List.map_append, List.map_cons, List.map_nil, if_true]
          congr 1
          apply List.map_congr_left
          intro x hx
          rw [if_neg]; rintro rfl; exact hm hx
        · rw [List.nodup_append]
          exact ⟨h.hnodup, by simp, by simp; rintro a ha rfl; exact hm ha⟩
        · have := h.hlen; simp; omega
  | remove o =>
    simp only [step, specStep, h.hitems, find_map, List.length_map, ne_eq, List.idxOf_eq_length_iff, not_not]
    by_cases hm : o ∈ r.order
    · rw [if_pos hm, if_pos hm]
      refine ⟨⟨h.hmax, ?_, h.hnodup.filter _, ?_⟩, rfl⟩
      · simpa using eraseIdx_map r.on o r.order h.hnodup hm
      · exact Nat.le_trans (List.length_filter_le _ _) h.hlen
    · rw [if_neg hm, if_neg hm]; exact ⟨h, rfl⟩
  | enable o b =>
    simp only [step, specStep, h.hitems, find_map, List.length_map, ne_eq, List.idxOf_eq_length_iff, not_not]
    by_cases hm : o ∈ r.order
    · rw [if_pos hm]
      exact ⟨⟨h.hmax, modify_map _ _ _ _ h.hnodup, h.hnodup, h.hlen⟩, rfl⟩
    · rw [if_neg hm]
      exact ⟨⟨h.hmax, by simpa [hm] using h.hitems, h.hnodup, h.hlen⟩, rfl⟩
  | disable o =>
    simp only [step, specStep, h.hitems, find_map, List.length_map, ne_eq, List.idxOf_eq_length_iff, not_not]
    by_cases hm : o ∈ r.order
    · rw [if_pos hm]
      exact ⟨⟨h.hmax, modify_map _ _ _ _ h.hnodup, h.hnodup, h.hlen⟩, rfl⟩
    · rw [if_neg hm]
      exact ⟨⟨h.hmax, by simpa [hm] using h.hitems, h.hnodup, h.hlen⟩, rfl⟩
  | clear => exact ⟨⟨h.hmax, rfl, by simp [specStep], by simp [specStep]⟩, rfl⟩

theorem steps_sim {max : Nat} (os : List (Op ω)) : ∀ {s : St ω} {r : Reg ω}, Sim max s r → Sim max (steps s os) (specSteps max r os) := by
  induction os with
  | nil => intro s r h; exact h
  | cons o os ih => intro s r h; exact ih (step_sim h o).1

def init0 : Reg ω := ⟨[], fun _ => false⟩

theorem sim_init (max : Nat) : Sim max (init (ω := ω) max) init0 := ⟨rfl, rfl, by simp [init0], by simp [init0]⟩

/-- Callbacks that only enable and disable observers: the loop calls, in order, those registered observers that are enabled when their turn comes. -/
def Toggles (script : ω → List (Op ω)) : Prop := ∀ o op, op ∈ script o → (∃ x b, op = .enable x b) ∨ ∃ x, op = .disable x

/-- Specification of a notification round whose callbacks toggle observers. -/
def specNotify (max : Nat) (script : ω → List (Op ω)) : List ω → Reg ω → Reg ω × List ω
  | [], r => (r, [])
  | o :: os, r =>
    if r.on o then
      let (r, cs) := specNotify max script os (specSteps max r (script o))
      (r, o :: cs)
    else specNotify max script os r

theorem toggle_order {max : Nat} (os : List (Op ω)) (ht : ∀ op, op ∈ os → (∃ x b, op = .enable x b) ∨ ∃ x, op = .disable x) :
    ∀ r : Reg ω, (specSteps max r os).order = r.order := by
  induction os with
  | nil => intro r; rfl
  | cons o os ih =>
    intro r
    simp only [specSteps]
    rw [ih (fun op h => ht op (List.mem_cons_of_mem _ h))]
    rcases ht o (by simp) with ⟨x, b, rfl⟩ | ⟨x, rfl⟩ <;> rfl

theorem notifyLoop_spec {max : Nat} (script : ω → List (Op ω)) (ht : Toggles script) (todo : List ω) : ∀ (done : List ω) (fuel : Nat) (s : St ω) (r : Reg ω),
    Sim max s r → r.order = done ++ todo → todo.length < fuel →
    ∃ s', notifyLoop script fuel s done.length = .ok (s', (specNotify max script todo r).2) ∧ Sim max s' (specNotify max script todo r).1 := by
  induction todo with
  | nil =>
    intro done fuel s r h hr hf
    obtain ⟨fuel, rfl⟩ : ∃ f, fuel = f + 1 := ⟨fuel - 1, by simp at hf; omega⟩
    refine ⟨s, ?_, h⟩
    have : done.length = s.items.length := by rw [h.hitems, hr]; simp
    rw [notifyLoop, if_pos this]; rfl
  | cons o todo ih =>
    intro done fuel s r h hr hf
    obtain ⟨fuel, rfl⟩ : ∃ f, fuel = f + 1 := ⟨fuel - 1, by simp at hf; omega⟩
    simp only [List.length_cons] at hf
    have hne : done.length ≠ s.items.length := by rw [h.hitems, hr]; simp
    have hx : s.items[done.length]? = some ⟨o, r.on o⟩ := by
      rw [h.hitems, List.getElem?_map, hr]; simp
    rw [notifyLoop, if_neg hne, hx]
    by_cases hon : r.on o = true
    · simp only [hon, if_true, specNotify]
      have h1 := steps_sim (max := max) (script o) h
      have ho := toggle_order (max := max) (script o) (fun op hop => ht o op hop) r
      obtain ⟨s', e, h2⟩ := ih (done ++ [o]) fuel _ _ h1 (by rw [ho, hr]; simp) (by omega)
      simp only [List.length_append, List.length_singleton] at e
      rw [e]
      exact ⟨s', rfl, h2⟩
    · simp only [hon, specNotify]
      obtain ⟨s', e, h2⟩ := ih (done ++ [o]) fuel s r h (by rw [hr]; simp) (by omega)
      simp only [List.length_append, List.length_singleton] at e
      exact ⟨s', e, h2⟩

theorem specNotify_nil (max : Nat) (os : List ω) (r : Reg ω) : specNotify max (fun _ => []) os r = (r, os.filter r.on) := by
  induction os with
  | nil => rfl
  | cons o os ih =>
    simp only [specNotify, specSteps, List.filter_cons, ih]
    split_ifs <;> rfl

/-- **C43.**  After any history, a notification calls exactly the registered and enabled observers, each once, in the order they were registered,
and leaves the registrations alone (callbacks that do not touch the observable). -/
theorem C43_notify (max : Nat) (os : List (Op ω)) :
    let r := specSteps max init0 os
    (∃ s, notify (fun _ => []) (steps (init max) os) = .ok (s, r.order.filter r.on) ∧ s.items = (steps (init max) os).items) ∧
    (r.order.filter r.on).Nodup ∧ r.order.Nodup ∧ r.order.length ≤ max ∧ number (steps (init (ω := ω) max) os) = r.order.length := by
  intro r
  have h : Sim max (steps (init (ω := ω) max) os) r := steps_sim os (sim_init max)
  obtain ⟨s, e, h2⟩ := notifyLoop_spec (max := max) (fun _ => []) (by intro o op hop; simp at hop) r.order [] ((steps (init (ω := ω) max) os).max + 1) _ r h rfl
    (by rw [h.hmax]; have := h.hlen; omega)
  rw [specNotify_nil] at e h2
  refine ⟨⟨s, e, ?_⟩, h.hnodup.filter _, h.hnodup, h.hlen, ?_⟩
  · rw [h2.hitems, h.hitems]
  · simp [number, h.hitems]

/-- **C43**, callbacks that enable and disable observers while being notified: everyone registered is visited once, in order, and called if enabled when the turn comes. -/
theorem C43_notify_toggling (max : Nat) (os : List (Op ω)) (script : ω → List (Op ω)) (ht : Toggles script) :
    let r := specSteps max init0 os
    ∃ s, notify script (steps (init max) os) = .ok (s, (specNotify max script r.order r).2) ∧
      number s = r.order.length := by
  intro r
  have h : Sim max (steps (init (ω := ω) max) os) r := steps_sim os (sim_init max)
  obtain ⟨s, e, h2⟩ := notifyLoop_spec (max := max) script ht r.order [] ((steps (init (ω := ω) max) os).max + 1) _ r h rfl
    (by rw [h.hmax]; have := h.hlen; omega)
  have key : ∀ (l : List ω) (r : Reg ω), (specNotify max script l r).1.order = r.order := by
    intro l
    induction l with
    | nil => intro r; rfl
    | cons o l ih =>
      intro r
      simp only [specNotify]
      split_ifs
      · rw [ih, toggle_order _ (fun op hop => ht o op hop)]
      · exact ih r
  exact ⟨s, e, by simp [number, h2.hitems, key]⟩

/-- **C43**: every operation reports what the specification says: adding a registered observer does nothing, adding beyond `max` is the error, removing reports
whether the observer was registered. -/
theorem C43_results (max : Nat) (os : List (Op ω)) (o : Op ω) :
    (step (steps (init max) os) o).2 = (specStep max (specSteps max init0 os) o).2 := (step_sim (steps_sim os (sim_init max)) o).2

theorem specSteps_append (max : Nat) (a b : List (Op ω)) : ∀ r : Reg ω, specSteps max r (a ++ b) = specSteps max (specSteps max r a) b := by
  induction a with
  | nil => intro r; rfl
  | cons o a ih => intro r; simp [specSteps, ih]

/-- The operation can change whether `x` is registered. -/
def Touches (x : ω) : Op ω → Prop
  | .add o => o = x
  | .remove o => o = x
  | .clear => True
  | _ => False

theorem keep_on {max : Nat} {x : ω} (post : List (Op ω)) (hpost : ∀ o ∈ post, ¬ Touches x o ∧ (∀ b, o ≠ .enable x b) ∧ o ≠ .disable x) :
    ∀ r : Reg ω, x ∈ r.order ∧ r.on x = true → x ∈ (specSteps max r post).order ∧ (specSteps max r post).on x = true := by
  induction post with
  | nil => intro r h1; exact h1
  | cons o post ih =>
    intro r h1
    apply ih (fun o' h => hpost o' (List.mem_cons_of_mem _ h))
    obtain ⟨ht, he, hd⟩ := hpost o (by simp)
    cases o with
    | add y =>
      simp only [specStep]; split_ifs
      · exact h1
      · exact h1
      · simp only [List.mem_append]
        exact ⟨.inl h1.1, by split_ifs <;> simp [h1.2]⟩
    | remove y =>
      have hy : y ≠ x := fun hy => ht hy
      simp only [specStep]; split_ifs
      · exact ⟨by simp [h1.1, Ne.symm hy], h1.2⟩
      · exact h1
    | enable y b =>
      refine ⟨h1.1, ?_⟩
      simp only [specStep]; rw [if_neg]; · exact h1.2
      rintro ⟨rfl, _⟩; exact he b rfl
    | disable y =>
      refine ⟨h1.1, ?_⟩
      simp only [specStep]; rw [if_neg]; · exact h1.2
      rintro ⟨rfl, _⟩; exact hd rfl
    | clear => exact absurd trivial ht

theorem keep_off {max : Nat} {x : ω} (post : List (Op ω)) (hpost : ∀ o ∈ post, o ≠ .add x ∧ o ≠ .enable x true) :
    ∀ r : Reg ω, ¬ (x ∈ r.order ∧ r.on x = true) → ¬ (x ∈ (specSteps max r post).order ∧ (specSteps max r post).on x = true) := by
  induction post with
  | nil => intro r h1; exact h1
  | cons o post ih =>
    intro r h1
    apply ih (fun o' h => hpost o' (List.mem_cons_of_mem _ h))
    obtain ⟨ha, he⟩ := hpost o (by simp)
    cases o with
    | add y =>
      have hy : x ≠ y := by rintro rfl; exact ha rfl
      simp only [specStep]; split_ifs
      · exact h1
      · exact h1
      · rintro ⟨hm, hb⟩
        simp [hy] at hm hb
        exact h1 ⟨hm, hb⟩
    | remove y =>
      simp only [specStep]; split_ifs
      · rintro ⟨hm, hb⟩; simp at hm; exact h1 ⟨hm.1, hb⟩
      · exact h1
    | enable y b =>
      rintro ⟨hm, hb⟩
      simp only [specStep] at hm hb
      split_ifs at hb with hc
      · obtain ⟨rfl, _⟩ := hc; subst hb; exact he rfl
      · exact h1 ⟨hm, hb⟩
    | disable y =>
      rintro ⟨hm, hb⟩
      simp only [specStep] at hm hb
      split_ifs at hb with hc
      exact h1 ⟨hm, hb⟩
    | clear => simp [specStep]

/-- **C43**, read off the history: an observer added while there was room is called, exactly once, as long as no later operation removed or disabled it. -/
theorem C43_added_is_called (max : Nat) (os post : List (Op ω)) (x : ω) (hroom : number (steps (init (ω := ω) max) os) < max)
    (hpost : ∀ o ∈ post, ¬ Touches x o ∧ (∀ b, o ≠ .enable x b) ∧ o ≠ .disable x) :
    ∃ s cs, notify (fun _ => []) (steps (init max) (os ++ [.add x, .enable x true] ++ post)) = .ok (s, cs) ∧ cs.count x = 1 := by
  obtain ⟨⟨s, e, _⟩, hnd, _⟩ := C43_notify max (os ++ [.add x, .enable x true] ++ post)
  rw [(C43_notify max os).2.2.2.2] at hroom
  refine ⟨s, _, e, List.count_eq_one_of_mem hnd ?_⟩
  rw [specSteps_append, specSteps_append, List.mem_filter]
  apply keep_on post hpost
  simp only [specSteps, specStep]
  by_cases h1 : x ∈ (specSteps max init0 os).order
  · simp [h1]
  · rw [if_neg h1, if_neg (by omega)]; simp

/-- **C43**, the converse: a disabled or removed observer is not called until it is added or enabled again. -/
theorem C43_removed_not_called (max : Nat) (os post : List (Op ω)) (x : ω) (off : Op ω)
    (hoff : off = .remove x ∨ off = .disable x ∨ off = .enable x false ∨ off = .clear)
    (hpost : ∀ o ∈ post, o ≠ .add x ∧ o ≠ .enable x true) :
    ∃ s cs, notify (fun _ => []) (steps (init max) (os ++ [off] ++ post)) = .ok (s, cs) ∧ x ∉ cs := by
  obtain ⟨⟨s, e, _⟩, _⟩ := C43_notify max (os ++ [off] ++ post)
  refine ⟨s, _, e, ?_⟩
  rw [specSteps_append, specSteps_append, List.mem_filter]
  apply keep_off post hpost
  rcases hoff with rfl | rfl | rfl | rfl
  · simp only [specSteps, specStep]; split_ifs with h
    · simp
    · simp [h]
  · simp only [specSteps, specStep]; rintro ⟨ha, hb⟩; simp [ha] at hb
  · simp only [specSteps, specStep]; rintro ⟨ha, hb⟩; simp [ha] at hb
  · simp [specSteps, specStep]

example : (notify (fun _ => []) (steps (init 3) [.add 10, .add 20, .add 10, .add 30, .add 40, .disable 20, .remove 10, .add 10])).map (·.2) = .ok [30, 10] := by rfl
example : (notify (fun o => if o = 10 then [.disable 30, .enable 20 true] else []) (steps (init 3) [.add 10, .add 20, .add 30, .disable 20])).map (·.2) = .ok [10, 20] := by rfl

/-! ## Findings: changing the registrations inside a notification -/

/-- An observer that removes itself makes the loop skip the next one. -/
theorem remove_in_callback_skips :
    (notify (fun o => if o = 10 then [.remove 10] else []) (steps (init 3) [.add 10, .add 20, .add 30])).map (·.2) = .ok [10, 30] := by rfl

/-- The last observer removing two of them (or clearing the list) makes the loop run past the end. -/
theorem clear_in_callback_undefined :
    notify (fun o => if o = 10 then [.clear] else []) (steps (init 3) [.add 10]) = .error .outOfBounds := rfl

end Etl.Observer
