import Verif.Tree.Detach
import Verif.Common.Order

/-! # Step 1 of `remove_node` -/
namespace Etl.Tree
open T

variable {α K : Type} (key : α → K) (lt : K → K → Bool)

/-- The critical node: rebalancing starts at the lowest frame that stops, or at the root. -/
def BalI (h : TH) (fs : List Frame) (b bp : Nat) : Prop := ∃ pre post, fs = pre ++ post ∧ (∀ f ∈ post.tail, ¬ stop f) ∧
  (pre = [] ∨ ∃ f l, post = f :: l ∧ stop f) ∧ b = h.gl (endLoc .root pre) ∧ bp = lastn pre

theorem sd_gl (h : TH) (n w) (L : Loc) : (h.sd n w).gl L = h.gl L := by cases L <;> rfl

theorem BalI.sd {h : TH} {fs : List Frame} {b bp : Nat} (hb : BalI h fs b bp) (n w) : BalI (h.sd n w) fs b bp := by
  obtain ⟨pre, post, a1, a2, a3, a4, a5⟩ := hb
  exact ⟨pre, post, a1, a2, a3, by rw [sd_gl]; exact a4, a5⟩

theorem BalI.snoc_stop {h : TH} {fs : List Frame} {f : Frame} (hf : f.n = h.gl (endLoc .root fs)) (hs : stop f) :
    BalI h (fs ++ [f]) f.n (lastn fs) := ⟨fs, [f], rfl, by simp, .inr ⟨f, [], rfl, hs⟩, hf, rfl⟩

theorem BalI.snoc {h : TH} {fs : List Frame} {f : Frame} {b bp : Nat} (hb : BalI h fs b bp) (hs : ¬ stop f) : BalI h (fs ++ [f]) b bp := by
  obtain ⟨pre, post, a1, a2, a3, a4, a5⟩ := hb
  refine ⟨pre, post ++ [f], by rw [a1, List.append_assoc], ?_, ?_, a4, a5⟩
  · cases post with
    | nil => simp
    | cons g post =>
      intro x hx
      simp only [List.cons_append, List.tail_cons, List.mem_append, List.mem_singleton] at hx
      rcases hx with hx | rfl
      · exact a2 x hx
      · exact hs
  · rcases a3 with h | ⟨g, l, h, h2⟩
    · exact .inl h
    · exact .inr ⟨g, l ++ [f], by rw [h]; rfl, h2⟩

def T.isNode : T → Bool
  | .nil => false
  | .node _ _ _ => true
theorem isNode_iff {t : T} : t.isNode = true ↔ t ≠ .nil := by cases t <;> simp [T.isNode]

/-- The direction taken at a node with element `v`; `left`: it has a left child. -/
def dirOf (k : K) (v : α) (left : Bool) : Bool :=
  if lt k (key v) then false else if lt (key v) k then true else if left then false else true

def hit (k : K) (v : α) (r : Rm) : Rm :=
  if lt k (key v) ∨ lt (key v) k then r else { r with foundParent := r.replaceParent, found := r.replace }

/-- One iteration of the search loop. -/
theorem rem_step {ev : Nat → α} {k : K} {s : St α} {fs : List Frame} {n : Nat} {w : Option Bool} {c : Bool → T} {r : Rm} {fuel : Nat}
    (rp : Rep s.h s.h.root (plug fs (node n w c))) (hb : (node n w c).Bal) (hv : s.val n = some (ev n))
    (h1 : r.replace = n) (h2 : r.replaceParent = lastn fs) (hB : BalI s.h fs r.balance r.balanceParent)
    {d : Bool} (hd : d = dirOf key lt k (ev n) (c false).isNode) :
    (c d = .nil → remLoop key lt s k r (fuel + 1) = .ok ({ s with h := s.h.sd n (some d) }, hit key lt k (ev n) r)) ∧
    (c d ≠ .nil → ∃ b bp, remLoop key lt s k r (fuel + 1) = remLoop key lt { s with h := s.h.sd n (some d) } k
        ⟨(hit key lt k (ev n) r).foundParent, (hit key lt k (ev n) r).found, n, (c d).rootId, bp, b⟩ fuel ∧
      BalI (s.h.sd n (some d)) (fs ++ [⟨n, d, w, c (!d)⟩]) b bp) := by
  obtain ⟨pr, rt⟩ := (rep_plug (L := .root)).1 rp
  obtain ⟨e1, v, e2, rc⟩ := rt
  have hn0 : r.replace ≠ 0 := by rw [h1]; have := v.1; omega
  have hl : (s.h.ch n false ≠ 0) ↔ c false ≠ .nil := (rc false).ne_zero
  have hdd : (if lt k (key (ev n)) then false else if lt (key (ev n)) k then true else if s.h.ch n false ≠ 0 then false else true) = d := by
    rw [hd]; unfold dirOf
    split <;> try rfl
    split <;> try rfl
    by_cases hc : c false = .nil
    · rw [if_neg (fun h => hl.1 h hc), hc]; rfl
    · rw [if_pos (hl.2 hc), if_pos (isNode_iff.2 hc)]
  have hreplace : (hit key lt k (ev n) r).replace = r.replace := by unfold hit; split <;> rfl
  have hrp : (hit key lt k (ev n) r).replaceParent = r.replaceParent := by unfold hit; split <;> rfl
  have hrb : (hit key lt k (ev n) r).balance = r.balance ∧ (hit key lt k (ev n) r).balanceParent = r.balanceParent := by
    unfold hit; split <;> exact ⟨rfl, rfl⟩
  have go : ∀ X : Res (St α × Rm), (if s.h.ch n d = 0 then .ok ({ s with h := s.h.sd n (some d) }, hit key lt k (ev n) r) else do
        let b ← (if s.h.wt n = none then .ok true
          else if s.h.wt n = some (!d) then do .ok (decide ((← (s.h.sd n (some d)).weight (← (s.h.sd n (some d)).child n (!d))) = none))
          else .ok false : Res Bool)
        let r2 := if b then { hit key lt k (ev n) r with balanceParent := (hit key lt k (ev n) r).replaceParent, balance := n } else hit key lt k (ev n) r
        remLoop key lt { s with h := s.h.sd n (some d) } k { r2 with replaceParent := r2.replace, replace := s.h.ch n d } fuel) = X →
      remLoop key lt s k r (fuel + 1) = X := by
    intro X hX
    rw [← hX, remLoop, if_pos hn0]
    have fin : ∀ r0 : Rm, r0.replace = n → (do
        let h ← s.h.setDir r0.replace (some d)
        let s : St α := { s with h := h }
        let c ← s.h.child r0.replace d
        if c = 0 then .ok (s, r0) else do
          let w ← s.h.weight r0.replace
          let b ← (if w = none then .ok true
            else if w = some (!d) then do .ok (decide ((← s.h.weight (← s.h.child r0.replace (!d))) = none))
            else .ok false : Res Bool)
          let r := if b then { r0 with balanceParent := r0.replaceParent, balance := r0.replace } else r0
          remLoop key lt s k { r with replaceParent := r.replace, replace := c } fuel : Res (St α × Rm)) =
        (if s.h.ch n d = 0 then .ok ({ s with h := s.h.sd n (some d) }, r0) else do
          let b ← (if s.h.wt n = none then .ok true
            else if s.h.wt n = some (!d) then do .ok (decide ((← (s.h.sd n (some d)).weight (← (s.h.sd n (some d)).child n (!d))) = none))
            else .ok false : Res Bool)
          let r2 := if b then { r0 with balanceParent := r0.replaceParent, balance := n } else r0
          remLoop key lt { s with h := s.h.sd n (some d) } k { r2 with replaceParent := r2.replace, replace := s.h.ch n d } fuel) := by
      intro r0 h0
      rw [h0]
      simp only [TH.setDir, if_pos v, bind, Except.bind]
      simp only [TH.child, TH.weight]
      rw [if_pos (show (s.h.sd n (some d)).valid n from v)]
      simp only
      by_cases hz : s.h.ch n d = 0
      · rw [if_pos (show (s.h.sd n (some d)).ch n d = 0 from hz), if_pos hz]
      · rw [if_neg (show ¬ (s.h.sd n (some d)).ch n d = 0 from hz), if_neg hz]
        rw [if_pos (show (s.h.sd n (some d)).valid n from v)]
        rfl
    rw [← fin (hit key lt k (ev n) r) (by rw [hreplace, h1])]
    rw [h1]
    simp only [read_ok v hv, bind, Except.bind, TH.child, if_pos v]
    rw [hdd]
    unfold hit
    rw [h1]
  constructor
  · intro hc
    have hz : s.h.ch n d = 0 := by have := (rc d).root_eq; rw [hc] at this; exact this
    apply go
    rw [if_pos hz]
  · intro hc
    have hz : s.h.ch n d ≠ 0 := (rc d).ne_zero.2 hc
    have hroot : s.h.ch n d = (c d).rootId := (rc d).root_eq
    let f : Frame := ⟨n, d, w, c (!d)⟩
    have hfn : f.n = (s.h.sd n (some d)).gl (endLoc .root fs) := by rw [sd_gl]; exact e1.symm
    have key2 : ∀ b : Bool, (b = true ↔ stop f) → (if s.h.wt n = none then .ok true
          else if s.h.wt n = some (!d) then do .ok (decide ((← (s.h.sd n (some d)).weight (← (s.h.sd n (some d)).child n (!d))) = none))
          else .ok false : Res Bool) = .ok b → ∃ b bp, remLoop key lt s k r (fuel + 1) = remLoop key lt { s with h := s.h.sd n (some d) } k
        ⟨(hit key lt k (ev n) r).foundParent, (hit key lt k (ev n) r).found, n, (c d).rootId, bp, b⟩ fuel ∧
      BalI (s.h.sd n (some d)) (fs ++ [f]) b bp := by
      intro b hbs hb2
      cases b with
      | true =>
        refine ⟨n, lastn fs, go _ ?_, BalI.snoc_stop hfn (hbs.1 rfl)⟩
        rw [if_neg hz, hb2]
        simp only [bind, Except.bind, if_true, hreplace, hrp, h1, h2, hroot]
      | false =>
        refine ⟨r.balance, r.balanceParent, go _ ?_, (hB.sd _ _).snoc (fun hs => by have := hbs.2 hs; cases this)⟩
        rw [if_neg hz, hb2]
        simp only [bind, Except.bind, Bool.false_eq_true, if_false, hreplace, hrp, h1, h2, hroot, hrb.1, hrb.2]
    by_cases hw0 : w = none
    · refine key2 true ⟨fun _ => .inl hw0, fun _ => rfl⟩ ?_
      rw [if_pos (by rw [e2]; exact hw0)]
    · by_cases hw1 : w = some (!d)
      · have hsn : c (!d) ≠ .nil := by
          intro hcn
          rw [node_eq d] at hb
          obtain ⟨_, _, b3⟩ := bal_mk.1 hb
          rw [hcn, hw1] at b3
          rcases b3 with ⟨q, _⟩ | ⟨q, _⟩ | ⟨_, q⟩
          · cases q
          · exact absurd q (Ne.symm (some_not_ne d))
          · simp at q
        have rs := rc (!d)
        have hsv : s.h.valid (s.h.ch n (!d)) ∧ s.h.wt (s.h.ch n (!d)) = (c (!d)).rootW := by
          cases hcs : c (!d) with
          | nil => exact absurd hcs hsn
          | node m w2 c2 =>
            rw [hcs] at rs
            obtain ⟨q1, q2, q3, _⟩ := rs
            rw [q1]; exact ⟨q2, q3⟩
        refine key2 (decide ((c (!d)).rootW = none)) ?_ ?_
        · simp only [decide_eq_true_eq]
          constructor
          · intro h; exact .inr ⟨hw1, h⟩
          · rintro (h | ⟨_, h⟩)
            · exact absurd h hw0
            · exact h
        · rw [if_neg (by rw [e2]; exact hw0), if_pos (by rw [e2]; exact hw1)]
          simp only [TH.child, TH.weight, bind, Except.bind]
          rw [if_pos (show (s.h.sd n (some d)).valid n from v)]
          simp only
          rw [if_pos (show (s.h.sd n (some d)).valid ((s.h.sd n (some d)).ch n (!d)) from hsv.1)]
          simp only
          rw [show (s.h.sd n (some d)).wt ((s.h.sd n (some d)).ch n (!d)) = _ from hsv.2]
      · refine key2 false ⟨fun h => Bool.noConfusion h, ?_⟩ ?_
        · rintro (h | ⟨h, _⟩)
          · exact absurd h hw0
          · exact absurd h hw1
        · rw [if_neg (by rw [e2]; exact hw0), if_neg (by rw [e2]; exact hw1)]

theorem drep_snoc {h : TH} {fs : List Frame} {t : T} {n : Nat} {d : Bool} {w : Option Bool} {sib : T} (nd : (plug fs t).ids.Nodup) (hn : n ∈ t.ids) (hd : DRep h fs) :
    DRep (h.sd n (some d)) (fs ++ [⟨n, d, w, sib⟩]) := by
  intro g hg
  rcases List.mem_append.1 hg with hg | hg
  · have hne : g.n ≠ n := fun he => nodup_plug_disj nd (m := g.n) (by
      obtain ⟨a, b, rfl⟩ := List.append_of_mem hg
      rw [mem_pids_append, mem_pids_cons]; exact .inr (.inl rfl)) (he ▸ hn)
    show upd h.dr n (some d) g.n = _
    rw [upd_other _ _ hne]; exact hd g hg
  · simp only [List.mem_singleton] at hg; subst hg; exact upd_same _ _ _

theorem mem_node (n : Nat) (w : Option Bool) (c : Bool → T) : n ∈ (node n w c).ids := by rw [node_eq false, mem_mk]; exact .inl rfl
theorem mem_sub {n : Nat} {w : Option Bool} {c : Bool → T} (d : Bool) {m : Nat} (h : m ∈ (c d).ids) : m ∈ (node n w c).ids := by
  rw [node_eq d, mem_mk]; exact .inr (.inl h)
theorem bal_sub {n : Nat} {w : Option Bool} {c : Bool → T} (h : (node n w c).Bal) (d : Bool) : (c d).Bal := h.1 d
theorem height_sub {n : Nat} {w : Option Bool} {c : Bool → T} (d : Bool) : (c d).height < (node n w c).height := by
  have := height_mk d n w (c d) (c (!d)); rw [← node_eq d] at this; omega
theorem plug_sub {n : Nat} {w : Option Bool} {c : Bool → T} (fs : List Frame) (d : Bool) :
    plug fs (node n w c) = plug (fs ++ [⟨n, d, w, c (!d)⟩]) (c d) := by rw [plug_append, node_eq d n w c]; rfl

/-- The search below the node found: always in the direction `e`. -/
theorem chain_ok {ev : Nat → α} {k : K} {e : Bool} (t : T) : ∀ (s : St α) (fs : List Frame) (r : Rm) (fuel : Nat),
    Rep s.h s.h.root (plug fs t) → (plug fs t).ids.Nodup → t ≠ .nil → t.Bal → DRep s.h fs → (∀ n ∈ t.ids, s.val n = some (ev n)) →
    r.replace = t.rootId → r.replaceParent = lastn fs → BalI s.h fs r.balance r.balanceParent → t.height < fuel →
    (∀ m ∈ t.ids, e = !(lt k (key (ev m))) ∧ (lt k (key (ev m)) ∨ lt (key (ev m)) k)) →
    ∃ dr' B rn wr y b bp, remLoop key lt s k r fuel = .ok ({ s with h := { s.h with dr := dr' } },
        ⟨r.foundParent, r.found, lastn (fs ++ B), rn, bp, b⟩) ∧
      t = plug B (mk e rn wr .nil y) ∧ (∀ f ∈ B, f.d = e) ∧ DRep { s.h with dr := dr' } (fs ++ B) ∧ dr' rn = some e ∧
      BalI { s.h with dr := dr' } (fs ++ B) b bp := by
  induction t with
  | nil => intro s fs r fuel _ _ h; exact absurd rfl h
  | node n w c ih =>
    intro s fs r fuel rp nd _ hb hD hv h1 h2 hB hf hall
    obtain ⟨fuel, rfl⟩ : ∃ j, fuel = j + 1 := ⟨fuel - 1, by omega⟩
    obtain ⟨g1, g2⟩ := hall n (mem_node n w c)
    have hd : e = dirOf key lt k (ev n) (c false).isNode := by
      unfold dirOf
      cases hk : lt k (key (ev n))
      · rw [hk] at g1 g2
        have : lt (key (ev n)) k = true := by simpa using g2
        rw [this]; simpa using g1
      · rw [hk] at g1; simpa using g1
    have hhit : hit key lt k (ev n) r = r := by unfold hit; rw [if_pos g2]
    obtain ⟨s1, s2⟩ := rem_step key lt (ev := ev) (k := k) (fuel := fuel) rp hb (hv n (mem_node n w c)) h1 h2 hB hd
    rw [hhit] at s1 s2
    by_cases hc : c e = .nil
    · refine ⟨upd s.h.dr n (some e), [], n, w, c (!e), r.balance, r.balanceParent, ?_, ?_, by simp, ?_, upd_same _ _ _, ?_⟩
      · rw [s1 hc, List.append_nil, ← h2]
        congr 2
        cases r; simp only at h1 ⊢; subst h1; rfl
      · show _ = mk e n w .nil (c (!e))
        rw [← hc, ← node_eq e]
      · rw [List.append_nil]
        have := drep_snoc (w := w) (sib := .nil) (d := e) nd (mem_node n w c) hD
        exact this.mono fun x hx => List.mem_append_left _ hx
      · rw [List.append_nil]; exact hB.sd _ _
    · obtain ⟨b, bp, s3, s4⟩ := s2 hc
      have hsp := plug_sub (n := n) (w := w) (c := c) fs e
      obtain ⟨dr', B, rn, wr, y, b', bp', i1, i2, i3, i4, i5, i6⟩ := ih e { s with h := s.h.sd n (some e) } (fs ++ [⟨n, e, w, c (!e)⟩])
        ⟨r.foundParent, r.found, n, (c e).rootId, bp, b⟩ fuel (by rw [← hsp]; exact rp.sd _ _) (by rw [← hsp]; exact nd) hc (bal_sub hb e)
        (drep_snoc nd (mem_node n w c) hD) (fun m hm => hv m (mem_sub e hm)) rfl (by rw [lastn_snoc]) s4
        (by have := height_sub (n := n) (w := w) (c := c) e; omega) (fun m hm => hall m (mem_sub e hm))
      simp only [List.append_assoc, List.singleton_append] at i1 i4 i6
      refine ⟨dr', ⟨n, e, w, c (!e)⟩ :: B, rn, wr, y, b', bp', ?_, ?_, ?_, i4, i5, i6⟩
      · rw [s3]; exact i1
      · show _ = mk e n w (plug B _) (c (!e))
        rw [← i2, ← node_eq e]
      · intro f hf
        rcases List.mem_cons.1 hf with rfl | hf
        · rfl
        · exact i3 f hf

/-- The whole search: not found; found and its own replacement; found with a replacement below. -/
theorem remLoop_ok {ev : Nat → α} {k : K} (hlt : StrictWeak lt) (t : T) : ∀ (s : St α) (fs : List Frame) (r : Rm) (fuel : Nat),
    Rep s.h s.h.root (plug fs t) → (plug fs t).ids.Nodup → t ≠ .nil → t.Bal → DRep s.h fs → (∀ n ∈ t.ids, s.val n = some (ev n)) →
    r.replace = t.rootId → r.replaceParent = lastn fs → BalI s.h fs r.balance r.balanceParent → t.height < fuel →
    t.ids.Pairwise (fun a b => lt (key (ev a)) (key (ev b))) →
    ∃ dr' r', remLoop key lt s k r fuel = .ok ({ s with h := { s.h with dr := dr' } }, r') ∧
      ((∃ F, (∀ f ∈ F, Goes key lt ev k f) ∧ t = plug F .nil ∧ r'.found = r.found) ∨
       (∃ F n d w y, (∀ f ∈ F, Goes key lt ev k f) ∧ lt k (key (ev n)) = false ∧ lt (key (ev n)) k = false ∧
         t = plug F (mk d n w .nil y) ∧ r'.found = n ∧ r'.foundParent = lastn (fs ++ F) ∧ r'.replaceParent = lastn (fs ++ F) ∧
         DRep { s.h with dr := dr' } (fs ++ F) ∧ dr' n = some d ∧ BalI { s.h with dr := dr' } (fs ++ F) r'.balance r'.balanceParent) ∨
       (∃ F a B rn wr y, (∀ f ∈ F, Goes key lt ev k f) ∧ lt k (key (ev a.n)) = false ∧ lt (key (ev a.n)) k = false ∧
         t = plug (F ++ a :: B) (mk (!a.d) rn wr .nil y) ∧ (∀ f ∈ B, f.d = !a.d) ∧ r'.found = a.n ∧ r'.foundParent = lastn (fs ++ F) ∧
         r'.replaceParent = lastn (fs ++ (F ++ a :: B)) ∧ DRep { s.h with dr := dr' } (fs ++ (F ++ a :: B)) ∧ dr' rn = some (!a.d) ∧
         BalI { s.h with dr := dr' } (fs ++ (F ++ a :: B)) r'.balance r'.balanceParent)) := by
  induction t with
  | nil => intro s fs r fuel _ _ h; exact absurd rfl h
  | node n w c ih =>
    intro s fs r fuel rp nd _ hb hD hv h1 h2 hB hf hso
    obtain ⟨fuel, rfl⟩ : ∃ j, fuel = j + 1 := ⟨fuel - 1, by omega⟩
    have hid : (node n w c).ids = (c false).ids ++ n :: (c true).ids := by rw [node_eq false]; exact ino_mk false n w _ _
    rw [hid, List.pairwise_append, List.pairwise_cons] at hso
    obtain ⟨so1, ⟨so2, so3⟩, so4⟩ := hso
    have sos : ∀ d, (c d).ids.Pairwise (fun a b => lt (key (ev a)) (key (ev b))) := fun d => by cases d; exact so1; exact so3
    generalize hd : dirOf key lt k (ev n) (c false).isNode = d
    obtain ⟨s1, s2⟩ := rem_step key lt (ev := ev) (k := k) (fuel := fuel) rp hb (hv n (mem_node n w c)) h1 h2 hB hd.symm
    have hsp := plug_sub (n := n) (w := w) (c := c) fs d
    have hDs : DRep (s.h.sd n (some d)) fs := by
      have := drep_snoc (w := w) (sib := .nil) (d := d) nd (mem_node n w c) hD
      exact this.mono fun x hx => List.mem_append_left _ hx
    by_cases hne : lt k (key (ev n)) ∨ lt (key (ev n)) k
    · have hhit : hit key lt k (ev n) r = r := by unfold hit; rw [if_pos hne]
      rw [hhit] at s1 s2
      have hgo : Goes key lt ev k ⟨n, d, w, c (!d)⟩ := by
        refine ⟨?_, hne⟩
        rw [← hd]; unfold dirOf
        cases hk : lt k (key (ev n))
        · rw [hk] at hne
          have : lt (key (ev n)) k = true := by simpa using hne
          simp [this]
        · simp
      by_cases hc : c d = .nil
      · refine ⟨upd s.h.dr n (some d), r, s1 hc, .inl ⟨[⟨n, d, w, c (!d)⟩], by simpa using hgo, ?_, rfl⟩⟩
        show _ = mk d n w .nil (c (!d))
        rw [← hc, ← node_eq d]
      · obtain ⟨b, bp, s3, s4⟩ := s2 hc
        obtain ⟨dr', r', i1, i2⟩ := ih d { s with h := s.h.sd n (some d) } (fs ++ [⟨n, d, w, c (!d)⟩])
          ⟨r.foundParent, r.found, n, (c d).rootId, bp, b⟩ fuel (by rw [← hsp]; exact rp.sd _ _) (by rw [← hsp]; exact nd) hc (bal_sub hb d)
          (drep_snoc nd (mem_node n w c) hD) (fun m hm => hv m (mem_sub d hm)) rfl (by rw [lastn_snoc]) s4
          (by have := height_sub (n := n) (w := w) (c := c) d; omega) (sos d)
        simp only [List.append_assoc, List.singleton_append] at i2
        have hgo2 : ∀ F : List Frame, (∀ f ∈ F, Goes key lt ev k f) → ∀ f ∈ (⟨n, d, w, c (!d)⟩ :: F : List Frame), Goes key lt ev k f := by
          intro F hF f hf
          rcases List.mem_cons.1 hf with rfl | hf
          · exact hgo
          · exact hF f hf
        have htt : ∀ F t', c d = plug F t' → node n w c = plug (⟨n, d, w, c (!d)⟩ :: F) t' := by
          intro F t' hh
          show _ = mk d n w (plug F t') (c (!d))
          rw [← hh, ← node_eq d]
        refine ⟨dr', r', by rw [s3]; exact i1, ?_⟩
        rcases i2 with ⟨F, j1, j2, j3⟩ | ⟨F, n', d', w', y, j1, j2, j3, j4, j5⟩ | ⟨F, a, B, rn, wr, y, j1, j2, j3, j4, j5⟩
        · exact .inl ⟨_ :: F, hgo2 F j1, htt _ _ j2, j3⟩
        · exact .inr (.inl ⟨_ :: F, n', d', w', y, hgo2 F j1, j2, j3, htt _ _ j4, j5⟩)
        · exact .inr (.inr ⟨_ :: F, a, B, rn, wr, y, hgo2 F j1, j2, j3, htt _ _ j4, j5⟩)
    · have hk1 : lt k (key (ev n)) = false := by apply Bool.eq_false_iff.2; tauto
      have hk2 : lt (key (ev n)) k = false := by apply Bool.eq_false_iff.2; tauto
      have hhit : hit key lt k (ev n) r = ⟨lastn fs, n, lastn fs, n, r.balanceParent, r.balance⟩ := by
        unfold hit; rw [if_neg hne]
        cases r; simp only at h1 h2 ⊢; subst h1 h2; rfl
      rw [hhit] at s1 s2
      by_cases hc : c d = .nil
      · refine ⟨upd s.h.dr n (some d), _, s1 hc, .inr (.inl ⟨[], n, d, w, c (!d), by simp, hk1, hk2, ?_, rfl, by simp, by simp, by rw [List.append_nil]; exact hDs, upd_same _ _ _, ?_⟩)⟩
        · show _ = mk d n w .nil (c (!d))
          rw [← hc, ← node_eq d]
        · rw [List.append_nil]; exact hB.sd _ _
      · obtain ⟨b, bp, s3, s4⟩ := s2 hc
        have hall : ∀ m ∈ (c d).ids, (!d) = !(lt k (key (ev m))) ∧ (lt k (key (ev m)) ∨ lt (key (ev m)) k) := by
          intro m hm
          cases d
          · have h3 := so4 m hm n (by simp)
            have h4 : lt (key (ev m)) k = true := hlt.lt_of_lt_of_le h3 hk1
            rw [show lt k (key (ev m)) = false from hlt.asymm h4]; exact ⟨rfl, .inr h4⟩
          · have h3 := so2 m hm
            have h4 : lt k (key (ev m)) = true := hlt.lt_of_le_of_lt hk2 h3
            rw [h4]; exact ⟨rfl, .inl rfl⟩
        obtain ⟨dr', B, rn, wr, y, b', bp', i1, i2, i3, i4, i5, i6⟩ := chain_ok key lt (ev := ev) (k := k) (e := !d) (c d)
          { s with h := s.h.sd n (some d) } (fs ++ [⟨n, d, w, c (!d)⟩])
          ⟨lastn fs, n, n, (c d).rootId, bp, b⟩ fuel (by rw [← hsp]; exact rp.sd _ _) (by rw [← hsp]; exact nd) hc (bal_sub hb d)
          (drep_snoc nd (mem_node n w c) hD) (fun m hm => hv m (mem_sub d hm)) rfl (by rw [lastn_snoc]) s4
          (by have := height_sub (n := n) (w := w) (c := c) d; omega) hall
        simp only [List.append_assoc, List.singleton_append] at i1 i4 i6
        refine ⟨dr', _, by rw [s3]; exact i1, .inr (.inr ⟨[], ⟨n, d, w, c (!d)⟩, B, rn, wr, y, by simp, hk1, hk2, ?_, i3, rfl, by simp, by simp, ?_, i5, ?_⟩)⟩
        · show _ = mk d n w (plug B _) (c (!d))
          rw [← i2, ← node_eq d]
        · exact i4
        · exact i6

end Etl.Tree
