import Verif.IVec.Model
import Verif.PVec.Props
import Mathlib.Tactic.SplitIfs
import Mathlib.Data.List.Forall2

/-!
# Properties of indirect vectors (C72)
-/
namespace Etl.IVec

variable {α : Type}

/-! ## Specification

The contents of each vector: its elements, with their addresses. -/

abbrev Sys (α : Type) := Nat → List (Addr × α)

/-- What the vectors and pools are made with: capacities, the pool of each vector, the checks compiled in; the number of vectors. -/
structure Cfg where
  m : Nat
  cap : Nat → Nat
  pcap : Nat → Nat
  pool : Nat → Nat
  check : Bool
  debug : Bool

/-- The value an argument stands for. -/
def ArgVal (m : Nat) (A : Sys α) : Arg α → α → Prop
  | .val v, w => w = v
  | .ref a, w => ∃ c, c < m ∧ (a, w) ∈ A c

/-- `A'` differs from `A` in vector `c` only: new elements with the values `vs` at position `p`, at distinct addresses not in use. -/
def Inserted (m : Nat) (A : Sys α) (c p : Nat) (vs : List α) (A' : Sys α) : Prop :=
  ∃ as : List Addr, as.length = vs.length ∧ as.Nodup ∧ (∀ a ∈ as, ∀ d, d < m → ∀ x ∈ A d, x.1 ≠ a) ∧
    A' = upd A c ((A c).take p ++ as.zip vs ++ (A c).drop p)

/-- `A'` differs from `A` in vector `c` only: it has the values `vs`, at distinct addresses not in use by the other vectors. -/
def Assigned (m : Nat) (A : Sys α) (c : Nat) (vs : List α) (A' : Sys α) : Prop :=
  ∃ as : List Addr, as.length = vs.length ∧ as.Nodup ∧ (∀ a ∈ as, ∀ d, d < m → d ≠ c → ∀ x ∈ A d, x.1 ≠ a) ∧ A' = upd A c (as.zip vs)

/-- The preconditions.  `av` is the number of free items of the pool of the vector (`pool.available()`): calls that add several elements need enough of them
(see `failed_insert_leaves_null`); adding one element does not, but must not be one too many for the lookup unless that is checked (see `shared_pool_overrun`). -/
def Legal (g : Cfg) (av : Nat) (A : Sys α) : Op α → Prop
  | .pushBack c a => c < g.m ∧ (∃ v, ArgVal g.m A a v) ∧ ((A c).length < g.cap c ∨ av = 0 ∨ g.check = true)
  | .emplaceBack c a => c < g.m ∧ (∃ v, ArgVal g.m A a v) ∧ ((A c).length < g.cap c ∨ av = 0)
  | .popBack c | .clear c => c < g.m
  | .resize c k a => c < g.m ∧ (∃ v, ArgVal g.m A a v) ∧ k ≤ (A c).length + av
  | .assignRange c vs => c < g.m ∧ (g.debug = true ∨ vs.length ≤ g.cap c) ∧ vs.length ≤ (A c).length + av
  | .assignN c k a => c < g.m ∧ (∃ v, ArgVal g.m (upd A c []) a v) ∧ k ≤ (A c).length + av
  | .insert c p a => c < g.m ∧ (∃ v, ArgVal g.m A a v) ∧ p ≤ (A c).length
  | .insertN c p k a => c < g.m ∧ (∃ v, ArgVal g.m A a v) ∧ p ≤ (A c).length ∧ k ≤ av
  | .insertRange c p vs => c < g.m ∧ p ≤ (A c).length ∧ vs.length ≤ av
  | .erase c p => c < g.m ∧ p < (A c).length
  | .eraseRange c a b => c < g.m ∧ a ≤ b ∧ b ≤ (A c).length
  | .setAt c i _ => c < g.m ∧ i < (A c).length
  | .copyAssign c d => c < g.m ∧ d < g.m ∧ c ≠ d ∧ (g.debug = true ∨ (A d).length ≤ g.cap c) ∧ (A d).length ≤ (A c).length + av
  | .moveAssign c d => c < g.m ∧ d < g.m ∧ c ≠ d ∧ (A d).length ≤ g.cap c ∧ (A d).length ≤ (A c).length + av

def opVec : Op α → Nat
  | .pushBack c _ | .emplaceBack c _ | .popBack c | .clear c | .resize c _ _ | .assignRange c _ | .assignN c _ _ | .insert c _ _ | .insertN c _ _ _
  | .insertRange c _ _ | .erase c _ | .eraseRange c _ _ | .setAt c _ _ | .copyAssign c _ | .moveAssign c _ => c

/-- What a call does. -/
def Does (g : Cfg) (av : Nat) (A : Sys α) : Op α → Sys α → Option Err → Prop
  | .pushBack c a, A', e =>
    if g.check = true ∧ (A c).length = g.cap c then A' = A ∧ e = some .full
    else if av = 0 then A' = A ∧ e = some .noAllocation
    else e = none ∧ ∃ v, ArgVal g.m A a v ∧ Inserted g.m A c (A c).length [v] A'
  | .emplaceBack c a, A', e =>
    if av = 0 then A' = A ∧ e = some .noAllocation
    else e = none ∧ ∃ v, ArgVal g.m A a v ∧ Inserted g.m A c (A c).length [v] A'
  | .popBack c, A', e => if A c = [] then A' = A ∧ e = some .empty else A' = upd A c (A c).dropLast ∧ e = none
  | .resize c k a, A', e =>
    if g.cap c < k then A' = A ∧ e = some .full
    else if k ≤ (A c).length then A' = upd A c ((A c).take k) ∧ e = none
    else e = none ∧ ∃ v, ArgVal g.m A a v ∧ Inserted g.m A c (A c).length (List.replicate (k - (A c).length) v) A'
  | .clear c, A', e => A' = upd A c [] ∧ e = none
  | .assignRange c vs, A', e => if g.cap c < vs.length then A' = A ∧ e = some .full else e = none ∧ Assigned g.m A c vs A'
  | .assignN c k a, A', e => if g.cap c < k then A' = A ∧ e = some .full else e = none ∧ ∃ v, ArgVal g.m (upd A c []) a v ∧ Assigned g.m A c (List.replicate k v) A'
  | .insert c p a, A', e =>
    if (A c).length = g.cap c then A' = A ∧ e = some .full
    else if av = 0 then A' = A ∧ e = some .noAllocation
    else e = none ∧ ∃ v, ArgVal g.m A a v ∧ Inserted g.m A c p [v] A'
  | .insertN c p k a, A', e =>
    if g.cap c < (A c).length + k then A' = A ∧ e = some .full else e = none ∧ ∃ v, ArgVal g.m A a v ∧ Inserted g.m A c p (List.replicate k v) A'
  | .insertRange c p vs, A', e => if g.cap c < (A c).length + vs.length then A' = A ∧ e = some .full else e = none ∧ Inserted g.m A c p vs A'
  | .erase c p, A', e => A' = upd A c ((A c).eraseIdx p) ∧ e = none
  | .eraseRange c a b, A', e => A' = upd A c ((A c).take a ++ (A c).drop b) ∧ e = none
  | .setAt c i v, A', e => (∃ x, (A c)[i]? = some x ∧ A' = upd A c ((A c).set i (x.1, v))) ∧ e = none
  | .copyAssign c d, A', e => if g.cap c < (A d).length then A' = A ∧ e = some .full else e = none ∧ Assigned g.m A c ((A d).map Prod.snd) A'
  | .moveAssign c d, A', e => e = none ∧ ∃ A1, Assigned g.m A c ((A d).map Prod.snd) A1 ∧ A' = upd A1 d []

/-- All elements of all vectors. -/
def all (m : Nat) (A : Sys α) : List (Addr × α) := (List.range m).flatMap A

/-- The state shows exactly the elements of `A`, with their values and addresses; these are all distinct, and the pools hold them and nothing else. -/
structure Shows (g : Cfg) (s : St α) (A : Sys α) : Prop where
  contents : ∀ c, c < g.m → contents s c = .ok ((A c).map Prod.snd)
  addresses : ∀ c, c < g.m → addresses s c = .ok ((A c).map (fun x => some x.1))
  size : ∀ c, c < g.m → size s c = (A c).length ∧ (A c).length ≤ g.cap c ∧ (empty s c = true ↔ A c = []) ∧ (full s c = true ↔ (A c).length = g.cap c)
  distinct : ((all g.m A).map Prod.fst).Nodup
  inPool : ∀ c, c < g.m → ∀ x ∈ A c, x.1.1 = g.pool c ∧ x.1.2 < g.pcap (g.pool c)
  noLeak : ∀ q, available s q + ((all g.m A).filter (fun x => x.1.1 = q)).length = g.pcap q

/-- The reachable states: any history of calls that respect the preconditions. -/
inductive Reach (g : Cfg) : St α → Prop where
  | init (junk : Nat → Nat → Option Addr) : Reach g (init g.pcap g.cap g.pool g.check g.debug junk)
  | step {s s' : St α} {A : Sys α} {o : Op α} {e : Option Err} (r : Reach g s) (hs : Shows g s A) (hl : Legal g (available s (g.pool (opVec o))) A o)
      (h : step s o = .ok (s', e)) : Reach g s'

/-! ## The heap -/

structure H (pcap : Nat → Nat) (h : Heap α) (own : List (Addr × α)) : Prop where
  pc : h.pcap = pcap
  nd : (own.map Prod.fst).Nodup
  fnd : ∀ q, (h.free q).Nodup
  dead : ∀ q k, k ∈ h.free q → h.obj (q, k) = none
  frng : ∀ q k, k ∈ h.free q → k < pcap q
  orng : ∀ x ∈ own, x.1.2 < pcap x.1.1
  cnt : ∀ q, (h.free q).length + (own.filter (fun x => x.1.1 = q)).length = pcap q
  val : ∀ x ∈ own, h.obj x.1 = some x.2

variable {pcap : Nat → Nat} {h : Heap α} {own own' : List (Addr × α)}

theorem H.perm (hh : H pcap h own) (p : own.Perm own') : H pcap h own' := by
  refine ⟨hh.pc, (p.map Prod.fst).nodup_iff.mp hh.nd, hh.fnd, hh.dead, hh.frng, ?_, ?_, ?_⟩
  · intro x hx; exact hh.orng x (p.mem_iff.mpr hx)
  · intro q; rw [← (p.filter _).length_eq]; exact hh.cnt q
  · intro x hx; exact hh.val x (p.mem_iff.mpr hx)

theorem create_none (hf : h.free q = []) (arg : Arg α) : create h q arg = .ok (h, none) := by
  unfold create; rw [hf]

theorem create_ok (hh : H pcap h own) {q k : Nat} {r : List Nat} (hf : h.free q = k :: r) {arg : Arg α} {v : α} (ha : argv h arg = .ok v) :
    ∃ h', create h q arg = .ok (h', some (q, k)) ∧ H pcap h' (((q, k), v) :: own) ∧ h'.free q = r ∧ ∀ b, ((q, k) : Addr) ≠ b → h'.obj b = h.obj b := by
  have hm : k ∈ h.free q := by rw [hf]; exact List.mem_cons_self
  have hd := hh.dead q k hm
  have hno : ∀ x ∈ own, x.1 ≠ (q, k) := by
    intro x hx e
    have := hh.val x hx
    rw [e, hd] at this; cases this
  have hnd := hh.fnd q
  rw [hf, List.nodup_cons] at hnd
  refine ⟨{ h with free := upd h.free q r, obj := setObj h.obj (q, k) (some v) }, ?_, ⟨hh.pc, ?_, ?_, ?_, ?_, ?_, ?_, ?_⟩, upd_same _ _ _, ?_⟩
  · unfold create; rw [hf]; simp only []; rw [hd]; simp only [ha, bind, Except.bind]
  · rw [List.map_cons, List.nodup_cons]
    refine ⟨?_, hh.nd⟩
    intro hx
    obtain ⟨x, hx, e⟩ := List.mem_map.mp hx
    exact hno x hx e
  · intro q'
    show (upd h.free q r q').Nodup
    by_cases e : q' = q
    · rw [e, upd_same]; exact hnd.2
    · rw [upd_other _ _ e]; exact hh.fnd q'
  · intro q' k' hk
    show setObj h.obj (q, k) (some v) (q', k') = none
    have hk' : k' ∈ upd h.free q r q' := hk
    by_cases e : q' = q
    · subst e; rw [upd_same] at hk'
      unfold setObj; rw [if_neg]
      · exact hh.dead _ _ (by rw [hf]; exact List.mem_cons_of_mem _ hk')
      · intro e; cases e; exact hnd.1 hk'
    · rw [upd_other _ _ e] at hk'
      unfold setObj; rw [if_neg]
      · exact hh.dead _ _ hk'
      · intro e'; cases e'; exact e rfl
  · intro q' k' hk
    have hk' : k' ∈ upd h.free q r q' := hk
    by_cases e : q' = q
    · subst e; rw [upd_same] at hk'; exact hh.frng _ _ (by rw [hf]; exact List.mem_cons_of_mem _ hk')
    · rw [upd_other _ _ e] at hk'; exact hh.frng _ _ hk'
  · intro x hx
    rcases List.mem_cons.mp hx with rfl | hx
    · exact hh.frng q k hm
    · exact hh.orng x hx
  · intro q'
    show (upd h.free q r q').length + _ = _
    have hc := hh.cnt q'
    by_cases e : q' = q
    · subst e; rw [upd_same]
      rw [hf, List.length_cons] at hc
      rw [List.filter_cons, if_pos (by simp), List.length_cons]; omega
    · rw [upd_other _ _ e, List.filter_cons, if_neg (by simp; exact fun x => e x.symm)]; exact hc
  · intro x hx
    show setObj h.obj (q, k) (some v) x.1 = _
    unfold setObj
    rcases List.mem_cons.mp hx with rfl | hx
    · rw [if_pos rfl]
    · rw [if_neg (hno x hx)]; exact hh.val x hx
  · intro b hb
    show setObj h.obj (q, k) (some v) b = _
    unfold setObj; rw [if_neg (fun e => hb e.symm)]

theorem destroy_ok {x : Addr × α} (hh : H pcap h (x :: own)) : ∃ h', destroy h x.1.1 (some x.1) = .ok h' ∧ H pcap h' own := by
  have hv := hh.val x List.mem_cons_self
  have hnd := hh.nd
  rw [List.map_cons, List.nodup_cons] at hnd
  have hno : ∀ y ∈ own, y.1 ≠ x.1 := fun y hy e => hnd.1 (List.mem_map.mpr ⟨y, hy, e⟩)
  have hnf : x.1.2 ∉ h.free x.1.1 := by
    intro hk
    have := hh.dead _ _ hk
    rw [show ((x.1.1, x.1.2) : Addr) = x.1 from rfl, hv] at this; cases this
  refine ⟨{ h with free := upd h.free x.1.1 (x.1.2 :: h.free x.1.1), obj := setObj h.obj x.1 none }, ?_, ⟨hh.pc, hnd.2, ?_, ?_, ?_, ?_, ?_, ?_⟩⟩
  · unfold destroy; simp only [hv]; rw [if_pos trivial]
  · intro q'
    show (upd h.free _ _ q').Nodup
    by_cases e : q' = x.1.1
    · rw [e, upd_same, List.nodup_cons]; exact ⟨hnf, hh.fnd _⟩
    · rw [upd_other _ _ e]; exact hh.fnd q'
  · intro q' k' hk
    show setObj h.obj x.1 none (q', k') = none
    unfold setObj
    by_cases e : ((q', k') : Addr) = x.1
    · rw [if_pos e]
    · rw [if_neg e]
      have hk' : k' ∈ upd h.free x.1.1 (x.1.2 :: h.free x.1.1) q' := hk
      by_cases e' : q' = x.1.1
      · rw [e', upd_same] at hk'
        rcases List.mem_cons.mp hk' with hk' | hk'
        · exact absurd (by rw [e', hk']) e
        · rw [e']; exact hh.dead _ _ hk'
      · rw [upd_other _ _ e'] at hk'; exact hh.dead _ _ hk'
  · intro q' k' hk
    have hk' : k' ∈ upd h.free x.1.1 (x.1.2 :: h.free x.1.1) q' := hk
    by_cases e' : q' = x.1.1
    · rw [e', upd_same] at hk'
      rcases List.mem_cons.mp hk' with hk' | hk'
      · rw [hk', e']; exact hh.orng x List.mem_cons_self
      · rw [e']; exact hh.frng _ _ hk'
    · rw [upd_other _ _ e'] at hk'; exact hh.frng _ _ hk'
  · intro y hy; exact hh.orng y (List.mem_cons_of_mem _ hy)
  · intro q'
    show (upd h.free _ _ q').length + _ = _
    have hc := hh.cnt q'
    rw [List.filter_cons] at hc
    by_cases e : q' = x.1.1
    · rw [if_pos (by simp [e]), List.length_cons] at hc
      rw [e, upd_same, List.length_cons]; rw [e] at hc; omega
    · rw [if_neg (by simp; exact fun x => e x.symm)] at hc
      rw [upd_other _ _ e]; exact hc
  · intro y hy
    show setObj h.obj x.1 none y.1 = _
    unfold setObj; rw [if_neg (hno y hy)]; exact hh.val y (List.mem_cons_of_mem _ hy)

/-! ## The invariant -/

structure Inv (g : Cfg) (s : St α) (A : Sys α) : Prop where
  pl : s.pool = g.pool
  look : ∀ c, c < g.m → PVec.Holds (g.cap c) g.check g.debug true (s.look c) ((A c).map (fun x => some x.1))
  heap : H g.pcap s.h (all g.m A)
  inp : ∀ c, c < g.m → ∀ x ∈ A c, x.1.1 = g.pool c

theorem mem_all {m : Nat} {A : Sys α} {x : Addr × α} : x ∈ all m A ↔ ∃ c, c < m ∧ x ∈ A c := by
  unfold all; rw [List.mem_flatMap]; simp only [List.mem_range]

/-- The elements of one vector and those of the others. -/
theorem all_split (m : Nat) (A : Sys α) {c : Nat} (hc : c < m) :
    ∃ R, (∀ L, (all m (upd A c L)).Perm (L ++ R)) ∧ (all m A).Perm (A c ++ R) ∧ ∀ x ∈ R, ∃ d, d < m ∧ d ≠ c ∧ x ∈ A d := by
  induction m with
  | zero => omega
  | succ m ih =>
    have e : ∀ B : Sys α, all (m + 1) B = all m B ++ B m := by
      intro B; unfold all; rw [List.range_succ, List.flatMap_append]; simp
    by_cases hm : c = m
    · subst hm
      have : ∀ L, all c (upd A c L) = all c A := by
        intro L; unfold all
        rw [List.flatMap_def, List.flatMap_def]
        congr 1
        apply List.map_congr_left
        intro d hd
        rw [List.mem_range] at hd
        exact upd_other _ _ (by omega)
      refine ⟨all c A, ?_, ?_, ?_⟩
      · intro L; rw [e, this, upd_same]; exact List.perm_append_comm
      · rw [e]; exact List.perm_append_comm
      · intro x hx
        obtain ⟨d, h1, h2⟩ := mem_all.mp hx
        exact ⟨d, by omega, by omega, h2⟩
    · obtain ⟨R, h1, h2, h3⟩ := ih (by omega)
      refine ⟨R ++ A m, ?_, ?_, ?_⟩
      · intro L; rw [e, upd_other _ _ (Ne.symm hm), ← List.append_assoc]; exact (h1 L).append_right _
      · rw [e, ← List.append_assoc]; exact h2.append_right _
      · intro x hx
        rcases List.mem_append.mp hx with hx | hx
        · obtain ⟨d, k1, k2, k3⟩ := h3 x hx; exact ⟨d, by omega, k2, k3⟩
        · exact ⟨m, by omega, Ne.symm hm, hx⟩

theorem upd_self {β : Type} (f : Nat → β) (c : Nat) : upd f c (f c) = f := by
  funext d; unfold upd; split_ifs with h
  · rw [h]
  · rfl

theorem upd_upd {β : Type} (f : Nat → β) (c : Nat) (x y : β) : upd (upd f c x) c y = upd f c y := by
  funext d; unfold upd; split_ifs <;> rfl

/-- Putting an invariant together after vector `c` has changed. -/
theorem Inv.change {g : Cfg} {s : St α} {A : Sys α} (hi : Inv g s A) {c : Nat} {s' : St α} {L R : List (Addr × α)}
    (hR : ∀ L, (all g.m (upd A c L)).Perm (L ++ R)) (hh : H g.pcap s'.h (L ++ R)) (hp : s'.pool = s.pool)
    (hl : PVec.Holds (g.cap c) g.check g.debug true (s'.look c) (L.map (fun x => some x.1))) (ho : ∀ d, d ≠ c → s'.look d = s.look d)
    (hq : ∀ x ∈ L, x.1.1 = g.pool c) : Inv g s' (upd A c L) := by
  refine ⟨hp.trans hi.pl, ?_, hh.perm (hR L).symm, ?_⟩
  · intro d hd
    by_cases e : d = c
    · rw [e, upd_same]; exact hl
    · rw [upd_other _ _ e, ho d e]; exact hi.look d hd
  · intro d hd
    by_cases e : d = c
    · rw [e, upd_same]; exact hq
    · rw [upd_other _ _ e]; exact hi.inp d hd

theorem argv_ok (hh : H pcap h own) {m : Nat} {A : Sys α} {arg : Arg α} {v : α} (ha : ArgVal m A arg v) (hsub : ∀ c, c < m → ∀ x ∈ A c, x ∈ own) :
    argv h arg = .ok v := by
  cases arg with
  | val w => cases (show v = w from ha); rfl
  | ref a =>
    obtain ⟨c, hc, hx⟩ := ha
    have := hh.val _ (hsub c hc _ hx)
    simp only at this
    unfold argv; simp only [this]

/-! ## One vector, the others left alone -/

/-- Vector `c` has the elements `L`, all others together `R`. -/
structure Loc (g : Cfg) (s : St α) (c : Nat) (L R : List (Addr × α)) : Prop where
  pl : s.pool = g.pool
  hh : H g.pcap s.h (L ++ R)
  lk : PVec.Holds (g.cap c) g.check g.debug true (s.look c) (L.map (fun x => some x.1))
  inp : ∀ x ∈ L, x.1.1 = g.pool c

/-- What the operations on vector `c` keep: everything about the other vectors. -/
structure Same (c : Nat) (s s' : St α) : Prop where
  pl : s'.pool = s.pool
  lk : ∀ d, d ≠ c → s'.look d = s.look d

theorem Same.refl (c : Nat) (s : St α) : Same c s s := ⟨rfl, fun _ _ => rfl⟩
theorem Same.trans {c : Nat} {s s' s'' : St α} (h : Same c s s') (h' : Same c s' s'') : Same c s s'' :=
  ⟨h'.pl.trans h.pl, fun d hd => (h'.lk d hd).trans (h.lk d hd)⟩

/-- Objects stay what they are. -/
def Keeps (s s' : St α) : Prop := ∀ b w, s.h.obj b = some w → s'.h.obj b = some w

theorem argv_keeps {s s' : St α} (hk : Keeps s s') {arg : Arg α} {v : α} (ha : argv s.h arg = .ok v) : argv s'.h arg = .ok v := by
  cases arg with
  | val w => exact ha
  | ref a =>
    unfold argv at ha ⊢
    cases ho : s.h.obj a with
    | none => simp only [ho] at ha; cases ha
    | some w => simp only [ho] at ha; simp only [hk a w ho]; exact ha

variable {g : Cfg} {s : St α} {c : Nat} {L R : List (Addr × α)}

theorem avail_eq (hl : Loc g s c L R) (q : Nat) (hq : q = g.pool c) : available s q + L.length + (R.filter (fun x => x.1.1 = q)).length = g.pcap q := by
  have := hl.hh.cnt q
  rw [List.filter_append, List.length_append] at this
  have e : L.filter (fun x => decide (x.1.1 = q)) = L := by
    rw [List.filter_eq_self]; intro x hx; simp [hl.inp x hx, hq]
  rw [e] at this
  unfold available; omega

theorem size_eq (hl : Loc g s c L R) : size s c = L.length := by
  have := hl.lk.len; rw [List.length_map] at this; exact this
theorem cap_eq (hl : Loc g s c L R) : capacity s c = g.cap c := hl.lk.hcap

theorem create_cons (hl : Loc g s c L R) (hp : 0 < available s (g.pool c)) {arg : Arg α} {v : α} (ha : argv s.h arg = .ok v) :
    ∃ h' a, create s.h (s.pool c) arg = .ok (h', some a) ∧ H g.pcap h' ((a, v) :: (L ++ R)) ∧ a.1 = g.pool c ∧
      (h'.free (g.pool c)).length + 1 = available s (g.pool c) ∧ Keeps s { s with h := h' } := by
  rw [hl.pl]
  unfold available at hp ⊢
  cases hf : s.h.free (g.pool c) with
  | nil => rw [hf] at hp; simp at hp
  | cons k r =>
    obtain ⟨h', h1, h2, h3, h4⟩ := create_ok hl.hh hf ha
    refine ⟨h', _, h1, h2, rfl, by rw [h3]; rfl, ?_⟩
    intro b w hb
    show h'.obj b = some w
    rw [h4 b, hb]
    intro e
    have := hl.hh.dead _ k (by rw [hf]; exact List.mem_cons_self)
    rw [e, hb] at this; cases this

theorem emplaceBack_loc (hl : Loc g s c L R) (hp : 0 < available s (g.pool c)) (hc : L.length < g.cap c) {arg : Arg α} {v : α} (ha : argv s.h arg = .ok v) :
    ∃ s' a, emplaceBack s c arg = .ok (s', none) ∧ Loc g s' c (L ++ [(a, v)]) R ∧ Same c s s' ∧ Keeps s s' ∧ available s' (g.pool c) + 1 = available s (g.pool c) := by
  obtain ⟨h', a, h1, h2, h3, h4, h5⟩ := create_cons hl hp ha
  obtain ⟨l', k1, k2⟩ := PVec.step_ok hl.lk (o := .pushBack (some a)) (Or.inr (by rw [List.length_map]; exact hc))
  simp only [PVec.step, PVec.specStep, List.length_map, hc, if_true] at k1 k2
  refine ⟨setLook { s with h := h' } c l', a, ?_, ⟨hl.pl, ?_, ?_, ?_⟩, ⟨rfl, fun d hd => upd_other _ _ hd⟩, h5, h4⟩
  · unfold emplaceBack lookPush
    rw [h1]
    simp only [bind, Except.bind]
    rw [k1]
  · refine h2.perm ?_
    rw [List.append_assoc]; exact List.perm_middle.symm
  · show PVec.Holds _ _ _ _ (upd s.look c l' c) _
    rw [upd_same, List.map_append]; exact k2
  · intro x hx
    rcases List.mem_append.mp hx with hx | hx
    · exact hl.inp x hx
    · rw [List.mem_singleton] at hx; rw [hx]; exact h3

theorem emplaceAll_loc : ∀ (args : List (Arg α)) (vs : List α) (s : St α) (L : List (Addr × α)), Loc g s c L R →
    List.Forall₂ (fun a v => argv s.h a = .ok v) args vs → args.length ≤ available s (g.pool c) → L.length + args.length ≤ g.cap c →
    ∃ s', ∃ as : List Addr, emplaceAll s c args = .ok (s', none) ∧ as.length = vs.length ∧ Loc g s' c (L ++ as.zip vs) R ∧ Same c s s' ∧ Keeps s s' := by
  intro args
  induction args with
  | nil =>
    intro vs s L hl hf _ _
    cases hf
    exact ⟨s, [], rfl, rfl, by simpa using hl, Same.refl _ _, fun _ _ hb => hb⟩
  | cons a args ih =>
    intro vs s L hl hf hp hc
    cases hf with
    | @cons _ v _ vs ha hf =>
      rw [List.length_cons] at hp hc
      obtain ⟨s1, p, h1, h2, h3, h4, h5⟩ := emplaceBack_loc hl (by omega) (by omega) ha
      obtain ⟨s2, as, k1, k2, k3, k4, k5⟩ := ih vs s1 _ h2 (hf.imp (fun _ _ hav => argv_keeps h4 hav)) (by omega) (by simp; omega)
      refine ⟨s2, p :: as, ?_, by simp [k2], by simpa using k3, h3.trans k4, fun b w hb => k5 b w (h4 b w hb)⟩
      unfold emplaceAll
      rw [h1]
      simp only [bind, Except.bind]
      exact k1

theorem destroyN_ok (k : Nat) : ∀ (s : St α) (i : Nat) (P : List (Addr × α)), s.pool = g.pool →
    PVec.Holds (g.cap c) g.check g.debug true (s.look c) (L.map (fun x => some x.1)) → (∀ x ∈ L, x.1.1 = g.pool c) → H g.pcap s.h (P ++ L.drop i ++ R) →
    i + k ≤ L.length → ∃ h', destroyN s c i k = .ok h' ∧ H g.pcap h' (P ++ L.drop (i + k) ++ R) := by
  induction k with
  | zero => intro s i P _ _ _ hh _; exact ⟨s.h, rfl, hh⟩
  | succ k ih =>
    intro s i P hpl hlk hin hh hi
    have hi' : i < L.length := by omega
    have hrd : PVec.rd (s.look c) i = .ok (some (L[i]).1) := by
      rw [PVec.rd_ok (by have := hlk.hcap; have := hlk.le; rw [List.length_map] at this; omega)]
      have := hlk.cell i (by rw [List.length_map]; exact hi')
      rw [List.getElem?_map, List.getElem?_eq_getElem hi'] at this
      rw [← Option.some.inj this]
    rw [List.drop_eq_getElem_cons hi'] at hh
    have hh2 : H g.pcap s.h (L[i] :: (P ++ L.drop (i + 1) ++ R)) := by
      refine hh.perm ?_
      rw [List.append_assoc, List.append_assoc]; exact List.perm_middle
    obtain ⟨h1, d1, d2⟩ := destroy_ok hh2
    have hq : (L[i]).1.1 = s.pool c := by rw [hpl]; exact hin _ (List.getElem_mem hi')
    rw [hq] at d1
    obtain ⟨h', e1, e2⟩ := ih { s with h := h1 } (i + 1) P hpl hlk hin d2 (by omega)
    refine ⟨h', ?_, by rw [show i + (k + 1) = i + 1 + k by omega]; exact e2⟩
    unfold destroyN
    rw [hrd]
    simp only [bind, Except.bind]
    rw [d1]
    exact e1

theorem initialise_loc (hl : Loc g s c L R) : ∃ s', initialise s c = .ok s' ∧ Loc g s' c [] R ∧ Same c s s' := by
  obtain ⟨h', h1, h2⟩ := destroyN_ok L.length s 0 [] hl.pl hl.lk hl.inp (by simpa using hl.hh) (by omega)
  rw [Nat.zero_add, List.drop_length] at h2
  obtain ⟨l', k1, k2⟩ := PVec.step_ok hl.lk (o := .clear) trivial
  simp only [PVec.step, PVec.specStep] at k1 k2
  refine ⟨setLook { s with h := h' } c l', ?_, ⟨hl.pl, h2, ?_, fun x hx => by cases hx⟩, ⟨rfl, fun d hd => upd_other _ _ hd⟩⟩
  · unfold initialise
    rw [size_eq hl, h1]
    simp only [bind, Except.bind]
    rw [k1]
  · show PVec.Holds _ _ _ _ (upd s.look c l' c) _
    rw [upd_same]; exact k2

theorem createInto_ok : ∀ (args : List (Arg α)) (vs : List α) (s : St α) (i : Nat) (M : List (Option Addr)) (own : List (Addr × α)), s.pool = g.pool →
    H g.pcap s.h own → PVec.Holds (g.cap c) g.check g.debug true (s.look c) M → List.Forall₂ (fun a v => argv s.h a = .ok v) args vs →
    args.length ≤ available s (g.pool c) → i + args.length ≤ M.length →
    ∃ s', ∃ as : List Addr, createInto s c i args = .ok (s', none) ∧ as.length = vs.length ∧ H g.pcap s'.h (as.zip vs ++ own) ∧ (∀ a ∈ as, a.1 = g.pool c) ∧
      PVec.Holds (g.cap c) g.check g.debug true (s'.look c) (M.take i ++ as.map some ++ M.drop (i + args.length)) ∧ Same c s s' := by
  intro args
  induction args with
  | nil =>
    intro vs s i M own hpl hh hlk hf _ _
    cases hf
    exact ⟨s, [], rfl, rfl, hh, by simp, by simpa using hlk, Same.refl _ _⟩
  | cons a args ih =>
    intro vs s i M own hpl hh hlk hf hp hi
    cases hf with
    | @cons _ v _ vs ha hf =>
      rw [List.length_cons] at hp hi
      have hloc : (0 : Nat) < available s (g.pool c) := by omega
      -- the object
      unfold available at hp
      cases hfr : s.h.free (g.pool c) with
      | nil => rw [hfr] at hp; simp at hp
      | cons k r =>
        rw [hfr, List.length_cons] at hp
        obtain ⟨h', h1, h2, h3, h4⟩ := create_ok hh hfr ha
        have hk : Keeps s { s with h := h' } := by
          intro b w hb
          show h'.obj b = some w
          rw [h4 b, hb]
          intro e
          have := hh.dead _ k (by rw [hfr]; exact List.mem_cons_self)
          rw [e, hb] at this; cases this
        obtain ⟨l', k1, k2⟩ := PVec.step_ok hlk (o := .setAt i (some (g.pool c, k))) (show i < M.length by omega)
        simp only [PVec.step, PVec.specStep, PVec.setAt, bind, Except.bind] at k1 k2
        cases hw : PVec.wr (s.look c) i (some (g.pool c, k)) with
        | error u => rw [hw] at k1; cases k1
        | ok l'' =>
          rw [hw] at k1; cases k1
          obtain ⟨s', as, j1, j2, j3, j4, j5, j6⟩ := ih vs (setLook { s with h := h' } c l') (i + 1) (M.set i (some (g.pool c, k))) _ hpl h2
            (by show PVec.Holds _ _ _ _ (upd s.look c l' c) _; rw [upd_same]; exact k2)
            (hf.imp (fun _ _ hav => argv_keeps (s' := setLook { s with h := h' } c l') hk hav))
            (by show _ ≤ (h'.free _).length; rw [h3]; omega) (by rw [List.length_set]; omega)
          refine ⟨s', (g.pool c, k) :: as, ?_, by simp [j2], ?_, ?_, ?_, ?_⟩
          · unfold createInto
            rw [show s.pool c = g.pool c by rw [hpl], h1]
            simp only [bind, Except.bind]
            rw [hw]
            exact j1
          · refine j3.perm ?_
            rw [List.zip_cons_cons, List.cons_append]; exact List.perm_middle
          · intro x hx
            rcases List.mem_cons.mp hx with rfl | hx
            · rfl
            · exact j4 x hx
          · have e1 : (M.set i (some (g.pool c, k))).take (i + 1) = M.take i ++ [some (g.pool c, k)] := by
              rw [List.take_add_one, List.take_set_of_le (Nat.le_refl _), List.getElem?_set_self (by omega)]; rfl
            have e2 : (M.set i (some (g.pool c, k))).drop (i + 1 + args.length) = M.drop (i + (args.length + 1)) := by
              rw [List.drop_set_of_lt (by omega)]; congr 1; omega
            rw [e1, e2] at j5
            simpa using j5
          · exact Same.trans (s' := setLook { s with h := h' } c l') ⟨rfl, fun d hd => upd_other _ _ hd⟩ j6

/-! ## Every call -/

variable {A : Sys α}

theorem Inv.loc (hi : Inv g s A) (hc : c < g.m) : ∃ R, Loc g s c (A c) R ∧ (∀ L, (all g.m (upd A c L)).Perm (L ++ R)) ∧
    (∀ x ∈ R, ∃ d, d < g.m ∧ d ≠ c ∧ x ∈ A d) ∧ ∀ d, d < g.m → d ≠ c → ∀ x ∈ A d, x ∈ R := by
  obtain ⟨R, h1, h2, h3⟩ := all_split g.m A hc
  refine ⟨R, ⟨hi.pl, hi.heap.perm h2, hi.look c hc, hi.inp c hc⟩, h1, h3, ?_⟩
  intro d hd hdc x hx
  have : x ∈ all g.m (upd A c []) := mem_all.mpr ⟨d, hd, by rw [upd_other _ _ hdc]; exact hx⟩
  simpa using (h1 []).mem_iff.mp this

theorem Inv.of (hi : Inv g s A) {s' : St α} {L' : List (Addr × α)} (h1 : ∀ L, (all g.m (upd A c L)).Perm (L ++ R)) (hl : Loc g s' c L' R) (hs : Same c s s') :
    Inv g s' (upd A c L') := hi.change h1 hl.hh hs.pl hl.lk hs.lk hl.inp

theorem fresh_of {T D R : List (Addr × α)} {as : List Addr} {vs : List α} (hn : as.length = vs.length) (hd : ((T ++ as.zip vs ++ D ++ R).map Prod.fst).Nodup) :
    as.Nodup ∧ ∀ a ∈ as, ∀ x, x ∈ T ∨ x ∈ D ∨ x ∈ R → x.1 ≠ a := by
  simp only [List.map_append] at hd
  rw [List.map_fst_zip (by omega)] at hd
  rw [List.nodup_append, List.nodup_append, List.nodup_append] at hd
  obtain ⟨⟨⟨_, k1, k2⟩, _, k3⟩, _, k4⟩ := hd
  refine ⟨k1, ?_⟩
  intro a ha x hx e
  rcases hx with hx | hx | hx
  · exact k2 x.1 (List.mem_map_of_mem hx) a ha e
  · exact k3 a (List.mem_append_right _ ha) x.1 (List.mem_map_of_mem hx) e.symm
  · exact k4 a (List.mem_append_left _ (List.mem_append_right _ ha)) x.1 (List.mem_map_of_mem hx) e.symm

theorem inserted_of {s' : St α} {p : Nat} {as : List Addr} {vs : List α} (hc : c < g.m) (hn : as.length = vs.length)
    (hl : Loc g s' c ((A c).take p ++ as.zip vs ++ (A c).drop p) R) (hsub : ∀ d, d < g.m → d ≠ c → ∀ x ∈ A d, x ∈ R) :
    Inserted g.m A c p vs (upd A c ((A c).take p ++ as.zip vs ++ (A c).drop p)) := by
  obtain ⟨h1, h2⟩ := fresh_of hn hl.hh.nd
  refine ⟨as, hn, h1, ?_, rfl⟩
  intro a ha d hd x hx
  apply h2 a ha
  by_cases e : d = c
  · subst e
    rw [← List.take_append_drop p (A d), List.mem_append] at hx
    rcases hx with hx | hx
    · exact Or.inl hx
    · exact Or.inr (Or.inl hx)
  · exact Or.inr (Or.inr (hsub d hd e x hx))

theorem assigned_of {s' : St α} {as : List Addr} {vs : List α} (hn : as.length = vs.length)
    (hl : Loc g s' c (as.zip vs) R) (hsub : ∀ d, d < g.m → d ≠ c → ∀ x ∈ A d, x ∈ R) : Assigned g.m A c vs (upd A c (as.zip vs)) := by
  have hnd : (([] ++ as.zip vs ++ [] ++ R).map Prod.fst).Nodup := by simpa using hl.hh.nd
  obtain ⟨h1, h2⟩ := fresh_of hn hnd
  refine ⟨as, hn, h1, ?_, rfl⟩
  intro a ha d hd hdc x hx
  exact h2 a ha x (Or.inr (Or.inr (hsub d hd hdc x hx)))

theorem forall2_rep {P : Arg α → α → Prop} {a : Arg α} {v : α} (h : P a v) (k : Nat) : List.Forall₂ P (List.replicate k a) (List.replicate k v) := by
  induction k with
  | zero => exact .nil
  | succ k ih => exact .cons h ih

theorem forall2_val (h : Heap α) (vs : List α) : List.Forall₂ (fun a v => argv h a = .ok v) (vs.map Arg.val) vs := by
  induction vs with
  | nil => exact .nil
  | cons v vs ih => exact .cons rfl ih

theorem refs_ok (l : List (Addr × α)) : (refs (l.map (fun x => some x.1)) : Res (List (Arg α))) = .ok (l.map (fun x => Arg.ref x.1)) := by
  induction l with
  | nil => rfl
  | cons x l ih =>
    show (do .ok (Arg.ref x.1 :: (← refs (l.map (fun x => some x.1)))) : Res (List (Arg α))) = _
    rw [ih]; rfl

theorem forall2_ref {h : Heap α} (l : List (Addr × α)) (hv : ∀ x ∈ l, h.obj x.1 = some x.2) :
    List.Forall₂ (fun a v => argv h a = .ok v) (l.map (fun x => Arg.ref x.1)) (l.map Prod.snd) := by
  induction l with
  | nil => exact .nil
  | cons x l ih =>
    refine .cons ?_ (ih fun y hy => hv y (List.mem_cons_of_mem _ hy))
    unfold argv; simp only [hv x List.mem_cons_self]

theorem inv_argv (hi : Inv g s A) {arg : Arg α} {v : α} (ha : ArgVal g.m A arg v) : argv s.h arg = .ok v :=
  argv_ok hi.heap ha (fun c hc _ hx => mem_all.mpr ⟨c, hc, hx⟩)

theorem emplaceBack_inv (hi : Inv g s A) (hc : c < g.m) {a : Arg α} (ha : ∃ v, ArgVal g.m A a v) (hl : (A c).length < g.cap c ∨ available s (g.pool c) = 0) :
    ∃ s' e A', emplaceBack s c a = .ok (s', e) ∧ Inv g s' A' ∧ (if available s (g.pool c) = 0 then A' = A ∧ e = some .noAllocation
      else e = none ∧ ∃ v, ArgVal g.m A a v ∧ Inserted g.m A c (A c).length [v] A') := by
  obtain ⟨v, hv⟩ := ha
  obtain ⟨R, h1, h2, h3, h4⟩ := hi.loc hc
  by_cases h0 : available s (g.pool c) = 0
  · refine ⟨s, some .noAllocation, A, ?_, hi, by rw [if_pos h0]; exact ⟨rfl, rfl⟩⟩
    unfold emplaceBack
    rw [hi.pl, create_none (List.eq_nil_of_length_eq_zero h0)]; rfl
  · obtain ⟨s', p, k1, k2, k3, _⟩ := emplaceBack_loc h1 (by omega) (hl.resolve_right h0) (inv_argv hi hv)
    refine ⟨s', none, upd A c (A c ++ [(p, v)]), k1, hi.of h2 k2 k3, ?_⟩
    rw [if_neg h0]
    refine ⟨rfl, v, hv, ?_⟩
    have := inserted_of (A := A) (p := (A c).length) (as := [p]) (vs := [v]) hc rfl (by simpa using k2) h4
    simpa using this

theorem insert_gap_inv (hi : Inv g s A) (hc : c < g.m) {p : Nat} {args : List (Arg α)} {vs : List α} (hp : p ≤ (A c).length)
    (hf : List.Forall₂ (fun a v => argv s.h a = .ok v) args vs) (hk : args.length ≤ available s (g.pool c)) (hcap : (A c).length + args.length ≤ g.cap c) :
    ∃ s' A', (do
        let (l, _) ← PVec.insertN (s.look c) p args.length none
        createInto (setLook s c l) c p args) = .ok (s', none) ∧ Inv g s' A' ∧ Inserted g.m A c p vs A' := by
  obtain ⟨R, h1, h2, h3, h4⟩ := hi.loc hc
  obtain ⟨l', k1, k2⟩ := PVec.step_ok h1.lk (o := .insertN p args.length none) (show p ≤ _ by rw [List.length_map]; exact hp)
  simp only [PVec.step, PVec.specStep, List.length_map, hcap, if_true] at k1 k2
  obtain ⟨s', as, j1, j2, j3, j4, j5, j6⟩ := createInto_ok (c := c) args vs (setLook s c l') p _ _ h1.pl h1.hh
    (by show PVec.Holds _ _ _ _ (upd s.look c l' c) _; rw [upd_same]; exact k2) hf hk (by simp; omega)
  have hlen := hf.length_eq
  have e1 : (((A c).map (fun x : Addr × α => some x.1)).take p ++ List.replicate args.length none ++ ((A c).map (fun x : Addr × α => some x.1)).drop p).take p =
      ((A c).take p).map (fun x : Addr × α => some x.1) := by
    rw [List.append_assoc, List.take_append_of_le_length (by simp; omega), List.take_take, Nat.min_self, List.map_take]
  have e2 : (((A c).map (fun x : Addr × α => some x.1)).take p ++ List.replicate args.length none ++ ((A c).map (fun x : Addr × α => some x.1)).drop p).drop (p + args.length) =
      ((A c).drop p).map (fun x : Addr × α => some x.1) := by
    rw [List.drop_append_of_le_length (by simp; omega), List.drop_of_length_le (by simp; omega), List.nil_append, List.map_drop]
  rw [e1, e2] at j5
  have hloc : Loc g s' c ((A c).take p ++ as.zip vs ++ (A c).drop p) R := by
    refine ⟨j6.pl.trans h1.pl, ?_, ?_, ?_⟩
    · refine j3.perm ?_
      have e : (as.zip vs ++ (A c ++ R)) = (as.zip vs ++ (A c).take p) ++ ((A c).drop p ++ R) := by
        conv => lhs; rw [← List.take_append_drop p (A c)]
        simp only [List.append_assoc]
      rw [e, List.append_assoc ((A c).take p ++ as.zip vs)]
      exact List.perm_append_comm.append_right _
    · have : (as.zip vs).map (fun x => some x.1) = as.map some := by
        have e : as.map some = ((as.zip vs).map Prod.fst).map some := by rw [List.map_fst_zip (by omega)]
        rw [e, List.map_map]; rfl
      simp only [List.map_append, this]
      exact j5
    · intro x hx
      rcases List.mem_append.mp hx with hx | hx
      · rcases List.mem_append.mp hx with hx | hx
        · exact h1.inp x (List.mem_of_mem_take hx)
        · exact j4 x.1 (List.of_mem_zip hx).1
      · exact h1.inp x (List.mem_of_mem_drop hx)
  refine ⟨s', _, ?_, hi.of h2 hloc (Same.trans (s' := setLook s c l') ⟨rfl, fun d hd => upd_other _ _ hd⟩ j6), inserted_of hc j2 hloc h4⟩
  simp only [bind, Except.bind]
  rw [k1]
  exact j1

theorem popBack_loc (hl : Loc g s c L R) (hne : L ≠ []) : ∃ s', popBack s c = .ok (s', none) ∧ Loc g s' c L.dropLast R ∧ Same c s s' := by
  have hpos : 0 < L.length := List.length_pos_iff.mpr hne
  have hsz := size_eq hl
  have hn : (s.look c).n = L.length := hsz
  have hcap := hl.lk.hcap
  have hle := hl.lk.le
  rw [List.length_map] at hle
  have hb : PVec.back (s.look c) = .ok (some (L[L.length - 1]'(by omega)).1) := by
    unfold PVec.back
    rw [if_neg (by omega), PVec.rd_ok (by omega)]
    have := hl.lk.cell (L.length - 1) (by rw [List.length_map]; omega)
    rw [List.getElem?_map, List.getElem?_eq_getElem (by omega)] at this
    rw [hn, ← Option.some.inj this]
  have hsplit : L = L.dropLast ++ [L[L.length - 1]'(by omega)] := by
    rw [← List.getLast_eq_getElem hne]; exact (List.dropLast_append_getLast hne).symm
  have hh2 : H g.pcap s.h (L[L.length - 1]'(by omega) :: (L.dropLast ++ R)) := by
    refine hl.hh.perm ?_
    conv => lhs; rw [hsplit]
    rw [List.append_assoc]; exact List.perm_middle
  obtain ⟨h', d1, d2⟩ := destroy_ok hh2
  rw [hl.inp _ (List.getElem_mem (by omega)), ← hl.pl] at d1
  obtain ⟨l', k1, k2⟩ := PVec.step_ok hl.lk (o := .popBack) (Or.inr (by simpa using hne))
  simp only [PVec.step, PVec.specStep, List.map_eq_nil_iff, hne, if_false] at k1 k2
  refine ⟨setLook { s with h := h' } c l', ?_, ⟨hl.pl, d2, ?_, fun x hx => hl.inp x (List.dropLast_subset _ hx)⟩, ⟨rfl, fun d hd => upd_other _ _ hd⟩⟩
  · unfold popBack
    rw [if_neg (by unfold empty PVec.empty; rw [hn]; simpa using hne), hb]
    simp only [bind, Except.bind]
    rw [d1]
    simp only []
    rw [k1]
  · show PVec.Holds _ _ _ _ (upd s.look c l' c) _
    rw [upd_same, List.map_dropLast]; exact k2

theorem popN_loc (k : Nat) : ∀ (s : St α) (L : List (Addr × α)), Loc g s c L R → k ≤ L.length →
    ∃ s', popN s c k = .ok (s', none) ∧ Loc g s' c (L.take (L.length - k)) R ∧ Same c s s' := by
  induction k with
  | zero => intro s L hl _; exact ⟨s, rfl, by simpa using hl, Same.refl _ _⟩
  | succ k ih =>
    intro s L hl hk
    have hne : L ≠ [] := by intro e; rw [e] at hk; simp at hk
    obtain ⟨s1, h1, h2, h3⟩ := popBack_loc hl hne
    obtain ⟨s2, k1, k2, k3⟩ := ih s1 _ h2 (by rw [List.length_dropLast]; omega)
    refine ⟨s2, ?_, ?_, h3.trans k3⟩
    · unfold popN
      rw [h1]
      simp only [bind, Except.bind]
      exact k1
    · rw [List.length_dropLast, List.dropLast_eq_take, List.take_take] at k2
      rw [show L.length - (k + 1) = min (L.length - 1 - k) (L.length - 1) by omega]; exact k2

/-- Elements `i .. i + k` destroyed and erased. -/
theorem erase_loc (hl : Loc g s c L R) {i k : Nat} (hi : i + k ≤ L.length) {l' : PVec.St (Option Addr)} {L' : List (Addr × α)} (hL : L' = L.take i ++ L.drop (i + k))
    (hh : PVec.Holds (g.cap c) g.check g.debug true l' (L'.map (fun x => some x.1))) :
    ∃ h', destroyN s c i k = .ok h' ∧ Loc g (setLook { s with h := h' } c l') c L' R ∧ Same c s (setLook { s with h := h' } c l') := by
  obtain ⟨h', h1, h2⟩ := destroyN_ok (R := R) k s i (L.take i) hl.pl hl.lk hl.inp (by rw [List.take_append_drop]; exact hl.hh) hi
  refine ⟨h', h1, ⟨hl.pl, by rw [hL]; exact h2, ?_, ?_⟩, ⟨rfl, fun d hd => upd_other _ _ hd⟩⟩
  · show PVec.Holds _ _ _ _ (upd s.look c l' c) _
    rw [upd_same]; exact hh
  · intro x hx
    rw [hL] at hx
    rcases List.mem_append.mp hx with hx | hx
    · exact hl.inp x (List.mem_of_mem_take hx)
    · exact hl.inp x (List.mem_of_mem_drop hx)

theorem pushAll_loc : ∀ (args : List (Arg α)) (vs : List α) (s : St α) (L : List (Addr × α)), Loc g s c L R →
    List.Forall₂ (fun a v => argv s.h a = .ok v) args vs → args.length ≤ available s (g.pool c) → L.length + args.length ≤ g.cap c →
    pushAll s c args = emplaceAll s c args := by
  intro args
  induction args with
  | nil => intro vs s L _ _ _ _; rfl
  | cons a args ih =>
    intro vs s L hl hf hp hc
    cases hf with
    | @cons _ v _ vs ha hf =>
      rw [List.length_cons] at hp hc
      obtain ⟨s1, p, h1, h2, h3, h4, h5⟩ := emplaceBack_loc hl (by omega) (by omega) ha
      unfold pushAll emplaceAll pushBack
      rw [if_neg (by rw [size_eq hl, cap_eq hl]; simp; omega), h1]
      simp only [bind, Except.bind]
      exact ih vs s1 _ h2 (hf.imp (fun _ _ hav => argv_keeps h4 hav)) (by omega) (by simp; omega)

theorem assign_inv (hi : Inv g s A) (hc : c < g.m) {args : List (Arg α)} {vs : List α}
    (hf : ∀ s1 : St α, H g.pcap s1.h (all g.m (upd A c [])) → List.Forall₂ (fun a v => argv s1.h a = .ok v) args vs)
    (hk : args.length ≤ (A c).length + available s (g.pool c)) (hcap : args.length ≤ g.cap c) :
    ∃ s1 s' A', initialise s c = .ok s1 ∧ emplaceAll s1 c args = .ok (s', none) ∧ pushAll s1 c args = .ok (s', none) ∧ Same c s s1 ∧ Inv g s' A' ∧
      Assigned g.m A c vs A' := by
  obtain ⟨R, h1, h2, h3, h4⟩ := hi.loc hc
  obtain ⟨s1, k1, k2, k3⟩ := initialise_loc h1
  have hav : available s1 (g.pool c) = (A c).length + available s (g.pool c) := by
    have e1 := avail_eq h1 _ rfl
    have e2 := avail_eq k2 _ rfl
    simp only [List.length_nil] at e2
    omega
  have hf1 := hf s1 (k2.hh.perm (by simpa using (h2 []).symm))
  obtain ⟨s', as, j1, j2, j3, j4, j5⟩ := emplaceAll_loc args vs s1 [] k2 hf1 (by omega) (by simpa using hcap)
  rw [List.nil_append] at j3
  refine ⟨s1, s', upd A c (as.zip vs), k1, j1, ?_, k3, hi.of h2 j3 (k3.trans j4), assigned_of j2 j3 h4⟩
  rw [pushAll_loc args vs s1 [] k2 hf1 (by omega) (by simpa using hcap)]; exact j1

theorem step_inv (hi : Inv g s A) {o : Op α} (hl : Legal g (available s (g.pool (opVec o))) A o) :
    ∃ s' e A', step s o = .ok (s', e) ∧ Does g (available s (g.pool (opVec o))) A o A' e ∧ Inv g s' A' := by
  cases o with
  | pushBack c a =>
    obtain ⟨hc, ha, hr⟩ := hl
    simp only [opVec] at hr
    obtain ⟨R, h1, h2, h3, h4⟩ := hi.loc hc
    simp only [step, Does, opVec]
    unfold pushBack
    rw [size_eq h1, cap_eq h1, h1.lk.chk]
    by_cases hf : g.check = true ∧ (A c).length = g.cap c
    · rw [if_pos (by simp [hf.1, hf.2])]
      refine ⟨s, some .full, A, rfl, ?_, hi⟩
      rw [if_pos hf]; exact ⟨rfl, rfl⟩
    · rw [if_neg (by simpa using hf)]
      have hle : (A c).length ≤ g.cap c := by simpa using h1.lk.le
      obtain ⟨s', e, A', k1, k2, k3⟩ := emplaceBack_inv hi hc ha (by
        rcases hr with hr | hr | hr
        · exact Or.inl hr
        · exact Or.inr hr
        · left
          have : ¬ (A c).length = g.cap c := fun e => hf ⟨hr, e⟩
          omega)
      refine ⟨s', e, A', k1, ?_, k2⟩
      rw [if_neg hf]; exact k3
  | emplaceBack c a =>
    obtain ⟨hc, ha, hr⟩ := hl
    obtain ⟨s', e, A', k1, k2, k3⟩ := emplaceBack_inv hi hc ha hr
    exact ⟨s', e, A', k1, k3, k2⟩
  | popBack c =>
    have hc : c < g.m := hl
    obtain ⟨R, h1, h2, h3, h4⟩ := hi.loc hc
    simp only [step, Does]
    by_cases hne : A c = []
    · refine ⟨s, some .empty, A, ?_, by rw [if_pos hne]; exact ⟨rfl, rfl⟩, hi⟩
      unfold popBack
      rw [if_pos]
      unfold empty PVec.empty
      have : (s.look c).n = (A c).length := size_eq h1
      rw [this, hne]; rfl
    · obtain ⟨s', k1, k2, k3⟩ := popBack_loc h1 hne
      exact ⟨s', none, _, k1, by rw [if_neg hne]; exact ⟨rfl, rfl⟩, hi.of h2 k2 k3⟩
  | resize c k a =>
    obtain ⟨hc, ⟨v, ha⟩, hr⟩ := hl
    simp only [opVec] at hr
    obtain ⟨R, h1, h2, h3, h4⟩ := hi.loc hc
    simp only [step, Does, opVec]
    unfold resize
    rw [size_eq h1, cap_eq h1]
    by_cases hk : k ≤ g.cap c
    · rw [if_pos hk]
      by_cases hkl : k > (A c).length
      · rw [if_pos hkl]
        obtain ⟨s', as, j1, j2, j3, j4, j5⟩ := emplaceAll_loc _ _ s _ h1 (forall2_rep (P := fun a v => argv s.h a = .ok v) (inv_argv hi ha) (k - (A c).length))
          (by rw [List.length_replicate]; omega) (by rw [List.length_replicate]; omega)
        refine ⟨s', none, _, j1, ?_, hi.of h2 j3 j4⟩
        rw [if_neg (by omega), if_neg (by omega)]
        refine ⟨rfl, v, ha, ?_⟩
        have := inserted_of (A := A) (p := (A c).length) hc j2 (by simpa using j3) h4
        simpa using this
      · rw [if_neg hkl]
        obtain ⟨s', j1, j2, j3⟩ := popN_loc ((A c).length - k) s _ h1 (by omega)
        rw [show (A c).length - ((A c).length - k) = k by omega] at j2
        refine ⟨s', none, _, j1, ?_, hi.of h2 j2 j3⟩
        rw [if_neg (by omega), if_pos (by omega)]; exact ⟨rfl, rfl⟩
    · rw [if_neg hk]
      refine ⟨s, some .full, A, rfl, ?_, hi⟩
      rw [if_pos (by omega)]; exact ⟨rfl, rfl⟩
  | clear c =>
    have hc : c < g.m := hl
    obtain ⟨R, h1, h2, h3, h4⟩ := hi.loc hc
    obtain ⟨s', k1, k2, k3⟩ := initialise_loc h1
    refine ⟨s', none, upd A c [], ?_, ⟨rfl, rfl⟩, hi.of h2 k2 k3⟩
    simp only [step]; unfold clear; rw [k1]; rfl
  | assignRange c vs =>
    obtain ⟨hc, hd, hr⟩ := hl
    simp only [opVec] at hr
    obtain ⟨R, h1, h2, h3, h4⟩ := hi.loc hc
    simp only [step, Does]
    unfold assignRange
    rw [cap_eq h1, h1.lk.dbg]
    by_cases hk : vs.length ≤ g.cap c
    · rw [if_neg (by simp [hk])]
      obtain ⟨s1, s', A', k1, k2, _, _, k4, k5⟩ := assign_inv hi hc (args := vs.map Arg.val) (vs := vs) (fun s1 _ => forall2_val s1.h vs)
        (by simpa using hr) (by simpa using hk)
      refine ⟨s', none, A', ?_, by rw [if_neg (by omega)]; exact ⟨rfl, k5⟩, k4⟩
      rw [k1]; exact k2
    · rw [if_pos (by simp [hk]; exact hd.resolve_right hk)]
      refine ⟨s, some .full, A, rfl, ?_, hi⟩
      rw [if_pos (by omega)]; exact ⟨rfl, rfl⟩
  | assignN c k a =>
    obtain ⟨hc, ⟨v, ha⟩, hr⟩ := hl
    simp only [opVec] at hr
    obtain ⟨R, h1, h2, h3, h4⟩ := hi.loc hc
    simp only [step, Does]
    unfold assignN
    rw [cap_eq h1]
    by_cases hk : k ≤ g.cap c
    · rw [if_pos hk]
      obtain ⟨s1, s', A', k1, k2, _, _, k4, k5⟩ := assign_inv hi hc (args := List.replicate k a) (vs := List.replicate k v)
        (fun s1 hh => forall2_rep (P := fun a v => argv s1.h a = .ok v) (argv_ok hh ha (fun d hd _ hx => mem_all.mpr ⟨d, hd, hx⟩)) k)
        (by simpa using hr) (by simpa using hk)
      refine ⟨s', none, A', ?_, by rw [if_neg (by omega)]; exact ⟨rfl, v, ha, k5⟩, k4⟩
      rw [k1]; exact k2
    · rw [if_neg hk]
      refine ⟨s, some .full, A, rfl, ?_, hi⟩
      rw [if_pos (by omega)]; exact ⟨rfl, rfl⟩
  | insert c p a =>
    obtain ⟨hc, ⟨v, ha⟩, hp⟩ := hl
    obtain ⟨R, h1, h2, h3, h4⟩ := hi.loc hc
    show ∃ s' e A', insert s c p a = .ok (s', e) ∧ Does g (available s (g.pool c)) A (.insert c p a) A' e ∧ Inv g s' A'
    simp only [Does]
    unfold insert
    rw [size_eq h1, cap_eq h1]
    by_cases hf : (A c).length = g.cap c
    · rw [if_pos hf]
      refine ⟨s, some .full, A, rfl, ?_, hi⟩
      rw [if_pos hf]; exact ⟨rfl, rfl⟩
    · rw [if_neg hf, inv_argv hi ha]
      simp only [bind, Except.bind]
      have hle : (A c).length ≤ g.cap c := by simpa using h1.lk.le
      by_cases h0 : available s (g.pool c) = 0
      · rw [hi.pl, create_none (List.eq_nil_of_length_eq_zero h0)]
        refine ⟨s, some .noAllocation, A, rfl, ?_, hi⟩
        rw [if_neg hf, if_pos h0]; exact ⟨rfl, rfl⟩
      · obtain ⟨h', b, c1, c2, c3, c4, c5⟩ := create_cons h1 (by omega) (arg := .val v) (v := v) rfl
        rw [c1]
        simp only []
        obtain ⟨l', k1, k2⟩ := PVec.step_ok h1.lk (o := .insert p (some b)) (show p ≤ _ by rw [List.length_map]; exact hp)
        simp only [PVec.step, PVec.specStep, List.length_map, show (A c).length < g.cap c by omega, if_true] at k1 k2
        rw [k1]
        have hloc : Loc g (setLook { s with h := h' } c l') c ((A c).take p ++ [b].zip [v] ++ (A c).drop p) R := by
          refine ⟨hi.pl, ?_, ?_, ?_⟩
          · refine c2.perm ?_
            conv => lhs; rw [← List.take_append_drop p (A c)]
            simp only [List.zip_cons_cons, List.zip_nil_right, List.append_assoc, List.singleton_append]
            exact List.perm_middle.symm
          · show PVec.Holds _ _ _ _ (upd s.look c l' c) _
            rw [upd_same]; simpa [List.map_take, List.map_drop] using k2
          · intro x hx
            rcases List.mem_append.mp hx with hx | hx
            · rcases List.mem_append.mp hx with hx | hx
              · exact h1.inp x (List.mem_of_mem_take hx)
              · rw [List.zip_cons_cons, List.zip_nil_right, List.mem_singleton] at hx; rw [hx]; exact c3
            · exact h1.inp x (List.mem_of_mem_drop hx)
        refine ⟨_, none, _, rfl, ?_, hi.of h2 hloc ⟨rfl, fun d hd => upd_other _ _ hd⟩⟩
        rw [if_neg hf, if_neg h0]
        exact ⟨rfl, v, ha, inserted_of hc rfl hloc h4⟩
  | insertN c p k a =>
    obtain ⟨hc, ⟨v, ha⟩, hp, hr⟩ := hl
    simp only [opVec] at hr
    obtain ⟨R, h1, h2, h3, h4⟩ := hi.loc hc
    simp only [step, Does]
    unfold insertN
    rw [size_eq h1, cap_eq h1]
    by_cases hk : (A c).length + k ≤ g.cap c
    · rw [if_pos hk]
      obtain ⟨s', A', k1, k2, k3⟩ := insert_gap_inv hi hc (args := List.replicate k a) (vs := List.replicate k v) hp
        (forall2_rep (P := fun a v => argv s.h a = .ok v) (inv_argv hi ha) k) (by simpa using hr) (by simpa using hk)
      rw [List.length_replicate] at k1
      refine ⟨s', none, A', k1, by rw [if_neg (by omega)]; exact ⟨rfl, v, ha, k3⟩, k2⟩
    · rw [if_neg hk]
      refine ⟨s, some .full, A, rfl, ?_, hi⟩
      rw [if_pos (by omega)]; exact ⟨rfl, rfl⟩
  | insertRange c p vs =>
    obtain ⟨hc, hp, hr⟩ := hl
    simp only [opVec] at hr
    obtain ⟨R, h1, h2, h3, h4⟩ := hi.loc hc
    simp only [step, Does]
    unfold insertRange
    rw [size_eq h1, cap_eq h1]
    by_cases hk : (A c).length + vs.length ≤ g.cap c
    · rw [if_pos hk]
      obtain ⟨s', A', k1, k2, k3⟩ := insert_gap_inv hi hc (args := vs.map Arg.val) (vs := vs) hp (forall2_val s.h vs) (by simpa using hr) (by simpa using hk)
      rw [List.length_map] at k1
      refine ⟨s', none, A', k1, by rw [if_neg (by omega)]; exact ⟨rfl, k3⟩, k2⟩
    · rw [if_neg hk]
      refine ⟨s, some .full, A, rfl, ?_, hi⟩
      rw [if_pos (by omega)]; exact ⟨rfl, rfl⟩
  | erase c p =>
    obtain ⟨hc, hp⟩ := hl
    obtain ⟨R, h1, h2, h3, h4⟩ := hi.loc hc
    obtain ⟨l', k1, k2⟩ := PVec.step_ok h1.lk (o := .erase p) (show p < _ by rw [List.length_map]; exact hp)
    simp only [PVec.step, PVec.specStep] at k1 k2
    rw [List.eraseIdx_eq_take_drop_succ, ← List.map_take, ← List.map_drop, ← List.map_append, ← List.eraseIdx_eq_take_drop_succ] at k2
    obtain ⟨h', d1, d2, d3⟩ := erase_loc h1 (i := p) (k := 1) (by omega) (List.eraseIdx_eq_take_drop_succ _ _) k2
    refine ⟨_, none, _, ?_, ⟨rfl, rfl⟩, hi.of h2 d2 d3⟩
    simp only [step]; unfold erase
    rw [d1]; simp only [bind, Except.bind]; rw [k1]
  | eraseRange c a b =>
    obtain ⟨hc, hp⟩ := hl
    obtain ⟨R, h1, h2, h3, h4⟩ := hi.loc hc
    obtain ⟨l', k1, k2⟩ := PVec.step_ok h1.lk (o := .eraseRange a b) (show a ≤ b ∧ b ≤ _ by rw [List.length_map]; exact hp)
    simp only [PVec.step, PVec.specStep] at k1 k2
    rw [← List.map_take, ← List.map_drop, ← List.map_append] at k2
    obtain ⟨h', d1, d2, d3⟩ := erase_loc h1 (i := a) (k := b - a) (by omega) (by rw [show a + (b - a) = b by omega]) k2
    refine ⟨_, none, _, ?_, ⟨rfl, rfl⟩, hi.of h2 d2 d3⟩
    simp only [step]; unfold eraseRange
    rw [d1]; simp only [bind, Except.bind]; rw [k1]
  | setAt c i v =>
    obtain ⟨hc, hp⟩ := hl
    obtain ⟨R, h1, h2, h3, h4⟩ := hi.loc hc
    have hcell := h1.lk.cell i (by rw [List.length_map]; exact hp)
    rw [List.getElem?_map, List.getElem?_eq_getElem hp] at hcell
    have hcap := h1.lk.hcap
    have hle := h1.lk.le
    rw [List.length_map] at hle
    have hval := h1.hh.val ((A c)[i]) (List.mem_append_left _ (List.getElem_mem hp))
    have hnd := h1.hh.nd
    have hsplit : A c = (A c).take i ++ (A c)[i] :: (A c).drop (i + 1) := by
      rw [← List.drop_eq_getElem_cons hp, List.take_append_drop]
    have hset : (A c).set i ((A c)[i].1, v) = (A c).take i ++ ((A c)[i].1, v) :: (A c).drop (i + 1) := List.set_eq_take_append_cons_drop .. |>.trans (by rw [if_pos hp])
    have hmap : ((A c).set i ((A c)[i].1, v)).map Prod.fst = (A c).map Prod.fst := by
      rw [hset]; conv => rhs; rw [hsplit]
      simp only [List.map_append, List.map_cons]
    have hmap' : ((A c).set i ((A c)[i].1, v)).map (fun x => some x.1) = (A c).map (fun x => some x.1) := by
      rw [hset]; conv => rhs; rw [hsplit]
      simp only [List.map_append, List.map_cons]
    have hfil : ∀ q, ((((A c).set i ((A c)[i].1, v)) ++ R).filter (fun x => x.1.1 = q)).length = ((A c ++ R).filter (fun x => x.1.1 = q)).length := by
      intro q
      have e : ∀ l : List (Addr × α), (l.filter (fun x => x.1.1 = q)).length = ((l.map Prod.fst).filter (fun a => a.1 = q)).length := by
        intro l; rw [List.filter_map, List.length_map]; rfl
      rw [e, e, List.map_append, List.map_append, hmap]
    have hmem : ∀ x ∈ (A c).set i ((A c)[i].1, v) ++ R, x = ((A c)[i].1, v) ∨ (x ∈ A c ++ R ∧ x.1 ≠ (A c)[i].1) := by
      intro x hx
      have hnd' := hnd
      rw [hsplit] at hnd'
      simp only [List.map_append, List.map_cons, List.append_assoc, List.cons_append] at hnd'
      have hperm : (((A c).take i).map Prod.fst ++ (A c)[i].1 :: (((A c).drop (i + 1)).map Prod.fst ++ R.map Prod.fst)).Perm
          ((A c)[i].1 :: (((A c).take i).map Prod.fst ++ (((A c).drop (i + 1)).map Prod.fst ++ R.map Prod.fst))) := List.perm_middle
      have hnd2 := hperm.nodup_iff.mp hnd'
      rw [List.nodup_cons] at hnd2
      rw [hset, List.append_assoc, List.cons_append, List.mem_append, List.mem_cons, List.mem_append] at hx
      have hne : x ∈ (A c).take i ∨ x ∈ (A c).drop (i + 1) ∨ x ∈ R → x.1 ≠ (A c)[i].1 := by
        intro hx e
        apply hnd2.1
        rw [← e]
        rcases hx with hx | hx | hx
        · exact List.mem_append_left _ (List.mem_map_of_mem hx)
        · exact List.mem_append_right _ (List.mem_append_left _ (List.mem_map_of_mem hx))
        · exact List.mem_append_right _ (List.mem_append_right _ (List.mem_map_of_mem hx))
      rcases hx with hx | hx | hx | hx
      · exact Or.inr ⟨List.mem_append_left _ (List.mem_of_mem_take hx), hne (Or.inl hx)⟩
      · exact Or.inl hx
      · exact Or.inr ⟨List.mem_append_left _ (List.mem_of_mem_drop hx), hne (Or.inr (Or.inl hx))⟩
      · exact Or.inr ⟨List.mem_append_right _ hx, hne (Or.inr (Or.inr hx))⟩
    refine ⟨{ s with h := { s.h with obj := setObj s.h.obj (A c)[i].1 (some v) } }, none, upd A c ((A c).set i ((A c)[i].1, v)), ?_,
      ⟨⟨_, List.getElem?_eq_getElem hp, rfl⟩, rfl⟩, hi.of h2 ⟨hi.pl, ⟨h1.hh.pc, ?_, h1.hh.fnd, ?_, h1.hh.frng, ?_, ?_, ?_⟩, ?_, ?_⟩ ⟨rfl, fun _ _ => rfl⟩⟩
    · simp only [step]; unfold setAt PVec.index
      rw [PVec.rd_ok (by omega), ← Option.some.inj hcell]
      simp only [bind, Except.bind]
      rw [hval]
    · rw [List.map_append, hmap, ← List.map_append]; exact hnd
    · intro q k hk
      show setObj _ _ _ _ = _
      unfold setObj
      rw [if_neg, h1.hh.dead q k hk]
      intro e
      have := h1.hh.dead q k hk
      rw [e, hval] at this; cases this
    · intro x hx
      rcases hmem x hx with rfl | hx
      · exact h1.hh.orng (A c)[i] (List.mem_append_left _ (List.getElem_mem hp))
      · exact h1.hh.orng x hx.1
    · intro q; rw [hfil]; exact h1.hh.cnt q
    · intro x hx
      show setObj _ _ _ _ = _
      unfold setObj
      rcases hmem x hx with rfl | hx
      · rw [if_pos rfl]
      · rw [if_neg hx.2]; exact h1.hh.val x hx.1
    · show PVec.Holds _ _ _ _ (s.look c) _
      rw [hmap']; exact h1.lk
    · intro x hx
      rcases hmem x (List.mem_append_left _ hx) with rfl | hx'
      · exact h1.inp (A c)[i] (List.getElem_mem hp)
      · rw [hset] at hx
        rcases List.mem_append.mp hx with hx | hx
        · exact h1.inp x (List.mem_of_mem_take hx)
        · rcases List.mem_cons.mp hx with hx | hx
          · exact absurd (by rw [hx]) hx'.2
          · exact h1.inp x (List.mem_of_mem_drop hx)
  | copyAssign c d =>
    obtain ⟨hc, hd, hcd, hdb, hr⟩ := hl
    simp only [opVec] at hr
    obtain ⟨R, h1, h2, h3, h4⟩ := hi.loc hc
    have hszd : size s d = (A d).length := by have := (hi.look d hd).len; rw [List.length_map] at this; exact this
    simp only [step, Does]
    unfold copyAssign
    rw [cap_eq h1, h1.lk.dbg, hszd]
    by_cases hk : (A d).length ≤ g.cap c
    · rw [if_neg (by simp [hk])]
      obtain ⟨s1, s', A', k1, k2, _, k3, k4, k5⟩ := assign_inv hi hc (args := (A d).map (fun x => Arg.ref x.1)) (vs := (A d).map Prod.snd)
        (fun s1 hh => forall2_ref (A d) (fun x hx => hh.val x (mem_all.mpr ⟨d, hd, by rw [upd_other _ _ (Ne.symm hcd)]; exact hx⟩)))
        (by simpa using hr) (by simpa using hk)
      refine ⟨s', none, A', ?_, by rw [if_neg (by omega)]; exact ⟨rfl, k5⟩, k4⟩
      rw [k1]
      simp only [bind, Except.bind]
      unfold addresses
      rw [k3.lk d (Ne.symm hcd), PVec.contents_ok (hi.look d hd)]
      simp only []
      rw [refs_ok]
      exact k2
    · rw [if_pos (by simp [hk]; exact hdb.resolve_right hk)]
      refine ⟨s, some .full, A, rfl, ?_, hi⟩
      rw [if_pos (by omega)]; exact ⟨rfl, rfl⟩
  | moveAssign c d =>
    obtain ⟨hc, hd, hcd, hk, hr⟩ := hl
    simp only [opVec] at hr
    obtain ⟨s1, s', A', k1, _, k2, k3, k4, k5⟩ := assign_inv hi hc (args := (A d).map (fun x => Arg.ref x.1)) (vs := (A d).map Prod.snd)
      (fun s1 hh => forall2_ref (A d) (fun x hx => hh.val x (mem_all.mpr ⟨d, hd, by rw [upd_other _ _ (Ne.symm hcd)]; exact hx⟩)))
      (by simpa using hr) (by simpa using hk)
    obtain ⟨R, h1, h2, h3, h4⟩ := k4.loc hd
    obtain ⟨s2, j1, j2, j3⟩ := initialise_loc h1
    refine ⟨s2, none, upd A' d [], ?_, ⟨rfl, A', k5, rfl⟩, k4.of h2 j2 j3⟩
    simp only [step]; unfold moveAssign
    rw [k1]
    simp only [bind, Except.bind]
    unfold addresses
    rw [k3.lk d (Ne.symm hcd), PVec.contents_ok (hi.look d hd)]
    simp only []
    rw [refs_ok]
    simp only []
    rw [k2]
    simp only []
    rw [j1]

/-! ## What the state shows -/

theorem readN_ivec (hi : ∀ x ∈ L, s.h.obj x.1 = some x.2) (hl : PVec.Holds cap ck db th (s.look c) (L.map (fun x : Addr × α => some x.1))) (k : Nat) :
    ∀ i, i + k = L.length → readN s c i k = .ok ((L.drop i).map Prod.snd) := by
  induction k with
  | zero => intro i h; rw [List.drop_of_length_le (by omega)]; rfl
  | succ k ih =>
    intro i h
    have hp : i < L.length := by omega
    have hcell := hl.cell i (by rw [List.length_map]; exact hp)
    rw [List.getElem?_map, List.getElem?_eq_getElem hp] at hcell
    have hle := hl.le
    have hcap := hl.hcap
    rw [List.length_map] at hle
    unfold readN
    rw [PVec.rd_ok (by omega), ← Option.some.inj hcell]
    simp only [bind, Except.bind]
    rw [show argv s.h (.ref L[i].1) = .ok L[i].2 by unfold argv; simp only [hi _ (List.getElem_mem hp)]]
    simp only []
    rw [ih (i + 1) (by omega), List.drop_eq_getElem_cons hp, List.map_cons]

theorem Inv.shows (hi : Inv g s A) : Shows g s A := by
  have hn : ∀ c, c < g.m → (s.look c).n = (A c).length := fun c hc => by have := (hi.look c hc).len; rwa [List.length_map] at this
  refine ⟨?_, ?_, ?_, hi.heap.nd, ?_, hi.heap.cnt⟩
  · intro c hc
    unfold contents
    have := readN_ivec (L := A c) (fun x hx => hi.heap.val x (mem_all.mpr ⟨c, hc, hx⟩)) (hi.look c hc) (size s c) 0 (by rw [Nat.zero_add]; exact hn c hc)
    simpa using this
  · intro c hc
    exact PVec.contents_ok (hi.look c hc)
  · intro c hc
    have h1 := hn c hc
    have h2 := (hi.look c hc).le
    have h3 := (hi.look c hc).hcap
    rw [List.length_map] at h2
    refine ⟨h1, h2, ?_, ?_⟩
    · unfold empty PVec.empty; rw [h1]; simp
    · unfold full PVec.full; rw [h1, h3]; simp
  · intro c hc x hx
    have h1 := hi.inp c hc x hx
    have h2 := hi.heap.orng x (mem_all.mpr ⟨c, hc, hx⟩)
    rw [h1] at h2
    exact ⟨h1, h2⟩

theorem eq_of_maps : ∀ (l l' : List (Addr × α)), l.map (fun x => some x.1) = l'.map (fun x => some x.1) → l.map Prod.snd = l'.map Prod.snd → l = l' := by
  intro l
  induction l with
  | nil => intro l' h _; cases l' with
    | nil => rfl
    | cons => simp at h
  | cons x l ih =>
    intro l' h1 h2
    cases l' with
    | nil => simp at h1
    | cons y l' =>
      rw [List.map_cons, List.map_cons] at h1 h2
      injection h1 with a1 a2
      injection h2 with b1 b2
      rw [ih l' a2 b2, show x = y from Prod.ext (Option.some.inj a1) b1]

/-- What is shown determines the contents. -/
theorem Shows.inv {A' : Sys α} (hs : Shows g s A) (hi : Inv g s A') : Inv g s A := by
  have h2 := hi.shows
  have e : ∀ c, c < g.m → A c = A' c := by
    intro c hc
    apply eq_of_maps
    · have := (hs.addresses c hc).symm.trans (h2.addresses c hc); injection this
    · have := (hs.contents c hc).symm.trans (h2.contents c hc); injection this
  have ea : all g.m A = all g.m A' := by
    unfold all
    rw [List.flatMap_def, List.flatMap_def]
    congr 1
    exact List.map_congr_left (fun c hc => e c (List.mem_range.mp hc))
  exact ⟨hi.pl, fun c hc => by rw [e c hc]; exact hi.look c hc, by rw [ea]; exact hi.heap, fun c hc x hx => hi.inp c hc x (by rw [← e c hc]; exact hx)⟩

theorem init_inv (g : Cfg) (junk : Nat → Nat → Option Addr) : Inv g (init g.pcap g.cap g.pool g.check g.debug junk : St α) (fun _ => []) := by
  have e : all g.m (fun _ => ([] : List (Addr × α))) = [] := by unfold all; simp
  refine ⟨rfl, fun c _ => ⟨rfl, rfl, rfl, rfl, rfl, Nat.zero_le _, fun i h => by simp at h⟩, ?_, fun c _ x hx => by simp at hx⟩
  rw [e]
  refine ⟨rfl, List.nodup_nil, fun q => List.nodup_range, fun _ _ _ => rfl, fun q k hk => List.mem_range.mp hk, fun x hx => by simp at hx, fun q => ?_, fun x hx => by simp at hx⟩
  show (List.range (g.pcap q)).length + _ = _
  simp

theorem reach_inv (hr : Reach g s) : ∃ A, Inv g s A := by
  induction hr with
  | init junk => exact ⟨_, init_inv g junk⟩
  | step r hs hl h ih =>
    obtain ⟨A', hi⟩ := ih
    obtain ⟨s', e', A'', h1, _, h3⟩ := step_inv (hs.inv hi) hl
    rw [h] at h1
    injection h1 with h1
    injection h1 with h1
    exact ⟨A'', by rw [h1]; exact h3⟩

/-! ## The property -/

/-- **C72.** Any number of indirect vectors over any pools, shared or not.  After any history of calls that respect the preconditions, each vector is a sequence of elements at
distinct addresses, the pools hold exactly these elements; every further such call succeeds without an undefined access, and does what `Does` says: new elements are placed at
addresses not in use, all other elements keep value *and address*, the other vectors do not change, and a call that throws changes nothing. -/
theorem C72_indirect_vectors (hr : Reach g s) :
    (∃ A, Shows g s A) ∧ ∀ A, Shows g s A → ∀ o : Op α, Legal g (available s (g.pool (opVec o))) A o →
      ∃ s' e A', step s o = .ok (s', e) ∧ Does g (available s (g.pool (opVec o))) A o A' e ∧ Shows g s' A' := by
  obtain ⟨A0, hi⟩ := reach_inv hr
  refine ⟨⟨A0, hi.shows⟩, ?_⟩
  intro A hs o hl
  obtain ⟨s', e, A', h1, h2, h3⟩ := step_inv (hs.inv hi) hl
  exact ⟨s', e, A', h1, h2, h3.shows⟩

/-- **C72, addresses.** A call moves no element it does not remove: an element of any vector that is still in it has the address it had.  (Of a call of `insert`, `push_back`,
`erase`, `pop_back`, `resize` or `clear` that returns: every element after is an element before, or new and then at an address that was not in use.) -/
theorem C72_addresses_stable (hr : Reach g s) {A A' : Sys α} {o : Op α} {s' : St α} {e : Option Err} (hs : Shows g s A)
    (hl : Legal g (available s (g.pool (opVec o))) A o) (h : step s o = .ok (s', e)) (hs' : Shows g s' A')
    (ho : match o with | .assignRange .. | .assignN .. | .copyAssign .. | .moveAssign .. | .setAt .. => False | _ => True) :
    ∀ d, d < g.m → ∀ x ∈ A' d, x ∈ A d ∨ ∀ c, c < g.m → ∀ y ∈ A c, y.1 ≠ x.1 := by
  obtain ⟨A0, hi⟩ := reach_inv hr
  obtain ⟨s1, e1, A1, h1, h2, h3⟩ := step_inv (hs.inv hi) hl
  rw [h] at h1
  injection h1 with h1
  injection h1 with h1
  subst h1
  have key : ∀ d, d < g.m → ∀ x ∈ A1 d, x ∈ A d ∨ ∀ c, c < g.m → ∀ y ∈ A c, y.1 ≠ x.1 := by
    have hins : ∀ {c p : Nat} {vs : List α}, Inserted g.m A c p vs A1 → ∀ d, d < g.m → ∀ x ∈ A1 d, x ∈ A d ∨ ∀ c, c < g.m → ∀ y ∈ A c, y.1 ≠ x.1 := by
      rintro c p vs ⟨as, k1, k2, k3, rfl⟩ d hd x hx
      by_cases hdc : d = c
      · subst hdc
        rw [upd_same] at hx
        rcases List.mem_append.mp hx with hx | hx
        · rcases List.mem_append.mp hx with hx | hx
          · exact Or.inl (List.mem_of_mem_take hx)
          · exact Or.inr (fun c hc y hy => k3 x.1 (List.of_mem_zip hx).1 c hc y hy)
        · exact Or.inl (List.mem_of_mem_drop hx)
      · rw [upd_other _ _ hdc] at hx; exact Or.inl hx
    have hsub : ∀ {c : Nat} {L : List (Addr × α)}, A1 = upd A c L → (∀ x ∈ L, x ∈ A c) → ∀ d, d < g.m → ∀ x ∈ A1 d, x ∈ A d ∨ ∀ c, c < g.m → ∀ y ∈ A c, y.1 ≠ x.1 := by
      rintro c L rfl hL d hd x hx
      by_cases hdc : d = c
      · subst hdc; rw [upd_same] at hx; exact Or.inl (hL x hx)
      · rw [upd_other _ _ hdc] at hx; exact Or.inl hx
    have hid : A1 = A → ∀ d, d < g.m → ∀ x ∈ A1 d, x ∈ A d ∨ ∀ c, c < g.m → ∀ y ∈ A c, y.1 ≠ x.1 := by
      rintro rfl d _ x hx; exact Or.inl hx
    cases o with
    | pushBack c a =>
      simp only [Does] at h2; split_ifs at h2
      · exact hid h2.1
      · exact hid h2.1
      · obtain ⟨_, v, _, h2⟩ := h2; exact hins h2
    | emplaceBack c a =>
      simp only [Does] at h2; split_ifs at h2
      · exact hid h2.1
      · obtain ⟨_, v, _, h2⟩ := h2; exact hins h2
    | popBack c =>
      simp only [Does] at h2; split_ifs at h2
      · exact hid h2.1
      · exact hsub h2.1 (fun x hx => List.dropLast_subset _ hx)
    | resize c k a =>
      simp only [Does] at h2; split_ifs at h2
      · exact hid h2.1
      · exact hsub h2.1 (fun x hx => List.mem_of_mem_take hx)
      · obtain ⟨_, v, _, h2⟩ := h2; exact hins h2
    | clear c => exact hsub h2.1 (fun x hx => by simp at hx)
    | insert c p a =>
      simp only [Does] at h2; split_ifs at h2
      · exact hid h2.1
      · exact hid h2.1
      · obtain ⟨_, v, _, h2⟩ := h2; exact hins h2
    | insertN c p k a =>
      simp only [Does] at h2; split_ifs at h2
      · exact hid h2.1
      · obtain ⟨_, v, _, h2⟩ := h2; exact hins h2
    | insertRange c p vs =>
      simp only [Does] at h2; split_ifs at h2
      · exact hid h2.1
      · exact hins h2.2
    | erase c p => exact hsub h2.1 (fun x hx => List.mem_of_mem_eraseIdx hx)
    | eraseRange c a b =>
      refine hsub h2.1 (fun x hx => ?_)
      rcases List.mem_append.mp hx with hx | hx
      · exact List.mem_of_mem_take hx
      · exact List.mem_of_mem_drop hx
    | assignRange | assignN | copyAssign | moveAssign | setAt => exact absurd ho id
  intro d hd
  have e : A' d = A1 d := by
    apply eq_of_maps
    · have := (hs'.addresses d hd).symm.trans (h3.shows.addresses d hd); injection this
    · have := (hs'.contents d hd).symm.trans (h3.shows.contents d hd); injection this
  rw [e]; exact key d hd

/-! ## Non-vacuity -/

/-- Two vectors, of capacities 3 and 4, over one pool of 5 items. -/
def exCfg : Cfg := { m := 2, cap := fun c => if c = 0 then 3 else 4, pcap := fun _ => 5, pool := fun _ => 0, check := false, debug := true }

def exInit : St Nat := init exCfg.pcap exCfg.cap exCfg.pool exCfg.check exCfg.debug (fun _ _ => none)

/-- Running a list of calls. -/
def run (s : St α) : List (Op α) → Res (St α × List (Option Err))
  | [] => .ok (s, [])
  | o :: os => do
    let (s, e) ← step s o
    let (s, es) ← run s os
    .ok (s, e :: es)

def view (r : Res (St α × List (Option Err))) : Res (List (List α) × List (List (Option Addr)) × List Nat × List (Option Err)) := do
  let (s, es) ← r
  .ok ([← contents s 0, ← contents s 1], [← addresses s 0, ← addresses s 1], s.h.free 0, es)

example : view (run exInit [.pushBack 0 (.val 7), .pushBack 1 (.val 8), .insert 0 0 (.ref (0, 0)), .insert 1 0 (.ref (0, 1)), .erase 0 1, .setAt 0 0 9, .insertN 1 1 2 (.ref (0, 2))]) =
    .ok ([[9], [8, 9, 9, 8]], [[some (0, 2)], [some (0, 3), some (0, 0), some (0, 4), some (0, 1)]], [], [none, none, none, none, none, none, none]) := by rfl

example : view (run exInit [.assignN 1 2 (.val 7), .moveAssign 0 1, .copyAssign 1 0, .pushBack 0 (.val 1), .pushBack 1 (.val 3), .resize 0 2 (.val 0)]) =
    .ok ([[7, 7], [7, 7]], [[some (0, 2), some (0, 3)], [some (0, 1), some (0, 0)]], [4], [none, none, none, none, some .noAllocation, none]) := by rfl

/-- The hypotheses of C72 hold after two calls, and a third is legal. -/
example : ∃ s : St Nat, Reach exCfg s ∧ (contents s 0 = .ok [7]) ∧ (contents s 1 = .ok [8]) := by
  have r0 : Reach exCfg exInit := Reach.init _
  obtain ⟨A0, h0⟩ := (C72_indirect_vectors r0).1
  have z0 : ∀ c, c < 2 → A0 c = [] := by
    intro c hc
    have := (h0.size c hc).1
    exact List.eq_nil_of_length_eq_zero this.symm
  have r1 := Reach.step (o := .pushBack 0 (.val 7)) r0 h0 (by
    refine ⟨by decide, ⟨7, rfl⟩, Or.inl ?_⟩
    rw [z0 0 (by decide)]; decide) rfl
  obtain ⟨A1, h1⟩ := (C72_indirect_vectors r1).1
  have r2 := Reach.step (o := .pushBack 1 (.val 8)) r1 h1 (by
    refine ⟨by decide, ⟨8, rfl⟩, Or.inl ?_⟩
    rw [← (h1.size 1 (by decide)).1]; decide) rfl
  exact ⟨_, r2, rfl, rfl⟩

/-! ## Findings -/

/-- The iterator that `erase(first, last)` returns is not that of the element after the erased ones: erasing `[0, 1)` of `7 8 9` leaves `8 9`, the element after the erased ones
is `8` at index 0, and the iterator returned is at index 1, that of `9`. -/
theorem erase_range_returns_last : (do
    let (s, _) ← run exInit [.assignRange 0 [7, 8, 9]]
    let (s', _) ← eraseRange s 0 0 1
    .ok (← contents s 0, ← contents s' 0, ← readN s' 0 (eraseRangeResult 0 1) 1)) = Except.ok (ε := UB) ([7, 8, 9], [8, 9], [9]) := by rfl

/-- `insert(position, n, value)` when the (shared) pool has fewer than `n` free items: it throws, and leaves null pointers in the lookup, so that reading the vector dereferences
a null pointer. -/
theorem failed_insert_leaves_null : (do
    let (s, es) ← run exInit [.assignRange 1 [1, 2, 3, 4], .insertN 0 0 3 (.val 5)]
    .ok (es, ← addresses s 0, contents s 0)) = Except.ok (ε := UB) ([none, some .noAllocation], [some (0, 4), none, none], .error .nullDeref) := by rfl

/-- `push_back` without the check: when the pool is larger than the lookup, a pointer is written past the end of the lookup, in a debug build too. -/
theorem shared_pool_overrun : run exInit [.assignRange 0 [1, 2, 3], .pushBack 0 (.val 4)] = .error .outOfBounds := by rfl

/-- `emplace_back` with the check compiled in, on a vector that is full while its pool is not: it throws, and the object created for it stays in the pool, in no vector. -/
theorem full_emplace_leaks : (do
    let (s, es) ← run (init exCfg.pcap exCfg.cap exCfg.pool true true (fun _ _ => none) : St Nat) [.assignRange 0 [1, 2, 3], .emplaceBack 0 (.val 4)]
    .ok (es, ← contents s 0, ← contents s 1, s.h.free 0, s.h.obj (0, 3))) = Except.ok (ε := UB) ([none, some .full], [1, 2, 3], [], [4], some 4) := by rfl

end Etl.IVec
