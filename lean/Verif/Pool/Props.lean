import Verif.Pool.Model
import Mathlib.Tactic.ByContra

/-!
# Properties of the pool (C05, C06)

A client *owns* an address from the moment `allocate` returns it until it releases it.  A *well-behaved* client
writes only into items it owns and releases only items it owns; it may also (mistakenly) release addresses that lie outside the pool's buffer.
-/
namespace Etl.Pool

/-! ## Specification -/

/-- What the client owns after an operation. -/
def ownedAfter (owned : List Nat) : Op → Out → List Nat
  | .alloc _, .addr (some a) => a :: owned
  | .release p, .done => owned.erase p
  | .releaseAll, .done => []
  | _, _ => owned

/-- Well-behaved client: `base`, `len` describe the buffer. -/
def Legal (base len : Nat) (owned : List Nat) : Op → Prop
  | .alloc _ => True
  | .release p => p ∈ owned ∨ p < base ∨ base + len ≤ p
  | .releaseAll => True
  | .scribble p _ => p ∈ owned

/-- States reachable by a well-behaved client, with what it owns. -/
inductive Reach (base itemSize max : Nat) (debug : Bool) (mem : Nat → Option Nat) : St → List Nat → Prop where
  | init : Reach base itemSize max debug mem (init base itemSize max debug mem) []
  | step {s owned op s' out} : Reach base itemSize max debug mem s owned → Legal base (itemSize * max) owned op →
      step s op = .ok (s', out) → Reach base itemSize max debug mem s' (ownedAfter owned op out)

/-! ## Invariant -/

/-- Following the free list from `n` visits exactly `fl` and then stops at `stop`. -/
def Chain (mem : Nat → Option Nat) : Option Nat → List Nat → Option Nat → Prop
  | n, [], stop => n = stop
  | n, a :: fl, stop => n = some a ∧ Chain mem (mem a) fl stop

theorem chain_upd {mem : Nat → Option Nat} {a : Nat} {v : Option Nat} :
    ∀ {fl n stop}, a ∉ fl → Chain mem n fl stop → Chain (upd mem a v) n fl stop := by
  intro fl
  induction fl with
  | nil => intro n stop _ h; exact h
  | cons b fl ih =>
    intro n stop ha h
    simp only [List.mem_cons, not_or] at ha
    refine ⟨h.1, ?_⟩
    rw [upd_other _ _ (Ne.symm ha.1)]
    exact ih ha.2 h.2

theorem chain_snoc {mem : Nat → Option Nat} {f : Nat} :
    ∀ {fl n}, Chain mem n fl (some f) → Chain mem n (fl ++ [f]) (mem f) := by
  intro fl
  induction fl with
  | nil => intro n h; exact ⟨h, rfl⟩
  | cons b fl ih => intro n h; exact ⟨h.1, ih h.2⟩

structure Inv (base itemSize max : Nat) (debug : Bool) (s : St) (owned fl : List Nat) : Prop where
  hbase : s.base = base
  hsize : s.itemSize = itemSize
  hmax : s.max = max
  hdebug : s.debug = debug
  pos : 0 < itemSize
  init_le : s.initialised ≤ max
  alloc_eq : s.allocated = owned.length
  count : fl.length + owned.length = s.initialised
  nodup : (owned ++ fl).Nodup
  items : ∀ a ∈ owned ++ fl, ∃ k, k < s.initialised ∧ a = base + k * itemSize
  chain : ∃ stop, Chain s.mem s.next fl stop ∧ (s.initialised < max → stop = some (base + s.initialised * itemSize))

theorem isItem_of {s : St} {k base itemSize max : Nat} (h1 : s.base = base) (h2 : s.itemSize = itemSize) (h3 : s.max = max)
    (hp : 0 < itemSize) (hk : k < max) : isItem s (base + k * itemSize) = true := by
  simp only [isItem, h1, h2, h3, Nat.add_sub_cancel_left, Nat.mul_mod_left, Nat.mul_div_cancel _ hp]
  simp [hk]

theorem inv_init (base itemSize max : Nat) (debug : Bool) (mem : Nat → Option Nat) (hp : 0 < itemSize) :
    Inv base itemSize max debug (init base itemSize max debug mem) [] [] := by
  constructor <;> simp [init, hp]
  exact ⟨some base, rfl, fun _ => rfl⟩

/-- `allocate_item` when an item is free. -/
theorem allocate_inv {base itemSize max : Nat} {debug : Bool} {s : St} {owned fl : List Nat}
    (h : Inv base itemSize max debug s owned fl) (hf : owned.length < max) :
    ∃ s' a fl', allocateItem s = .ok (s', .addr (some a)) ∧ a ∉ owned ∧
      (∃ k, k < max ∧ a = base + k * itemSize) ∧ (∀ x t, fl = x :: t → a = x) ∧ Inv base itemSize max debug s' (a :: owned) fl' := by
  have h1 := h.hbase; have h2 := h.hsize; have h3 := h.hmax; have h4 := h.pos
  obtain ⟨stop, hch, hstop⟩ := h.chain
  have hcount := h.count
  -- after the lazy initialisation the free list is non-empty
  have hinit : ∃ s1 fl1 stop1, initialiseOne s = .ok s1 ∧ Chain s1.mem s1.next fl1 stop1 ∧ s1.base = base ∧ s1.itemSize = itemSize ∧
      s1.max = max ∧ s1.debug = debug ∧ s1.allocated = owned.length ∧ fl1.length + owned.length = s1.initialised ∧ s1.initialised ≤ max ∧
      (owned ++ fl1).Nodup ∧ (∀ a ∈ owned ++ fl1, ∃ k, k < s1.initialised ∧ a = base + k * itemSize) ∧
      (s1.initialised < max → stop1 = some (base + s1.initialised * itemSize)) ∧ fl1 ≠ [] ∧
      (∀ x t, fl = x :: t → ∃ t', fl1 = x :: t') := by
    by_cases hc : s.initialised < max
    · have hit := isItem_of h1 h2 h3 h4 hc
      have hnot : base + s.initialised * itemSize ∉ owned ++ fl := by
        intro hm
        obtain ⟨k, hk, e⟩ := h.items _ hm
        have : s.initialised = k := Nat.eq_of_mul_eq_mul_right h4 (by omega)
        omega
      have hst := hstop hc
      subst hst
      refine ⟨{ s with mem := upd s.mem (base + s.initialised * itemSize) (some (base + s.initialised * itemSize + itemSize)), initialised := s.initialised + 1 },
        fl ++ [base + s.initialised * itemSize], some (base + s.initialised * itemSize + itemSize), ?_, ?_, h1, h2, h3, h.hdebug, h.alloc_eq, ?_, ?_, ?_, ?_, ?_, ?_, ?_⟩
      · simp [initialiseOne, h3, hc, h1, h2, writePtr, hit, bind, Except.bind]
      · have hc1 := chain_upd (v := some (base + s.initialised * itemSize + itemSize)) (fun hm => hnot (List.mem_append_right _ hm)) hch
        have := chain_snoc hc1
        simpa using this
      · simp; omega
      · simp only; omega
      · rw [← List.append_assoc, List.nodup_append]
        refine ⟨h.nodup, by simp, ?_⟩
        intro a ha b hb e
        simp only [List.mem_singleton] at hb
        subst e hb
        exact hnot ha
      · intro a ha
        rw [← List.append_assoc, List.mem_append] at ha
        rcases ha with ha | ha
        · obtain ⟨k, hk, e⟩ := h.items a ha
          exact ⟨k, by simp only; omega, e⟩
        · simp only [List.mem_singleton] at ha
          exact ⟨s.initialised, by simp, ha⟩
      · intro _; simp only [Nat.add_mul, Nat.one_mul, Nat.add_assoc]
      · simp
      · rintro x t rfl; exact ⟨_, rfl⟩
    · have hle := h.init_le
      refine ⟨s, fl, stop, by simp [initialiseOne, h3, hc], hch, h1, h2, h3, h.hdebug, h.alloc_eq, hcount, hle, h.nodup, h.items, fun hh => absurd hh hc, ?_, fun x t e => ⟨t, e⟩⟩
      intro e; subst e; simp at hcount; omega
  obtain ⟨s1, fl1, stop1, e1, c1, b1, i1, m1, d1, a1, n1, le1, nd1, it1, st1, ne1, hd1⟩ := hinit
  obtain ⟨a, fl2, rfl⟩ := List.exists_cons_of_ne_nil ne1
  obtain ⟨cn, cc⟩ := c1
  obtain ⟨k, hk, ea⟩ := it1 a (by simp)
  have hhead : ∀ x t, fl = x :: t → a = x := by
    intro x t e
    obtain ⟨t', e'⟩ := hd1 x t e
    exact (List.cons.inj e').1
  have hperm : (owned ++ a :: fl2).Perm ((a :: owned) ++ fl2) := by simp [List.perm_middle]
  have hnd := hperm.nodup_iff.1 nd1
  have hlen : fl2.length + 1 + owned.length = s1.initialised := by simpa using n1
  by_cases hlast : owned.length + 1 < max
  · refine ⟨{ s1 with allocated := owned.length + 1, next := s1.mem a }, a, fl2, ?_, ?_, ⟨k, by omega, ea⟩, hhead, ?_⟩
    · simp only [allocateItem, h.alloc_eq, h3, hf, if_true, bind, Except.bind, e1]
      simp only [a1, m1, hlast, cn, if_true, readPtr]
      rw [if_pos (by rw [ea]; exact isItem_of (max := max) b1 i1 rfl h4 (by omega))]
    · simp at hnd; intro hm; exact hnd.1.1 hm
    · refine ⟨b1, i1, m1, d1, h4, le1, ?_, ?_, hnd, ?_, ⟨stop1, cc, st1⟩⟩
      · simp
      · simp; omega
      · intro b hb; exact it1 b (hperm.mem_iff.2 hb)
  · refine ⟨{ s1 with allocated := owned.length + 1, next := none }, a, fl2, ?_, ?_, ⟨k, by omega, ea⟩, hhead, ?_⟩
    · simp only [allocateItem, h.alloc_eq, h3, hf, if_true, bind, Except.bind, e1]
      simp only [a1, m1, hlast, cn, if_false]
    · simp at hnd; intro hm; exact hnd.1.1 hm
    · have hfl : fl2 = [] := List.eq_nil_of_length_eq_zero (by omega)
      subst hfl
      refine ⟨b1, i1, m1, d1, h4, le1, ?_, ?_, hnd, ?_, ⟨none, rfl, ?_⟩⟩
      · simp
      · simp; simpa [Nat.add_comm] using hlen
      · intro b hb; exact it1 b (hperm.mem_iff.2 hb)
      · intro hh; simp only at hh; simp at hlen; omega

theorem inPool_iff {base itemSize max : Nat} {debug : Bool} {s : St} {owned fl : List Nat}
    (h : Inv base itemSize max debug s owned fl) (hm : 0 < max) (p : Nat) :
    isItemInPool s p = true ↔ base ≤ p ∧ p ≤ base + (max - 1) * itemSize ∧ (debug = true → (p - base) % itemSize = 0) := by
  have h4 := h.pos
  have e : itemSize * max - itemSize = (max - 1) * itemSize := by
    rw [Nat.sub_mul, Nat.one_mul, Nat.mul_comm]
  simp only [isItemInPool, h.hbase, h.hsize, h.hmax, h.hdebug, e]
  by_cases hb : base ≤ p
  · have hd : (p : Int) - (base : Int) = ((p - base : Nat) : Int) := by omega
    rw [hd]
    have hmod : (((p - base : Nat) : Int) % (itemSize : Int) = 0) ↔ (p - base) % itemSize = 0 := by omega
    cases debug <;> simp [hb] <;> omega
  · have : ¬ ((p : Int) - (base : Int) ≥ 0) := by omega
    simp [hb, this]

theorem owned_inPool {base itemSize max : Nat} {debug : Bool} {s : St} {owned fl : List Nat}
    (h : Inv base itemSize max debug s owned fl) {p : Nat} (hp : p ∈ owned) :
    isItemInPool s p = true ∧ isItem s p = true := by
  obtain ⟨k, hk, e⟩ := h.items p (List.mem_append_left _ hp)
  have hle := h.init_le
  refine ⟨?_, ?_⟩
  · rw [inPool_iff h (by omega)]
    subst e
    have : k * itemSize ≤ (max - 1) * itemSize := Nat.mul_le_mul_right _ (by omega)
    refine ⟨by omega, by omega, fun _ => by simp⟩
  · rw [e]; exact isItem_of h.hbase h.hsize h.hmax h.pos (by omega)

theorem foreign_rejected {base itemSize max : Nat} {debug : Bool} {s : St} {owned fl : List Nat}
    (h : Inv base itemSize max debug s owned fl) {p : Nat} (hm : 0 < max)
    (hp : p < base ∨ base + itemSize * max ≤ p) : isItemInPool s p = false := by
  rw [Bool.eq_false_iff]
  intro hh
  rw [inPool_iff h hm] at hh
  have h4 := h.pos
  have e : (max - 1) * itemSize = itemSize * max - itemSize := by
    rw [Nat.sub_mul, Nat.one_mul, Nat.mul_comm]
  have : itemSize ≤ itemSize * max := Nat.le_mul_of_pos_right _ hm
  omega

theorem release_inv {base itemSize max : Nat} {debug : Bool} {s : St} {owned fl : List Nat}
    (h : Inv base itemSize max debug s owned fl) {p : Nat} (hp : p ∈ owned) :
    ∃ s', releaseItem s p = .ok (s', .done) ∧ Inv base itemSize max debug s' (owned.erase p) (p :: fl) := by
  obtain ⟨h1, h2⟩ := owned_inPool h hp
  have hpos : 0 < owned.length := List.length_pos_of_mem hp
  obtain ⟨stop, hch, hstop⟩ := h.chain
  have hperm : (owned ++ fl).Perm (owned.erase p ++ p :: fl) := by
    have := (List.perm_cons_erase hp).append_right fl
    exact this.trans (by simp [List.perm_middle.symm])
  have hnd := hperm.nodup_iff.1 h.nodup
  refine ⟨_, by simp [releaseItem, h1, h.alloc_eq, hpos, writePtr, h2, bind, Except.bind]; rfl, ?_⟩
  refine ⟨h.hbase, h.hsize, h.hmax, h.hdebug, h.pos, h.init_le, ?_, ?_, hnd, ?_, ⟨stop, ?_, hstop⟩⟩
  · simp [List.length_erase_of_mem hp]
  · simp only [List.length_cons, List.length_erase_of_mem hp]; have := h.count; omega
  · intro b hb; exact h.items b (hperm.mem_iff.2 hb)
  · refine ⟨rfl, ?_⟩
    simp only [upd_same]
    refine chain_upd ?_ hch
    have := (List.nodup_append.1 hnd).2.1
    exact (List.nodup_cons.1 this).1

/-- One step of a well-behaved client. -/
theorem step_inv {base itemSize max : Nat} {debug : Bool} {s : St} {owned fl : List Nat} (hm : 0 < max)
    (h : Inv base itemSize max debug s owned fl) {op : Op} (hl : Legal base (itemSize * max) owned op) :
    ∃ s' out fl', step s op = .ok (s', out) ∧ Inv base itemSize max debug s' (ownedAfter owned op out) fl' := by
  cases op with
  | alloc sz =>
    simp only [step, allocate]
    split
    · exact ⟨s, _, fl, rfl, h⟩
    · by_cases hf : owned.length < max
      · obtain ⟨s', a, fl', e, -, -, -, hi⟩ := allocate_inv h hf
        exact ⟨s', _, fl', e, hi⟩
      · refine ⟨s, .throw .noAllocation, fl, ?_, h⟩
        simp [allocateItem, h.alloc_eq, h.hmax, hf]
  | release p =>
    simp only [step]
    rcases hl with hl | hl
    · obtain ⟨s', e, hi⟩ := release_inv h hl
      exact ⟨s', _, _, e, hi⟩
    · have := foreign_rejected h hm hl
      exact ⟨s, .throw .notInPool, fl, by simp [releaseItem, this], h⟩
  | releaseAll =>
    refine ⟨_, .done, [], rfl, ?_⟩
    refine ⟨h.hbase, h.hsize, h.hmax, h.hdebug, h.pos, by simp [releaseAll], by simp [releaseAll, ownedAfter], by simp [releaseAll, ownedAfter], by simp [ownedAfter], by simp [ownedAfter], ⟨_, rfl, ?_⟩⟩
    intro _; simp [releaseAll, h.hbase]
  | scribble p v =>
    obtain ⟨-, h2⟩ := owned_inPool h hl
    obtain ⟨stop, hch, hstop⟩ := h.chain
    refine ⟨{ s with mem := upd s.mem p v }, .done, fl, by simp [step, writePtr, h2, bind, Except.bind], ?_⟩
    refine { h with chain := ⟨stop, chain_upd ?_ hch, hstop⟩ }
    intro hm'
    exact (List.nodup_append.1 h.nodup).2.2 p hl p hm' rfl

theorem reach_inv {base itemSize max : Nat} {debug : Bool} {mem : Nat → Option Nat} (hp : 0 < itemSize) (hm : 0 < max)
    {s : St} {owned : List Nat} (h : Reach base itemSize max debug mem s owned) :
    ∃ fl, Inv base itemSize max debug s owned fl := by
  induction h with
  | init => exact ⟨[], inv_init base itemSize max debug mem hp⟩
  | step h hl e ih =>
    obtain ⟨fl, hi⟩ := ih
    obtain ⟨s', out, fl', e', hi'⟩ := step_inv hm hi hl
    rw [e] at e'
    cases e'
    exact ⟨fl', hi'⟩

section Properties

variable {base itemSize max : Nat} {debug : Bool} {mem : Nat → Option Nat}
  (hp : 0 < itemSize) (hm : 0 < max) {s : St} {owned : List Nat}
  (h : Reach base itemSize max debug mem s owned)

include hp hm h

/-- **C05.**  A well-behaved client never triggers undefined behaviour. -/
theorem C05_no_ub (op : Op) (hl : Legal base (itemSize * max) owned op) : ∃ s' out, step s op = .ok (s', out) := by
  obtain ⟨fl, hi⟩ := reach_inv hp hm h
  obtain ⟨s', out, _, e, _⟩ := step_inv hm hi hl
  exact ⟨s', out, e⟩

/-- **C05.**  What `allocate` returns is non-null, an item of this pool's buffer on an item boundary, and not owned by anyone. -/
theorem C05_alloc_fresh (sz : Nat) (s' : St) (a : Option Nat) (e : step s (.alloc sz) = .ok (s', .addr a)) :
    ∃ k, k < max ∧ a = some (base + k * itemSize) ∧ base + k * itemSize ∉ owned := by
  obtain ⟨fl, hi⟩ := reach_inv hp hm h
  simp only [step, allocate] at e
  split at e
  · cases e
  · by_cases hf : owned.length < max
    · obtain ⟨s'', a', fl', e', h1, ⟨k, hk, rfl⟩, -⟩ := allocate_inv hi hf
      rw [e] at e'
      cases e'
      exact ⟨k, hk, rfl, h1⟩
    · simp [allocateItem, hi.alloc_eq, hi.hmax, hf] at e

/-- **C05.**  At every moment the storage of any two distinct live allocations is disjoint, and all of it lies in the buffer. -/
theorem C05_disjoint :
    owned.Nodup ∧ (∀ a ∈ owned, base ≤ a ∧ a + itemSize ≤ base + itemSize * max) ∧
    ∀ a ∈ owned, ∀ b ∈ owned, a ≠ b → a + itemSize ≤ b ∨ b + itemSize ≤ a := by
  obtain ⟨fl, hi⟩ := reach_inv hp hm h
  refine ⟨(List.nodup_append.1 hi.nodup).1, ?_, ?_⟩
  · intro a ha
    obtain ⟨k, hk, rfl⟩ := hi.items a (List.mem_append_left _ ha)
    have hle := hi.init_le
    have : (k + 1) * itemSize ≤ max * itemSize := Nat.mul_le_mul_right _ (by omega)
    rw [Nat.add_mul, Nat.mul_comm max] at this
    omega
  · intro a ha b hb hne
    obtain ⟨k, hk, rfl⟩ := hi.items a (List.mem_append_left _ ha)
    obtain ⟨j, hj, rfl⟩ := hi.items b (List.mem_append_left _ hb)
    have : k ≠ j := by intro e; exact hne (by rw [e])
    rcases Nat.lt_or_gt_of_ne this with hlt | hlt
    · left
      have : (k + 1) * itemSize ≤ j * itemSize := Nat.mul_le_mul_right _ hlt
      rw [Nat.add_mul] at this; omega
    · right
      have : (j + 1) * itemSize ≤ k * itemSize := Nat.mul_le_mul_right _ hlt
      rw [Nat.add_mul] at this; omega

/-- **C06.**  The counters are exact. -/
theorem C06_accounting : size s = owned.length ∧ size s + available s = max ∧ (empty s = true ↔ owned = []) ∧
    (full s = true ↔ owned.length = max) ∧ owned.length ≤ max := by
  obtain ⟨fl, hi⟩ := reach_inv hp hm h
  have h1 := hi.count; have h2 := hi.init_le
  simp only [size, available, empty, full, hi.alloc_eq, hi.hmax, beq_iff_eq, List.length_eq_zero_iff]
  refine ⟨trivial, by omega, trivial, trivial, by omega⟩

/-- **C06.**  Allocation of an object that fits an item fails exactly when all `max` items are owned. -/
theorem C06_alloc_fails_iff_full (sz : Nat) (hsz : sz ≤ itemSize) :
    (∃ s', step s (.alloc sz) = .ok (s', .throw .noAllocation)) ↔ owned.length = max := by
  obtain ⟨fl, hi⟩ := reach_inv hp hm h
  have h1 := hi.count; have h2 := hi.init_le
  have : ¬ sz > s.itemSize := by rw [hi.hsize]; omega
  simp only [step, allocate, this, if_false]
  by_cases hf : owned.length < max
  · obtain ⟨s'', a', fl', e', -⟩ := allocate_inv hi hf
    rw [e']
    constructor
    · rintro ⟨s', e⟩; cases e
    · omega
  · simp only [allocateItem, hi.alloc_eq, hi.hmax, hf, if_false]
    constructor
    · intro _; omega
    · intro _; exact ⟨s, rfl⟩

/-- **C06.**  Releasing an address outside the buffer is refused (`pool_object_not_in_pool`) and changes nothing; in a debug build so is
    an address inside the buffer that is not on an item boundary. -/
theorem C06_foreign_release (p : Nat)
    (hf : p < base ∨ base + itemSize * max ≤ p ∨ (debug = true ∧ (p - base) % itemSize ≠ 0)) :
    step s (.release p) = .ok (s, .throw .notInPool) := by
  obtain ⟨fl, hi⟩ := reach_inv hp hm h
  have : isItemInPool s p = false := by
    rcases hf with hf | hf | ⟨hd, hf⟩
    · exact foreign_rejected hi hm (.inl hf)
    · exact foreign_rejected hi hm (.inr hf)
    · rw [Bool.eq_false_iff]; intro hh
      rw [inPool_iff hi hm] at hh
      exact hf (hh.2.2 hd)
  simp [step, releaseItem, this]

/-- **C06.**  Releasing an owned item succeeds, and if the very next operation is an allocation it succeeds (and reuses that item). -/
theorem C06_release_then_alloc (p : Nat) (ho : p ∈ owned) (sz : Nat) (hsz : sz ≤ itemSize) :
    ∃ s' s'', step s (.release p) = .ok (s', .done) ∧ step s' (.alloc sz) = .ok (s'', .addr (some p)) := by
  obtain ⟨fl, hi⟩ := reach_inv hp hm h
  obtain ⟨s', e, hi'⟩ := release_inv hi ho
  have hlen : (owned.erase p).length < max := by
    have := List.length_erase_of_mem ho; have := hi.count; have := hi.init_le; have := List.length_pos_of_mem ho; omega
  obtain ⟨s'', a, fl', e', -, -, hhead, -⟩ := allocate_inv hi' hlen
  have hsz' : ¬ sz > s'.itemSize := by rw [hi'.hsize]; omega
  refine ⟨s', s'', e, ?_⟩
  simp only [step, allocate, hsz', if_false, e']
  rw [hhead p fl rfl]

end Properties

/-! ## Non-vacuity and a counter-example outside the contract -/

def demo (ops : List Op) : Res (St × List Out) :=
  ops.foldlM (fun (so : St × List Out) op => do
    let (s, out) ← step so.1 op
    .ok (s, so.2 ++ [out])) (init 100 8 3 true (fun _ => none), [])

def addrs (r : Res (St × List Out)) : List (Option Nat) :=
  match r with
  | .ok (_, outs) => outs.filterMap (fun o => match o with | .addr a => some a | _ => none)
  | .error _ => []

/-- allocate ×3 (third scribbled on), release the 2nd, allocate again: a reachable non-trivial state -/
example : addrs (demo [.alloc 8, .alloc 4, .alloc 8, .scribble 116 (some 7), .release 108, .alloc 8]) =
    [some 100, some 108, some 116, some 108] := by decide

example : ∃ s owned, Reach 100 8 3 true (fun _ => none) s owned ∧ owned = [108, 100] := by
  refine ⟨_, _, .step (op := .alloc 8) (.step (op := .alloc 8) .init trivial rfl) trivial rfl, rfl⟩

/-- *Finding*: a double release is **not** detected (the item is inside the buffer and something else is allocated), and afterwards the pool hands the same item out twice. -/
theorem double_release_not_detected :
    addrs (demo [.alloc 8, .alloc 8, .release 100, .release 100, .alloc 8, .alloc 8]) =
      [some 100, some 108, some 100, some 100] := by decide

end Etl.Pool
