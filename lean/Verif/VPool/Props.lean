import Verif.VPool.Model
import Verif.Pool.Props
import Mathlib.Tactic.Linarith

/-!
# Objects of several types in one pool (C90)
-/
namespace Etl.VPool

/-! ## Specification -/

/-- A live object, as its user knows it. -/
structure Obj where
  addr : Nat
  ty : Nat
  val : Option Nat

/-- The objects that live after an operation. -/
def after (live : List Obj) : Op → Out → List Obj
  | .create i v _, .addr (some a) => ⟨a, i, v⟩ :: live
  | .write p v, .done => live.map (fun o => if o.addr = p then { o with val := v } else o)
  | .destroy p _, .done => live.eraseP (fun o => o.addr == p)
  | _, _ => live

/-- What a careful user does: creates objects of the types of the pool, with constructors that do not throw; changes and destroys only what lives, through a pointer to the beginning of the object. -/
def Careful (c : Cfg) (live : List Obj) : Op → Prop
  | .create i _ throws => i < c.types.length ∧ throws = false
  | .write p _ => p ∈ live.map Obj.addr
  | .destroy p off => p ∈ live.map Obj.addr ∧ off = 0

/-- The states that a careful user can reach, with the live objects. -/
inductive Reach (c : Cfg) (mem : Nat → Option Nat) : St → List Obj → Prop where
  | init : Reach c mem (init c mem) []
  | step {s live op s' out} : Reach c mem s live → Careful c live op → step c s op = .ok (s', out) → Reach c mem s' (after live op out)

/-- Alignments are powers of two, sizes are positive, the buffer is aligned for `Element`, and it has at least one item. -/
structure Valid (c : Cfg) : Prop where
  pos : 0 < c.max
  ptr : 0 < c.ptr.size ∧ ∃ e, c.ptr.align = 2 ^ e
  ty : ∀ t ∈ c.types, ∃ e, t.align = 2 ^ e
  base : c.base % c.elementAlign = 0

/-! ## Sizes and alignments -/

theorem largestType_spec (t : Ty) (r : List Ty) : largestType t r ∈ t :: r ∧ ∀ u ∈ t :: r, u.size ≤ (largestType t r).size := by
  induction r generalizing t with
  | nil => simp [largestType]
  | cons u r ih =>
    obtain ⟨h1, h2⟩ := ih u
    simp only [largestType]
    split
    next h =>
      refine ⟨List.mem_cons_self, fun x hx => ?_⟩
      rcases List.mem_cons.mp hx with rfl | hx
      · exact Nat.le_refl _
      · have := h2 x hx; omega
    next h =>
      refine ⟨List.mem_cons_of_mem _ h1, fun x hx => ?_⟩
      rcases List.mem_cons.mp hx with rfl | hx
      · omega
      · exact h2 x hx
theorem largestAlignment_spec (t : Ty) (r : List Ty) : largestAlignment t r ∈ t :: r ∧ ∀ u ∈ t :: r, u.align ≤ (largestAlignment t r).align := by
  induction r generalizing t with
  | nil => simp [largestAlignment]
  | cons u r ih =>
    obtain ⟨h1, h2⟩ := ih u
    simp only [largestAlignment]
    split
    next h =>
      refine ⟨List.mem_cons_self, fun x hx => ?_⟩
      rcases List.mem_cons.mp hx with rfl | hx
      · exact Nat.le_refl _
      · have := h2 x hx; omega
    next h =>
      refine ⟨List.mem_cons_of_mem _ h1, fun x hx => ?_⟩
      rcases List.mem_cons.mp hx with rfl | hx
      · omega
      · exact h2 x hx

theorem two_dvd {a b : Nat} (ha : ∃ e, a = 2 ^ e) (hb : ∃ e, b = 2 ^ e) (h : a ≤ b) : a ∣ b := by
  obtain ⟨x, rfl⟩ := ha
  obtain ⟨y, rfl⟩ := hb
  exact Nat.pow_dvd_pow 2 ((Nat.pow_le_pow_iff_right (by omega)).mp h)

theorem le_roundUp (n a : Nat) (ha : 0 < a) : n ≤ roundUp n a := by
  unfold roundUp
  have h1 := Nat.div_add_mod (n + a - 1) a
  have h2 := Nat.mod_lt (n + a - 1) ha
  rw [Nat.mul_comm] at h1
  omega

variable {c : Cfg}

theorem align_pow (hv : Valid c) : ∃ e, c.elementAlign = 2 ^ e := by
  show ∃ e, max c.ptr.align c.alignment = 2 ^ e
  rcases Nat.le_total c.ptr.align c.alignment with h | h
  · rw [Nat.max_eq_right h]; exact hv.ty _ (largestAlignment_spec _ _).1
  · rw [Nat.max_eq_left h]; exact hv.ptr.2
theorem align_pos (hv : Valid c) : 0 < c.elementAlign := by
  obtain ⟨e, he⟩ := align_pow hv
  rw [he]; exact Nat.pow_pos (by omega)

theorem item_align (hv : Valid c) (k : Nat) {t : Ty} (ht : t ∈ c.types) : (c.base + k * c.elementSize) % t.align = 0 := by
  have hd : t.align ∣ c.elementAlign := two_dvd (hv.ty t ht) (align_pow hv) (Nat.le_trans ((largestAlignment_spec _ _).2 t ht) (Nat.le_max_right _ _))
  have h1 : c.elementAlign ∣ c.base := Nat.dvd_of_mod_eq_zero hv.base
  have h2 : c.elementAlign ∣ c.elementSize := Nat.dvd_mul_left _ _
  exact Nat.mod_eq_zero_of_dvd (Nat.dvd_trans hd (Nat.dvd_add h1 (Nat.dvd_trans h2 (Nat.dvd_mul_left _ _))))
theorem item_size (hv : Valid c) {t : Ty} (ht : t ∈ c.types) : t.size ≤ c.elementSize := by
  refine Nat.le_trans ?_ (le_roundUp _ _ (align_pos hv))
  exact Nat.le_trans ((largestType_spec _ _).2 t ht) (Nat.le_trans (Nat.le_max_left _ _) (Nat.le_max_right _ _))
theorem size_pos (hv : Valid c) : 0 < c.elementSize :=
  Nat.lt_of_lt_of_le hv.ptr.1 (Nat.le_trans (Nat.le_max_left _ _) (le_roundUp _ _ (align_pos hv)))

/-! ## The pool does not write into what is owned -/

theorem alloc_frame {base itemSize max : Nat} {debug : Bool} {s s' : Pool.St} {owned fl : List Nat} {out : Pool.Out} {sz : Nat} (h : Pool.Inv base itemSize max debug s owned fl) (e : Pool.step s (.alloc sz) = .ok (s', out)) :
    ∀ b ∈ owned, s'.mem b = s.mem b := by
  intro b hb
  obtain ⟨k, hk, hbk⟩ := h.items b (List.mem_append_left _ hb)
  have hne : b ≠ s.base + s.initialised * s.itemSize := by
    rw [h.hbase, h.hsize, hbk]
    intro c
    have : (k + 1) * itemSize ≤ s.initialised * itemSize := Nat.mul_le_mul_right _ hk
    rw [Nat.add_mul] at this
    have := h.pos
    omega
  have hinit : ∀ t, Pool.initialiseOne s = .ok t → t.mem b = s.mem b := by
    intro t ht
    unfold Pool.initialiseOne Pool.writePtr at ht
    by_cases h1 : s.initialised < s.max
    · rw [if_pos h1] at ht
      by_cases h2 : Pool.isItem s (s.base + s.initialised * s.itemSize) = true
      · simp only [h2, if_true, bind, Except.bind, Except.ok.injEq] at ht
        subst ht
        exact upd_other _ _ hne
      · simp only [h2, Bool.false_eq_true, if_false, bind, Except.bind] at ht
        cases ht
    · rw [if_neg h1] at ht
      cases ht; rfl
  simp only [Pool.step, Pool.allocate] at e
  split at e
  · cases e; rfl
  · unfold Pool.allocateItem at e
    split at e
    · cases hi : Pool.initialiseOne s with
      | error x => rw [hi] at e; cases e
      | ok t =>
        rw [hi] at e
        simp only [bind, Except.bind] at e
        have := hinit t hi
        split at e
        · split at e
          · cases e
          · simp only [Except.ok.injEq, Prod.mk.injEq] at e; rw [← e.1]; exact this
        · simp only [Except.ok.injEq, Prod.mk.injEq] at e; rw [← e.1]; exact this
    · cases e; rfl

theorem write_frame {s s' : Pool.St} {p : Nat} {v : Option Nat} {out : Pool.Out} (e : Pool.step s (.scribble p v) = .ok (s', out)) : s'.mem = upd s.mem p v ∧ out = .done := by
  simp only [Pool.step, Pool.writePtr] at e
  split at e
  · cases e; exact ⟨rfl, rfl⟩
  · cases e

theorem release_frame {s s' : Pool.St} {p : Nat} {out : Pool.Out} (e : Pool.step s (.release p) = .ok (s', out)) : ∀ b, b ≠ p → s'.mem b = s.mem b := by
  intro b hb
  simp only [Pool.step, Pool.releaseItem] at e
  split at e
  · split at e
    · unfold Pool.writePtr at e
      split at e
      · simp only [bind, Except.bind, Except.ok.injEq, Prod.mk.injEq] at e
        rw [← e.1]; exact upd_other _ _ hb
      · cases e
    · cases e; rfl
  · cases e; rfl

/-! ## Invariant -/

structure Inv (c : Cfg) (mem : Nat → Option Nat) (s : St) (live : List Obj) : Prop where
  pool : Pool.Reach c.base c.elementSize c.max c.debug mem s.pool (live.map Obj.addr)
  obj : ∀ a i, s.obj a = some i ↔ ∃ o ∈ live, o.addr = a ∧ o.ty = i
  val : ∀ o ∈ live, s.pool.mem o.addr = o.val
  ty : ∀ o ∈ live, o.ty < c.types.length
  count : s.built = s.destroyed + live.length

theorem nodup_of {mem : Nat → Option Nat} {s : St} {live : List Obj} (hv : Valid c) (h : Inv c mem s live) : (live.map Obj.addr).Nodup :=
  (Pool.C05_disjoint (size_pos hv) hv.pos h.pool).1

theorem map_eraseP (live : List Obj) (p : Nat) : (live.eraseP (fun o => o.addr == p)).map Obj.addr = (live.map Obj.addr).erase p := by
  induction live with
  | nil => rfl
  | cons o l ih =>
    by_cases h : o.addr = p
    · rw [List.eraseP_cons_of_pos (by simp [h])]
      simp [h]
    · rw [List.eraseP_cons_of_neg (by simp [h])]
      rw [List.map_cons, List.map_cons, ih, List.erase_cons_tail (by simp [h])]

theorem mem_eraseP {live : List Obj} {p : Nat} (hn : (live.map Obj.addr).Nodup) (o : Obj) : o ∈ live.eraseP (fun o => o.addr == p) ↔ o ∈ live ∧ o.addr ≠ p := by
  induction live with
  | nil => simp
  | cons x l ih =>
    rw [List.map_cons, List.nodup_cons] at hn
    by_cases h : x.addr = p
    · rw [List.eraseP_cons_of_pos (by simp [h])]
      constructor
      · intro ho
        refine ⟨List.mem_cons_of_mem _ ho, fun c => hn.1 ?_⟩
        rw [h, ← c]; exact List.mem_map_of_mem ho
      · rintro ⟨ho, hne⟩
        rcases List.mem_cons.mp ho with rfl | ho
        · exact absurd h hne
        · exact ho
    · rw [List.eraseP_cons_of_neg (by simp [h]), List.mem_cons, List.mem_cons, ih hn.2]
      constructor
      · rintro (rfl | ⟨h1, h2⟩)
        · exact ⟨.inl rfl, h⟩
        · exact ⟨.inr h1, h2⟩
      · rintro ⟨rfl | h1, h2⟩
        · exact .inl rfl
        · exact .inr ⟨h1, h2⟩

theorem length_eraseP {live : List Obj} {p : Nat} (h : p ∈ live.map Obj.addr) : live.length = (live.eraseP (fun o => o.addr == p)).length + 1 := by
  obtain ⟨o, ho, hp⟩ := List.mem_map.mp h
  have := List.length_eraseP_of_mem (p := fun o => o.addr == p) ho (by simp [hp])
  have := List.length_pos_of_mem ho
  omega

theorem obj_uniq {live : List Obj} (hn : (live.map Obj.addr).Nodup) {o q : Obj} (ho : o ∈ live) (hq : q ∈ live) (h : o.addr = q.addr) : o = q := by
  induction live with
  | nil => cases ho
  | cons x l ih =>
    rw [List.map_cons, List.nodup_cons] at hn
    rcases List.mem_cons.mp ho with e1 | e1 <;> rcases List.mem_cons.mp hq with e2 | e2
    · rw [e1, e2]
    · subst e1; exact absurd (h ▸ List.mem_map_of_mem e2) hn.1
    · subst e2; exact absurd (h ▸ List.mem_map_of_mem e1) hn.1
    · exact ih hn.2 e1 e2

/-- What each operation of a careful user does. -/
theorem step_inv {mem : Nat → Option Nat} {s : St} {live : List Obj} (hv : Valid c) (h : Inv c mem s live) {op : Op} (hc : Careful c live op) :
    ∃ s' out, step c s op = .ok (s', out) ∧ Inv c mem s' (after live op out) ∧
      (match op with
        | .create i _ _ => (live.length < c.max ∧ ∃ k a, k < c.max ∧ a = c.base + k * c.elementSize ∧ a ∉ live.map Obj.addr ∧ out = .addr (some a)) ∨ (live.length = c.max ∧ out = .throw .noAllocation ∧ s' = s)
        | _ => out = .done) := by
  have hsp := size_pos hv
  have hnd := nodup_of hv h
  obtain ⟨fl, hi⟩ := Pool.reach_inv hsp hv.pos h.pool
  cases op with
  | create i v throws =>
    obtain ⟨hil, rfl⟩ := hc
    obtain ⟨t, ht⟩ : ∃ t, c.types[i]? = some t := ⟨_, List.getElem?_eq_getElem hil⟩
    have htm : t ∈ c.types := List.mem_of_getElem? ht
    have hsz := item_size hv htm
    obtain ⟨p, out, ep⟩ := Pool.C05_no_ub hsp hv.pos h.pool (.alloc t.size) trivial
    have hfull := Pool.C06_alloc_fails_iff_full hsp hv.pos h.pool t.size hsz
    have hacc := Pool.C06_accounting hsp hv.pos h.pool
    simp only [List.length_map] at hfull hacc
    simp only [step, create, ht, bind, Except.bind, ep]
    by_cases hlt : live.length < c.max
    · -- the allocation succeeds
      have hnofail : ¬ live.length = c.max := by omega
      obtain ⟨s'', a', fl', e', hno, ⟨k, hk, rfl⟩, -⟩ := Pool.allocate_inv hi (by rw [List.length_map]; exact hlt)
      have hsz' : ¬ t.size > s.pool.itemSize := by rw [hi.hsize]; omega
      have : Pool.step s.pool (.alloc t.size) = .ok (s'', .addr (some (c.base + k * c.elementSize))) := by
        simp only [Pool.step, Pool.allocate, hsz', if_false]; exact e'
      rw [this] at ep
      cases ep
      generalize ha : c.base + k * c.elementSize = a at *
      have hal : a % t.align = 0 := by rw [← ha]; exact item_align hv k htm
      have hdead : s.obj a = none := by
        cases hx : s.obj a with
        | none => rfl
        | some j =>
          obtain ⟨o, ho, hoa, _⟩ := (h.obj a j).mp hx
          exact absurd (List.mem_map.mpr ⟨o, ho, hoa⟩) hno
      have r1 : Pool.Reach c.base c.elementSize c.max c.debug mem p (a :: live.map Obj.addr) := Pool.Reach.step h.pool (op := .alloc t.size) trivial this
      obtain ⟨q, out2, eq2⟩ := Pool.C05_no_ub hsp hv.pos r1 (.scribble a v) List.mem_cons_self
      obtain ⟨hmem, rfl⟩ := write_frame eq2
      have r2 : Pool.Reach c.base c.elementSize c.max c.debug mem q (a :: live.map Obj.addr) := Pool.Reach.step r1 (op := .scribble a v) List.mem_cons_self eq2
      have hframe := alloc_frame hi this
      simp only [Bool.false_eq_true, if_false, hal, ne_eq, not_true_eq_false, hdead, eq2]
      refine ⟨_, _, rfl, ⟨r2, ?_, ?_, ?_, ?_⟩, .inl ⟨hlt, k, a, hk, ha.symm, hno, rfl⟩⟩
      · intro b j
        show upd s.obj a (some i) b = some j ↔ ∃ o ∈ (⟨a, i, v⟩ : Obj) :: live, o.addr = b ∧ o.ty = j
        by_cases hb : b = a
        · subst hb
          rw [upd_same]
          constructor
          · intro e; exact ⟨_, List.mem_cons_self, rfl, by simpa using e⟩
          · rintro ⟨o, ho, hoa, hoj⟩
            rcases List.mem_cons.mp ho with rfl | ho
            · exact congrArg some hoj
            · exact absurd (List.mem_map.mpr ⟨o, ho, hoa⟩) hno
        · rw [upd_other _ _ hb, h.obj]
          constructor
          · rintro ⟨o, ho, hx⟩; exact ⟨o, List.mem_cons_of_mem _ ho, hx⟩
          · rintro ⟨o, ho, hoa, hx⟩
            rcases List.mem_cons.mp ho with rfl | ho
            · exact absurd hoa.symm hb
            · exact ⟨o, ho, hoa, hx⟩
      · intro o ho
        show q.mem o.addr = o.val
        rw [hmem]
        rcases List.mem_cons.mp ho with rfl | ho
        · exact upd_same _ _ _
        · have hoa : o.addr ∈ live.map Obj.addr := List.mem_map_of_mem ho
          rw [upd_other _ _ (fun e : o.addr = a => hno (e ▸ hoa)), hframe _ hoa]
          exact h.val o ho
      · intro o ho
        rcases List.mem_cons.mp ho with rfl | ho
        · exact hil
        · exact h.ty o ho
      · show s.built + 1 = s.destroyed + (live.length + 1)
        have := h.count; omega
    · -- the pool is full
      have heq : live.length = c.max := by omega
      obtain ⟨s', es'⟩ := hfull.mpr heq
      rw [es'] at ep
      cases ep
      have hs : p = s.pool := by
        have hsz' : ¬ t.size > s.pool.itemSize := by rw [hi.hsize]; omega
        simp only [Pool.step, Pool.allocate, hsz', if_false] at es'
        unfold Pool.allocateItem at es'
        have hnl : ¬ s.pool.allocated < s.pool.max := by
          rw [hi.alloc_eq, hi.hmax, List.length_map]; omega
        rw [if_neg hnl] at es'
        cases es'; rfl
      rw [hs]
      exact ⟨_, _, rfl, h, .inr ⟨heq, rfl, rfl⟩⟩
  | write p v =>
    obtain ⟨o, ho, hop⟩ := List.mem_map.mp hc
    have hl : s.obj p = some o.ty := (h.obj p _).mpr ⟨o, ho, hop, rfl⟩
    obtain ⟨q, out2, eq2⟩ := Pool.C05_no_ub hsp hv.pos h.pool (.scribble p v) hc
    obtain ⟨hmem, rfl⟩ := write_frame eq2
    have r2 : Pool.Reach c.base c.elementSize c.max c.debug mem q (live.map Obj.addr) := Pool.Reach.step h.pool (op := .scribble p v) hc eq2
    simp only [step, hl, bind, Except.bind, eq2]
    have haddr : ∀ x : Obj, (if x.addr = p then { x with val := v } else x).addr = x.addr := fun x => by split <;> rfl
    have hty : ∀ x : Obj, (if x.addr = p then { x with val := v } else x).ty = x.ty := fun x => by split <;> rfl
    have hmap : (live.map (fun o => if o.addr = p then { o with val := v } else o)).map Obj.addr = live.map Obj.addr := by
      rw [List.map_map]; exact List.map_congr_left (fun x _ => haddr x)
    refine ⟨_, _, rfl, ⟨by rw [show after live (.write p v) .done = live.map (fun o => if o.addr = p then { o with val := v } else o) from rfl, hmap]; exact r2, ?_, ?_, ?_, ?_⟩, rfl⟩
    · intro a i
      show s.obj a = some i ↔ ∃ o ∈ live.map (fun o => if o.addr = p then { o with val := v } else o), o.addr = a ∧ o.ty = i
      rw [h.obj]
      constructor
      · rintro ⟨x, hx, h1, h2⟩; exact ⟨_, List.mem_map_of_mem hx, by rw [haddr]; exact h1, by rw [hty]; exact h2⟩
      · rintro ⟨y, hy, h1, h2⟩
        obtain ⟨x, hx, rfl⟩ := List.mem_map.mp hy
        rw [haddr] at h1; rw [hty] at h2
        exact ⟨x, hx, h1, h2⟩
    · intro y hy
      obtain ⟨x, hx, rfl⟩ := List.mem_map.mp hy
      show q.mem _ = _
      rw [hmem, haddr]
      by_cases e : x.addr = p
      · rw [if_pos e, e, upd_same]
      · rw [if_neg e, upd_other _ _ e]; exact h.val x hx
    · intro y hy
      obtain ⟨x, hx, rfl⟩ := List.mem_map.mp hy
      rw [hty]; exact h.ty x hx
    · show s.built = s.destroyed + (live.map _).length
      rw [List.length_map]; exact h.count
  | destroy p off =>
    obtain ⟨hc, rfl⟩ := hc
    obtain ⟨o, ho, hop⟩ := List.mem_map.mp hc
    have hl : s.obj p = some o.ty := (h.obj p _).mpr ⟨o, ho, hop, rfl⟩
    obtain ⟨q, e2, -⟩ := Pool.release_inv hi hc
    have eq2 : Pool.step s.pool (.release p) = .ok (q, .done) := e2
    have r2 := Pool.Reach.step h.pool (op := .release p) (.inl hc) eq2
    rw [show Pool.ownedAfter (live.map Obj.addr) (.release p) .done = (live.map Obj.addr).erase p from rfl, ← map_eraseP] at r2
    simp only [step, destroy, Nat.sub_zero, hl, bind, Except.bind, eq2]
    refine ⟨_, _, rfl, ⟨r2, ?_, ?_, ?_, ?_⟩, rfl⟩
    · intro a i
      show upd s.obj p none a = some i ↔ ∃ o ∈ live.eraseP (fun o => o.addr == p), o.addr = a ∧ o.ty = i
      by_cases e : a = p
      · subst e
        rw [upd_same]
        constructor
        · intro x; cases x
        · rintro ⟨x, hx, h1, _⟩; exact absurd h1 ((mem_eraseP hnd x).mp hx).2
      · rw [upd_other _ _ e, h.obj]
        constructor
        · rintro ⟨x, hx, h1, h2⟩; exact ⟨x, (mem_eraseP hnd x).mpr ⟨hx, fun y => e (h1 ▸ y)⟩, h1, h2⟩
        · rintro ⟨x, hx, h1, h2⟩; exact ⟨x, ((mem_eraseP hnd x).mp hx).1, h1, h2⟩
    · intro x hx
      obtain ⟨h1, h2⟩ := (mem_eraseP hnd x).mp hx
      show q.mem x.addr = x.val
      rw [release_frame eq2 _ h2]; exact h.val x h1
    · intro x hx; exact h.ty x ((mem_eraseP hnd x).mp hx).1
    · show s.built = s.destroyed + 1 + _
      have := h.count
      have := length_eraseP hc
      show s.built = s.destroyed + 1 + (live.eraseP (fun o => o.addr == p)).length
      omega

theorem reach_inv {mem : Nat → Option Nat} (hv : Valid c) {s : St} {live : List Obj} (h : Reach c mem s live) : Inv c mem s live := by
  induction h with
  | init => exact ⟨.init, fun a i => ⟨fun e => (by cases e), fun ⟨o, ho, _⟩ => (by cases ho)⟩, fun o ho => (by cases ho), fun o ho => (by cases ho), rfl⟩
  | step _ hc e ih =>
    obtain ⟨s', out, e', h', -⟩ := step_inv hv ih hc
    rw [e] at e'
    cases e'
    exact h'

/-! ## C90 -/

section
variable {mem : Nat → Option Nat} {s : St} {live : List Obj}

/-- C90: no operation of a careful user constructs on a live object, destroys or touches a dead one, or is otherwise undefined. -/
theorem C90_defined (hv : Valid c) (h : Reach c mem s live) (op : Op) (hc : Careful c live op) : ∃ s' out, step c s op = .ok (s', out) := by
  obtain ⟨s', out, e, -⟩ := step_inv hv (reach_inv hv h) hc
  exact ⟨s', out, e⟩

/-- C90: `create` of any of the types succeeds exactly if fewer than `max` objects live, whatever was created and destroyed before; else it reports that the pool is full and nothing changes. -/
theorem C90_create (hv : Valid c) (h : Reach c mem s live) (i : Nat) (hi : i < c.types.length) (v : Option Nat) :
    (live.length < c.max → ∃ s' a, step c s (.create i v false) = .ok (s', .addr (some a)) ∧ a ∉ live.map Obj.addr ∧ s'.pool.mem a = v) ∧
    (¬ live.length < c.max → step c s (.create i v false) = .ok (s, .throw .noAllocation)) := by
  obtain ⟨s', out, e, h', hx⟩ := step_inv hv (reach_inv hv h) (op := .create i v false) ⟨hi, rfl⟩
  rcases hx with ⟨hlt, k, a, _, _, hno, rfl⟩ | ⟨heq, rfl, rfl⟩
  · exact ⟨fun _ => ⟨s', a, e, hno, h'.val ⟨a, i, v⟩ List.mem_cons_self⟩, fun c => absurd hlt c⟩
  · exact ⟨fun c => absurd heq (by omega), fun _ => e⟩

/-- C90: every live object is in the buffer, aligned as its type needs, and apart from all others. -/
theorem C90_storage (hv : Valid c) (h : Reach c mem s live) (o : Obj) (ho : o ∈ live) : ∃ t, c.types[o.ty]? = some t ∧ o.addr % t.align = 0 ∧ c.base ≤ o.addr ∧ o.addr + t.size ≤ c.base + c.elementSize * c.max ∧
    ∀ q ∈ live, q.addr ≠ o.addr → ∀ u, c.types[q.ty]? = some u → o.addr + t.size ≤ q.addr ∨ q.addr + u.size ≤ o.addr := by
  have hi := reach_inv hv h
  obtain ⟨hd, hb, hdis⟩ := Pool.C05_disjoint (size_pos hv) hv.pos hi.pool
  obtain ⟨t, ht⟩ : ∃ t, c.types[o.ty]? = some t := ⟨_, List.getElem?_eq_getElem (hi.ty o ho)⟩
  have htm : t ∈ c.types := List.mem_of_getElem? ht
  have hoa : o.addr ∈ live.map Obj.addr := List.mem_map_of_mem ho
  obtain ⟨fl, hpi⟩ := Pool.reach_inv (size_pos hv) hv.pos hi.pool
  obtain ⟨k, _, hk⟩ := hpi.items o.addr (List.mem_append_left _ hoa)
  have hs := item_size hv htm
  have := hb o.addr hoa
  refine ⟨t, ht, by rw [hk]; exact item_align hv k htm, this.1, by omega, ?_⟩
  intro q hq hne u hu
  have hqs := item_size hv (List.mem_of_getElem? hu)
  rcases hdis o.addr hoa q.addr (List.mem_map_of_mem hq) (Ne.symm hne) with h1 | h1
  · left; omega
  · right; omega

/-- C90: every live object has the value that its user gave it last, whatever happened to the others; and the addresses of the live objects are distinct. -/
theorem C90_values (hv : Valid c) (h : Reach c mem s live) : (live.map Obj.addr).Nodup ∧ ∀ o ∈ live, s.pool.mem o.addr = o.val ∧ s.obj o.addr = some o.ty := by
  have hi := reach_inv hv h
  exact ⟨nodup_of hv hi, fun o ho => ⟨hi.val o ho, (hi.obj _ _).mpr ⟨o, ho, rfl, rfl⟩⟩⟩

/-- C90: `size` is the number of live objects, and every object that does not live any more was destroyed once: constructions are destructions plus live objects. -/
theorem C90_count (hv : Valid c) (h : Reach c mem s live) : Pool.size s.pool = live.length ∧ s.built = s.destroyed + live.length ∧ live.length ≤ c.max := by
  have hi := reach_inv hv h
  have := Pool.C06_accounting (size_pos hv) hv.pos hi.pool
  simp only [List.length_map] at this
  exact ⟨this.1, hi.count, this.2.2.2.2⟩

/-- C90: `destroy` runs the destructor and makes room: the next `create` succeeds. -/
theorem C90_destroy (hv : Valid c) (h : Reach c mem s live) (p : Nat) (hp : p ∈ live.map Obj.addr) (i : Nat) (hi : i < c.types.length) (v : Option Nat) :
    ∃ s' s'' a, step c s (.destroy p 0) = .ok (s', .done) ∧ s'.obj p = none ∧ step c s' (.create i v false) = .ok (s'', .addr (some a)) := by
  obtain ⟨s', out, e, h', hx⟩ := step_inv hv (reach_inv hv h) (op := .destroy p 0) ⟨hp, rfl⟩
  simp only at hx
  subst hx
  have hr : Reach c mem s' (live.eraseP (fun o => o.addr == p)) := .step h (op := .destroy p 0) ⟨hp, rfl⟩ e
  have hlen := length_eraseP hp
  have hcnt := (C90_count hv h).2.2
  obtain ⟨s'', a, e2, _⟩ := (C90_create hv hr i hi v).1 (by omega)
  refine ⟨s', s'', a, e, ?_, e2⟩
  cases hx : s'.obj p with
  | none => rfl
  | some j =>
    obtain ⟨o, ho, hoa, _⟩ := (h'.obj p j).mp hx
    exact absurd hoa ((mem_eraseP (nodup_of hv (reach_inv hv h)) o).mp ho).2

end

/-! ## Findings and examples -/

/-- Two types of sizes 1 and 12, alignments 1 and 4, on a machine with pointers of 4 bytes. -/
def ex (debug : Bool) : Cfg := ⟨⟨1, 1⟩, [⟨12, 4⟩], ⟨4, 4⟩, 2, 400, debug⟩
def runs (c : Cfg) : St → List Op → Res (St × List (Option Nat) × List Nat)
  | s, [] => .ok (s, [], [])
  | s, op :: l => do
    let (s, out) ← step c s op
    let (s', as, n) ← runs c s l
    .ok (s', (match out with | .addr a => a :: as | _ => as), s.built :: n)
/-- Addresses handed out; the next one; the number of items used. -/
def look (r : Res (St × List (Option Nat) × List Nat)) : Option (List (Option Nat) × Nat) := match r with | .ok (s, as, _) => some (as, Pool.size s.pool) | .error _ => none

example : Valid (ex true) where
  pos := by decide
  ptr := ⟨by decide, 2, rfl⟩
  ty := fun t ht => by
    rcases List.mem_cons.mp ht with e | ht
    · exact ⟨0, by rw [e]; rfl⟩
    · rcases List.mem_cons.mp ht with e | ht
      · exact ⟨2, by rw [e]; rfl⟩
      · cases ht
  base := by decide
example : look (runs (ex true) (init (ex true) fun _ => none) [.create 0 (some 7) false, .create 1 (some 8) false, .destroy 400 0, .create 1 (some 9) false]) = some ([some 400, some 412, some 400], 2) := by decide +kernel

/-- A constructor that throws leaves its item allocated for ever: no object lives, and the pool is full. -/
theorem C90_finding_throw : look (runs (ex true) (init (ex true) fun _ => none) [.create 0 none true, .create 1 none true]) = some ([], 2) ∧
    look (runs (ex true) (init (ex true) fun _ => none) [.create 0 none true, .create 1 none true, .create 0 (some 1) false]) = some ([], 2) := by decide +kernel
/-- `destroy` accepts pointers to base classes (`is_base_of_any`, variant_pool.h l.106).  If the base is not at the beginning of the object, in a debug build the object is destroyed and then the release is refused, so that the item is lost. -/
theorem C90_finding_base : look (runs (ex true) (init (ex true) fun _ => none) [.create 1 (some 8) false, .destroy 404 4]) = some ([some 400], 1) := by decide +kernel
/-- In a release build the wrong address is accepted, and the pool writes its list through it, not at an item. -/
theorem C90_finding_base_release : (match runs (ex false) (init (ex false) fun _ => none) [.create 1 (some 8) false, .destroy 404 4] with | .error .outOfBounds => true | _ => false) = true := by decide +kernel

end Etl.VPool
