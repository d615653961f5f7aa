import Verif.BlockAlloc.Model
import Verif.Pool.Props
import Verif.MultiRange.Props
import Mathlib.Data.List.Forall2
import Mathlib.Tactic.Ring

/-!
# Properties of the memory block allocators and of successor chains (C77)
-/
namespace Etl.BlockAlloc
open Etl.MultiRange (Links Chain)

/-! ## Specification -/

/-- An allocator: its template parameters, the place of its buffer and the size of an element of it (`sizeof(Element)`, generic_pool.h). -/
structure Cfg where
  blockSize : Nat
  alignment : Nat
  max : Nat
  base : Nat
  itemSize : Nat
  debug : Bool

/-- The address `p` lies in the buffer of the allocator. -/
def Cfg.inBuf (c : Cfg) (p : Nat) : Bool := decide (c.base ≤ p ∧ p < c.base + c.itemSize * c.max)

/-- What the compiler makes sure of: an element holds a block, elements and buffer are aligned, and the buffers of different allocators do not overlap. -/
structure Valid (cfg : Nat → Cfg) : Prop where
  itemPos : ∀ k, 0 < (cfg k).itemSize
  maxPos : ∀ k, 0 < (cfg k).max
  fits : ∀ k, (cfg k).blockSize ≤ (cfg k).itemSize
  pow : ∀ k, ∃ e, (cfg k).alignment = 2 ^ e
  alignedItem : ∀ k, (cfg k).alignment ∣ (cfg k).itemSize
  alignedBase : ∀ k, (cfg k).alignment ∣ (cfg k).base
  disjoint : ∀ j k, j ≠ k → (cfg j).base + (cfg j).itemSize * (cfg j).max ≤ (cfg k).base ∨ (cfg k).base + (cfg k).itemSize * (cfg k).max ≤ (cfg j).base

/-- A block the user has: its address and the size asked for. -/
structure Block where
  addr : Nat
  size : Nat

/-- How many of the user's blocks are of the allocator `c`. -/
def used (c : Cfg) (bs : List Block) : Nat := (bs.filter (fun b => c.inBuf b.addr)).length

/-- The allocator `c` has a block for the request. -/
def Fits (c : Cfg) (bs : List Block) (size align : Nat) : Prop := align ≤ c.alignment ∧ size ≤ c.blockSize ∧ used c bs < c.max

/-- The states reached by a user who releases what is theirs or what is of no allocator, writes into their blocks, and changes the successors at will; with the blocks they have. -/
inductive Reach (cfg : Nat → Cfg) : W → List Block → Prop where
  | init (mem : Nat → Nat → Option Nat) : Reach cfg ⟨fun _ => none, fun k => ⟨(cfg k).blockSize, (cfg k).alignment, Pool.init (cfg k).base (cfg k).itemSize (cfg k).max (cfg k).debug (mem k)⟩⟩ []
  | link {w bs} (succ : Links) : Reach cfg w bs → Reach cfg { w with succ := succ } bs
  | write {w bs w'} (k : Nat) (b : Block) (v : Option Nat) : Reach cfg w bs → b ∈ bs → (cfg k).inBuf b.addr = true → scribble w k b.addr v = .ok w' → Reach cfg w' bs
  | alloc {w bs w' a} (fuel i size e : Nat) : Reach cfg w bs → allocate fuel w i size (2 ^ e) = .ok (w', .addr (some a)) → Reach cfg w' (⟨a, size⟩ :: bs)
  | release {w bs w'} (fuel i : Nat) (b : Block) : Reach cfg w bs → b ∈ bs → release fuel w i b.addr = .ok (w', .flag true) → Reach cfg w' (bs.filter (fun c => c.addr != b.addr))

/-! ## Invariant -/

/-- The addresses of the blocks of `c`. -/
def own (c : Cfg) (bs : List Block) : List Nat := (bs.map Block.addr).filter c.inBuf

theorem own_length (c : Cfg) (bs : List Block) : (own c bs).length = used c bs := by
  unfold own used
  rw [List.filter_map, List.length_map]; rfl

structure AInv (c : Cfg) (a : Alloc) (bs : List Block) : Prop where
  bsz : a.blockSize = c.blockSize
  algn : a.alignment = c.alignment
  pool : ∃ fl, Pool.Inv c.base c.itemSize c.max c.debug a.pool (own c bs) fl

structure Inv (cfg : Nat → Cfg) (w : W) (bs : List Block) : Prop where
  each : ∀ k, AInv (cfg k) (w.al k) bs
  block : ∀ b ∈ bs, ∃ k m, m < (cfg k).max ∧ b.addr = (cfg k).base + m * (cfg k).itemSize ∧ b.size ≤ (cfg k).blockSize
  nodup : (bs.map Block.addr).Nodup

theorem inBuf_item {c : Cfg} {m : Nat} (hp : 0 < c.itemSize) (hm : m < c.max) : c.inBuf (c.base + m * c.itemSize) = true := by
  unfold Cfg.inBuf
  have : (m + 1) * c.itemSize ≤ c.max * c.itemSize := Nat.mul_le_mul_right _ hm
  rw [Nat.add_mul, Nat.mul_comm c.max] at this
  exact decide_eq_true ⟨by omega, by omega⟩

theorem inBuf_unique {cfg : Nat → Cfg} (hv : Valid cfg) {j k p : Nat} (hj : (cfg j).inBuf p = true) (hk : (cfg k).inBuf p = true) : j = k := by
  have h1 := of_decide_eq_true hj
  have h2 := of_decide_eq_true hk
  apply Classical.byContradiction
  intro h
  have := hv.disjoint j k h
  omega

theorem upd_eta {β : Type} (f : Nat → β) (i : Nat) : upd f i (f i) = f := by
  funext j
  by_cases h : j = i
  · subst h; rw [upd_same]
  · rw [upd_other _ _ h]

theorem full_iff {cfg : Nat → Cfg} {w : W} {bs : List Block} (hi : Inv cfg w bs) (k : Nat) : Pool.full (w.al k).pool = false ↔ used (cfg k) bs < (cfg k).max := by
  obtain ⟨fl, h⟩ := (hi.each k).pool
  have h1 := h.alloc_eq
  have h2 := h.hmax
  have h3 := h.count
  have h4 := h.init_le
  rw [own_length] at h1 h3
  unfold Pool.full
  rw [h1, h2, beq_eq_false_iff_ne]
  omega

theorem allocateBlock_no {cfg : Nat → Cfg} {w : W} {bs : List Block} (hi : Inv cfg w bs) (k size align : Nat) (hf : ¬ Fits (cfg k) bs size align) : allocateBlock (w.al k) size align = .ok (w.al k, .addr none) := by
  unfold allocateBlock
  rw [if_neg]
  intro h
  rw [(hi.each k).algn, (hi.each k).bsz, full_iff hi k] at h
  exact hf h

theorem allocateBlock_yes {cfg : Nat → Cfg} (hv : Valid cfg) {w : W} {bs : List Block} (hi : Inv cfg w bs) (k size align : Nat) (hf : Fits (cfg k) bs size align) :
    ∃ a' p m, allocateBlock (w.al k) size align = .ok (a', .addr (some p)) ∧ m < (cfg k).max ∧ p = (cfg k).base + m * (cfg k).itemSize ∧ p ∉ own (cfg k) bs ∧ AInv (cfg k) a' (⟨p, size⟩ :: bs) := by
  obtain ⟨fl, h⟩ := (hi.each k).pool
  have hlt := hf.2.2
  rw [← own_length] at hlt
  obtain ⟨s', p, fl', e1, e2, ⟨m, hm, e3⟩, _, e5⟩ := Pool.allocate_inv h hlt
  refine ⟨{ w.al k with pool := s' }, p, m, ?_, hm, e3, e2, (hi.each k).bsz, (hi.each k).algn, fl', ?_⟩
  · unfold allocateBlock
    rw [if_pos ⟨by rw [(hi.each k).algn]; exact hf.1, by rw [(hi.each k).bsz]; exact hf.2.1, (full_iff hi k).mpr hf.2.2⟩]
    have : Pool.allocate (w.al k).pool (w.al k).blockSize = Pool.allocateItem (w.al k).pool := by
      unfold Pool.allocate
      rw [if_neg (by rw [h.hsize, (hi.each k).bsz]; have := hv.fits k; omega)]
    rw [this, e1]
  · have : own (cfg k) (⟨p, size⟩ :: bs) = p :: own (cfg k) bs := by
      unfold own
      rw [List.map_cons, List.filter_cons_of_pos]
      rw [e3]; exact inBuf_item (hv.itemPos k) hm
    rw [this]; exact e5

theorem AInv.other {cfg : Nat → Cfg} {c : Cfg} {a : Alloc} {bs : List Block} {b : Block} (h : AInv c a bs) (hb : c.inBuf b.addr = false) : AInv c a (b :: bs) := by
  refine ⟨h.bsz, h.algn, ?_⟩
  have : own c (b :: bs) = own c bs := by
    unfold own
    rw [List.map_cons, List.filter_cons_of_neg (by rw [hb]; decide)]
  rw [this]; exact h.pool

theorem not_inBuf_other {cfg : Nat → Cfg} (hv : Valid cfg) {j k p : Nat} (hj : j ≠ k) (hk : (cfg k).inBuf p = true) : (cfg j).inBuf p = false := by
  cases h : (cfg j).inBuf p with
  | false => rfl
  | true => exact absurd (inBuf_unique hv h hk) hj

/-- The state after allocator `k` gave a block. -/
theorem Inv.add {cfg : Nat → Cfg} (hv : Valid cfg) {w : W} {bs : List Block} (hi : Inv cfg w bs) {k size m p : Nat} {a' : Alloc} (hm : m < (cfg k).max) (hp : p = (cfg k).base + m * (cfg k).itemSize)
    (hn : p ∉ own (cfg k) bs) (hs : size ≤ (cfg k).blockSize) (ha : AInv (cfg k) a' (⟨p, size⟩ :: bs)) : Inv cfg { w with al := upd w.al k a' } (⟨p, size⟩ :: bs) := by
  have hin : (cfg k).inBuf p = true := by rw [hp]; exact inBuf_item (hv.itemPos k) hm
  refine ⟨fun j => ?_, ?_, ?_⟩
  · show AInv (cfg j) (upd w.al k a' j) _
    by_cases hj : j = k
    · subst hj; rw [upd_same]; exact ha
    · rw [upd_other _ _ hj]
      exact (hi.each j).other (cfg := cfg) (not_inBuf_other hv hj hin)
  · intro b hb
    rcases List.mem_cons.mp hb with e | e
    · subst e; exact ⟨k, m, hm, hp, hs⟩
    · exact hi.block b e
  · rw [List.map_cons]
    refine List.nodup_cons.mpr ⟨fun h => hn (List.mem_filter.mpr ⟨h, hin⟩), hi.nodup⟩

/-- The chain asks its allocators in order. -/
theorem allocate_eq {cfg : Nat → Cfg} {bs : List Block} (size align fuel : Nat) : ∀ {w : W} {i : Nat} {l : List Nat}, Inv cfg w bs → Chain w.succ (some i) l → l.length ≤ fuel →
    ((∀ k ∈ l, ¬ Fits (cfg k) bs size align) → allocate fuel w i size align = .ok (w, .addr none)) ∧
    ∀ l1 k l2, l = l1 ++ k :: l2 → (∀ j ∈ l1, ¬ Fits (cfg j) bs size align) → ∀ a' p, allocateBlock (w.al k) size align = .ok (a', .addr (some p)) →
      allocate fuel w i size align = .ok ({ w with al := upd w.al k a' }, .addr (some p)) := by
  induction fuel with
  | zero => intro w i l _ hc hf; cases hc; simp at hf
  | succ fuel ih =>
    intro w i l hi hc hf
    have hskip : ¬ Fits (cfg i) bs size align → allocate (fuel + 1) w i size align = (match w.succ i with
      | some j => allocate fuel w j size align
      | none => .ok (w, .addr none)) := by
      intro hn
      rw [allocate]
      rw [allocateBlock_no hi i size align hn]
      have hw : ({ w with al := upd w.al i (w.al i) } : W) = w := by rw [upd_eta]
      simp only [hw]
      cases w.succ i <;> rfl
    cases hc with
    | @cons _ l hc' =>
    have hf' : l.length ≤ fuel := by simp only [List.length_cons] at hf; omega
    constructor
    · intro hn
      rw [hskip (hn i List.mem_cons_self)]
      cases hs : w.succ i with
      | none => rfl
      | some j =>
        rw [hs] at hc'
        exact (ih hi hc' hf').1 (fun k hk => hn k (List.mem_cons_of_mem _ hk))
    · intro l1 k l2 hl h1 a' p ha
      cases l1 with
      | nil =>
        have hik : i = k := (List.cons.inj hl).1
        subst hik
        unfold allocate
        rw [ha]
      | cons x l1 =>
        have hx : i = x := (List.cons.inj hl).1
        subst hx
        rw [hskip (h1 i List.mem_cons_self)]
        have hl' : l = l1 ++ k :: l2 := (List.cons.inj hl).2
        cases hs : w.succ i with
        | none => rw [hs] at hc'; cases hc'; simp at hl'
        | some j =>
          rw [hs] at hc'
          exact (ih hi hc' hf').2 l1 k l2 hl' (fun j hj => h1 j (List.mem_cons_of_mem _ hj)) a' p ha

theorem isItemInPool_own {cfg : Nat → Cfg} {w : W} {bs : List Block} (hi : Inv cfg w bs) {b : Block} (hb : b ∈ bs) {k : Nat} (hk : (cfg k).inBuf b.addr = true) : Pool.isItemInPool (w.al k).pool b.addr = true := by
  obtain ⟨fl, h⟩ := (hi.each k).pool
  exact (Pool.owned_inPool h (List.mem_filter.mpr ⟨List.mem_map_of_mem hb, hk⟩)).1

theorem isItemInPool_out {cfg : Nat → Cfg} (hv : Valid cfg) {w : W} {bs : List Block} (hi : Inv cfg w bs) {p k : Nat} (hk : (cfg k).inBuf p = false) : Pool.isItemInPool (w.al k).pool p = false := by
  obtain ⟨fl, h⟩ := (hi.each k).pool
  refine Pool.foreign_rejected h (hv.maxPos k) ?_
  have := of_decide_eq_false hk
  omega

theorem releaseBlock_no {cfg : Nat → Cfg} (hv : Valid cfg) {w : W} {bs : List Block} (hi : Inv cfg w bs) {p k : Nat} (hk : (cfg k).inBuf p = false) : releaseBlock (w.al k) p = .ok (w.al k, .flag false) := by
  unfold releaseBlock
  rw [isItemInPool_out hv hi hk]
  rfl

theorem own_release {c : Cfg} {bs : List Block} {b : Block} (hn : (bs.map Block.addr).Nodup) : own c (bs.filter (fun x => x.addr != b.addr)) = (own c bs).erase b.addr := by
  unfold own
  rw [List.Nodup.erase_eq_filter (hn.filter _), List.filter_filter, List.filter_map, List.filter_map, List.filter_filter]
  congr 1
  apply List.filter_congr
  intro x _
  simp only [Function.comp]
  exact Bool.and_comm _ _

theorem releaseBlock_yes {cfg : Nat → Cfg} {w : W} {bs : List Block} (hi : Inv cfg w bs) {b : Block} (hb : b ∈ bs) {k : Nat} (hk : (cfg k).inBuf b.addr = true) :
    ∃ a', releaseBlock (w.al k) b.addr = .ok (a', .flag true) ∧ AInv (cfg k) a' (bs.filter (fun x => x.addr != b.addr)) := by
  obtain ⟨fl, h⟩ := (hi.each k).pool
  have hm : b.addr ∈ own (cfg k) bs := List.mem_filter.mpr ⟨List.mem_map_of_mem hb, hk⟩
  obtain ⟨s', e1, e2⟩ := Pool.release_inv h hm
  refine ⟨{ w.al k with pool := s' }, ?_, (hi.each k).bsz, (hi.each k).algn, b.addr :: fl, ?_⟩
  · unfold releaseBlock
    rw [if_pos (isItemInPool_own hi hb hk), e1]
  · rw [own_release hi.nodup]; exact e2

theorem Inv.remove {cfg : Nat → Cfg} (hv : Valid cfg) {w : W} {bs : List Block} (hi : Inv cfg w bs) {b : Block} {k : Nat} (hk : (cfg k).inBuf b.addr = true) {a' : Alloc}
    (ha : AInv (cfg k) a' (bs.filter (fun x => x.addr != b.addr))) : Inv cfg { w with al := upd w.al k a' } (bs.filter (fun x => x.addr != b.addr)) := by
  refine ⟨fun j => ?_, fun c hc => hi.block c (List.mem_filter.mp hc).1, ?_⟩
  · show AInv (cfg j) (upd w.al k a' j) _
    by_cases hj : j = k
    · subst hj; rw [upd_same]; exact ha
    · rw [upd_other _ _ hj]
      have h := hi.each j
      refine ⟨h.bsz, h.algn, ?_⟩
      have hni : b.addr ∉ own (cfg j) bs := fun hm => by
        have := (List.mem_filter.mp hm).2
        rw [not_inBuf_other hv hj hk] at this; cases this
      rw [own_release hi.nodup, List.erase_of_not_mem hni]
      exact h.pool
  · have : (bs.filter (fun x => x.addr != b.addr)).map Block.addr = (bs.map Block.addr).filter (fun p => p != b.addr) := by
      rw [List.filter_map]; rfl
    rw [this]; exact hi.nodup.filter _

theorem release_eq {cfg : Nat → Cfg} (hv : Valid cfg) {bs : List Block} (p fuel : Nat) : ∀ {w : W} {i : Nat} {l : List Nat}, Inv cfg w bs → Chain w.succ (some i) l → l.length ≤ fuel →
    ((∀ k ∈ l, (cfg k).inBuf p = false) → release fuel w i p = .ok (w, .flag false) ∧ isOwnerOf fuel w i p = .ok false) ∧
    ∀ k ∈ l, (cfg k).inBuf p = true → Pool.isItemInPool (w.al k).pool p = true → isOwnerOf fuel w i p = .ok true ∧ ∀ a', releaseBlock (w.al k) p = .ok (a', .flag true) → release fuel w i p = .ok ({ w with al := upd w.al k a' }, .flag true) := by
  induction fuel with
  | zero => intro w i l _ hc hf; cases hc; simp at hf
  | succ fuel ih =>
    intro w i l hi hc hf
    have hskip : (cfg i).inBuf p = false → release (fuel + 1) w i p = (match w.succ i with
      | some j => release fuel w j p
      | none => .ok (w, .flag false)) ∧ isOwnerOf (fuel + 1) w i p = (match w.succ i with
      | some j => isOwnerOf fuel w j p
      | none => .ok false) := by
      intro hn
      constructor
      · rw [release]
        rw [releaseBlock_no hv hi hn]
        have hw : ({ w with al := upd w.al i (w.al i) } : W) = w := by rw [upd_eta]
        simp only [hw]
        cases w.succ i <;> rfl
      · rw [isOwnerOf]
        unfold isOwnerOfBlock
        rw [isItemInPool_out hv hi hn]
        rfl
    cases hc with
    | @cons _ l hc' =>
    have hf' : l.length ≤ fuel := by simp only [List.length_cons] at hf; omega
    constructor
    · intro hn
      obtain ⟨h1, h2⟩ := hskip (hn i List.mem_cons_self)
      rw [h1, h2]
      cases hs : w.succ i with
      | none => exact ⟨rfl, rfl⟩
      | some j =>
        rw [hs] at hc'
        exact (ih hi hc' hf').1 (fun k hk => hn k (List.mem_cons_of_mem _ hk))
    · intro k hk hin hit
      by_cases hik : i = k
      · subst hik
        constructor
        · unfold isOwnerOf isOwnerOfBlock
          rw [if_pos hit]
        · intro a' ha
          unfold release
          rw [ha]
      · have hkl : k ∈ l := by
          rcases List.mem_cons.mp hk with e | e
          · exact absurd e.symm hik
          · exact e
        obtain ⟨h1, h2⟩ := hskip (not_inBuf_other hv hik hin)
        rw [h1, h2]
        cases hs : w.succ i with
        | none => rw [hs] at hc'; cases hc'; cases hkl
        | some j =>
          rw [hs] at hc'
          exact (ih hi hc' hf').2 k hkl hin hit

/-- A call of `allocate` that gave a block, without a chain: the invariant stays. -/
theorem allocate_inv {cfg : Nat → Cfg} (hv : Valid cfg) {bs : List Block} (size align fuel : Nat) : ∀ {w w' : W} {i p : Nat}, Inv cfg w bs → allocate fuel w i size align = .ok (w', .addr (some p)) → Inv cfg w' (⟨p, size⟩ :: bs) := by
  induction fuel with
  | zero => intro w w' i p _ h; cases h
  | succ fuel ih =>
    intro w w' i p hi h
    by_cases hfit : Fits (cfg i) bs size align
    · obtain ⟨a', q, m, e1, e2, e3, e4, e5⟩ := allocateBlock_yes hv hi i size align hfit
      unfold allocate at h
      rw [e1] at h
      cases h
      exact hi.add hv e2 e3 e4 hfit.2.1 e5
    · unfold allocate at h
      rw [allocateBlock_no hi i size align hfit] at h
      have hw : ({ w with al := upd w.al i (w.al i) } : W) = w := by rw [upd_eta]
      simp only [hw] at h
      cases hs : w.succ i with
      | none => rw [hs] at h; cases h
      | some j => rw [hs] at h; exact ih hi h

theorem release_inv {cfg : Nat → Cfg} (hv : Valid cfg) {bs : List Block} {b : Block} (hb : b ∈ bs) (fuel : Nat) : ∀ {w w' : W} {i : Nat}, Inv cfg w bs → release fuel w i b.addr = .ok (w', .flag true) →
    Inv cfg w' (bs.filter (fun x => x.addr != b.addr)) := by
  induction fuel with
  | zero => intro w w' i _ h; cases h
  | succ fuel ih =>
    intro w w' i hi h
    cases hin : (cfg i).inBuf b.addr with
    | true =>
      obtain ⟨a', e1, e2⟩ := releaseBlock_yes hi hb hin
      unfold release at h
      rw [e1] at h
      cases h
      exact hi.remove hv hin e2
    | false =>
      unfold release at h
      rw [releaseBlock_no hv hi hin] at h
      have hw : ({ w with al := upd w.al i (w.al i) } : W) = w := by rw [upd_eta]
      simp only [hw] at h
      cases hs : w.succ i with
      | none => rw [hs] at h; cases h
      | some j => rw [hs] at h; exact ih hi h

theorem scribble_inv {cfg : Nat → Cfg} (hv : Valid cfg) {w : W} {bs : List Block} (hi : Inv cfg w bs) {b : Block} (hb : b ∈ bs) {k : Nat} (hk : (cfg k).inBuf b.addr = true) (v : Option Nat) :
    ∃ w', scribble w k b.addr v = .ok w' ∧ Inv cfg w' bs ∧ w'.succ = w.succ := by
  obtain ⟨fl, h⟩ := (hi.each k).pool
  have hm : b.addr ∈ own (cfg k) bs := List.mem_filter.mpr ⟨List.mem_map_of_mem hb, hk⟩
  obtain ⟨s', out, fl', e1, e2⟩ := Pool.step_inv (op := .scribble b.addr v) (hv.maxPos k) h hm
  have e1' : Pool.writePtr (w.al k).pool b.addr v = .ok s' := by
    replace e1 : (do let s ← Pool.writePtr (w.al k).pool b.addr v; Except.ok (s, Pool.Out.done)) = Except.ok (s', out) := e1
    cases hwp : Pool.writePtr (w.al k).pool b.addr v with
    | error e => rw [hwp] at e1; cases e1
    | ok q => rw [hwp] at e1; cases e1; rfl
  refine ⟨{ w with al := upd w.al k { w.al k with pool := s' } }, ?_, ⟨fun j => ?_, hi.block, hi.nodup⟩, rfl⟩
  · unfold scribble
    simp only [bind, Except.bind, e1']
  · show AInv (cfg j) (upd w.al k { w.al k with pool := s' } j) _
    by_cases hj : j = k
    · subst hj; rw [upd_same]
      refine ⟨(hi.each j).bsz, (hi.each j).algn, fl', ?_⟩
      cases out <;> exact e2
    · rw [upd_other _ _ hj]; exact hi.each j

theorem reach_inv {cfg : Nat → Cfg} (hv : Valid cfg) {w : W} {bs : List Block} (h : Reach cfg w bs) : Inv cfg w bs := by
  induction h with
  | init mem => exact ⟨fun k => ⟨rfl, rfl, [], Pool.inv_init _ _ _ _ _ (hv.itemPos k)⟩, (fun b hb => (List.not_mem_nil hb).elim), List.nodup_nil⟩
  | link succ _ ih => exact ⟨ih.each, ih.block, ih.nodup⟩
  | write k b v _ hb hk he ih =>
    obtain ⟨w', h1, h2, _⟩ := scribble_inv hv ih hb hk v
    rw [he] at h1; cases h1; exact h2
  | alloc fuel i size e _ he ih => exact allocate_inv hv size (2 ^ e) fuel ih he
  | release fuel i b _ hb he ih => exact release_inv hv hb fuel ih he

/-! ## Properties -/

section Properties
variable {cfg : Nat → Cfg} (hv : Valid cfg) {w : W} {bs : List Block} (h : Reach cfg w bs) {i : Nat} {l : List Nat} (hc : Chain w.succ (some i) l) {fuel : Nat} (hf : l.length ≤ fuel)
include hv h hc hf

/-- C77: `allocate` takes a block from the first allocator of the chain that has one: big enough, aligned as asked, inside its buffer, apart from every block the user has.  All other allocators, and the links, stay as they are. -/
theorem C77_allocate (size e : Nat) (l1 : List Nat) (k : Nat) (l2 : List Nat) (hl : l = l1 ++ k :: l2) (h1 : ∀ j ∈ l1, ¬ Fits (cfg j) bs size (2 ^ e)) (hk : Fits (cfg k) bs size (2 ^ e)) :
    ∃ w' a, allocate fuel w i size (2 ^ e) = .ok (w', .addr (some a)) ∧ (cfg k).base ≤ a ∧ a + size ≤ (cfg k).base + (cfg k).itemSize * (cfg k).max ∧ 2 ^ e ∣ a ∧
      (∀ b ∈ bs, a + size ≤ b.addr ∨ b.addr + b.size ≤ a) ∧ w'.succ = w.succ ∧ ∀ j, j ≠ k → w'.al j = w.al j := by
  have hi := reach_inv hv h
  obtain ⟨a', p, m, e1, e2, e3, e4, e5⟩ := allocateBlock_yes hv hi k size (2 ^ e) hk
  have hin : (cfg k).inBuf p = true := by rw [e3]; exact inBuf_item (hv.itemPos k) e2
  have hfit := hv.fits k
  have hsz : size ≤ (cfg k).itemSize := by have := hk.2.1; omega
  have hend : (m + 1) * (cfg k).itemSize ≤ (cfg k).itemSize * (cfg k).max := by rw [Nat.mul_comm (cfg k).itemSize]; exact Nat.mul_le_mul_right _ e2
  rw [Nat.add_mul] at hend
  refine ⟨{ w with al := upd w.al k a' }, p, (allocate_eq size (2 ^ e) fuel hi hc hf).2 l1 k l2 hl h1 a' p e1, by omega, by omega, ?_, ?_, rfl, fun j hj => upd_other _ _ hj⟩
  · obtain ⟨e', he'⟩ := hv.pow k
    have hle : 2 ^ e ≤ 2 ^ e' := he' ▸ hk.1
    have hd : 2 ^ e ∣ (cfg k).alignment := by rw [he']; exact Nat.pow_dvd_pow 2 ((Nat.pow_le_pow_iff_right (by omega)).mp hle)
    rw [e3]
    exact Nat.dvd_add (Nat.dvd_trans hd (hv.alignedBase k)) (Nat.dvd_mul_left_of_dvd (Nat.dvd_trans hd (hv.alignedItem k)) m)
  · intro b hb
    obtain ⟨j, n, hn, hba, hbs⟩ := hi.block b hb
    have hbin : (cfg j).inBuf b.addr = true := by rw [hba]; exact inBuf_item (hv.itemPos j) hn
    by_cases hjk : j = k
    · subst hjk
      have hne : m ≠ n := fun hmn => e4 (by rw [e3, hmn, ← hba]; exact List.mem_filter.mpr ⟨List.mem_map_of_mem hb, hbin⟩)
      rcases Nat.lt_or_gt_of_ne hne with hlt | hlt
      · left
        have : (m + 1) * (cfg j).itemSize ≤ n * (cfg j).itemSize := Nat.mul_le_mul_right _ hlt
        rw [Nat.add_mul] at this; omega
      · right
        have : (n + 1) * (cfg j).itemSize ≤ m * (cfg j).itemSize := Nat.mul_le_mul_right _ hlt
        rw [Nat.add_mul] at this; omega
    · have hd := hv.disjoint j k hjk
      have h3 := hv.fits j
      have : (n + 1) * (cfg j).itemSize ≤ (cfg j).itemSize * (cfg j).max := by rw [Nat.mul_comm (cfg j).itemSize]; exact Nat.mul_le_mul_right _ hn
      rw [Nat.add_mul] at this
      rcases hd with hd | hd
      · right; omega
      · left; omega

/-- C77: `allocate` gives null exactly when no allocator of the chain has a block for the request, and then nothing changes. -/
theorem C77_allocate_null (size e : Nat) :
    ((∀ k ∈ l, ¬ Fits (cfg k) bs size (2 ^ e)) → allocate fuel w i size (2 ^ e) = .ok (w, .addr none)) ∧
    ((∃ w', allocate fuel w i size (2 ^ e) = .ok (w', .addr none)) → ∀ k ∈ l, ¬ Fits (cfg k) bs size (2 ^ e)) := by
  have hi := reach_inv hv h
  refine ⟨(allocate_eq size (2 ^ e) fuel hi hc hf).1, ?_⟩
  rintro ⟨w', hw⟩ k hk hfit
  have : ∃ l1 k l2, l = l1 ++ k :: l2 ∧ (∀ j ∈ l1, ¬ Fits (cfg j) bs size (2 ^ e)) ∧ Fits (cfg k) bs size (2 ^ e) := by
    clear hc hf hw
    induction l with
    | nil => cases hk
    | cons x l ih =>
      by_cases hx : Fits (cfg x) bs size (2 ^ e)
      · exact ⟨[], x, l, rfl, fun j hj => (List.not_mem_nil hj).elim, hx⟩
      · rcases List.mem_cons.mp hk with e | e
        · exact absurd (e ▸ hfit) hx
        · obtain ⟨l1, k', l2, a1, a2, a3⟩ := ih e
          refine ⟨x :: l1, k', l2, by rw [a1]; rfl, fun j hj => ?_, a3⟩
          rcases List.mem_cons.mp hj with e | e
          · rw [e]; exact hx
          · exact a2 j e
  obtain ⟨l1, k', l2, a1, a2, a3⟩ := this
  obtain ⟨w'', a, b1, _⟩ := C77_allocate hv h hc hf size e l1 k' l2 a1 a2 a3
  rw [hw] at b1
  cases b1

/-- C77: `release` and `is_owner_of` of a block the user has are true exactly when its allocator is in the chain.  `release` then gives it back: the user has all blocks but this one, and only its allocator has changed.
Otherwise, and for every address that is in no buffer of the chain, they are false and nothing changes. -/
theorem C77_release :
    (∀ b ∈ bs, ∀ k ∈ l, (cfg k).inBuf b.addr = true → isOwnerOf fuel w i b.addr = .ok true ∧ ∃ w', release fuel w i b.addr = .ok (w', .flag true) ∧ Reach cfg w' (bs.filter (fun c => c.addr != b.addr)) ∧
      used (cfg k) (bs.filter (fun c => c.addr != b.addr)) + 1 = used (cfg k) bs ∧ w'.succ = w.succ ∧ ∀ j, j ≠ k → w'.al j = w.al j) ∧
    (∀ p, (∀ k ∈ l, (cfg k).inBuf p = false) → release fuel w i p = .ok (w, .flag false) ∧ isOwnerOf fuel w i p = .ok false) := by
  have hi := reach_inv hv h
  constructor
  · intro b hb k hk hin
    obtain ⟨a', e1, e2⟩ := releaseBlock_yes hi hb hin
    obtain ⟨r1, r2⟩ := (release_eq hv b.addr fuel hi hc hf).2 k hk hin (isItemInPool_own hi hb hin)
    have hr := r2 a' e1
    refine ⟨r1, _, hr, Reach.release fuel i b h hb hr, ?_, rfl, fun j hj => upd_other _ _ hj⟩
    have hm : b.addr ∈ own (cfg k) bs := List.mem_filter.mpr ⟨List.mem_map_of_mem hb, hin⟩
    rw [← own_length, ← own_length, own_release hi.nodup, List.length_erase_of_mem hm]
    have := List.length_pos_of_mem hm
    omega
  · intro p hp
    exact (release_eq hv p fuel hi hc hf).1 hp

end Properties

/-- C77: at any time any two blocks the user has are apart, and each lies in the buffer of one allocator. -/
theorem C77_apart {cfg : Nat → Cfg} (hv : Valid cfg) {w : W} {bs : List Block} (h : Reach cfg w bs) :
    (∀ b ∈ bs, ∃ k, (cfg k).base ≤ b.addr ∧ b.addr + b.size ≤ (cfg k).base + (cfg k).itemSize * (cfg k).max) ∧ bs.Pairwise (fun b c => b.addr + b.size ≤ c.addr ∨ c.addr + c.size ≤ b.addr) := by
  have hi := reach_inv hv h
  constructor
  · intro b hb
    obtain ⟨k, m, hm, ha, hs⟩ := hi.block b hb
    have h3 := hv.fits k
    have : (m + 1) * (cfg k).itemSize ≤ (cfg k).itemSize * (cfg k).max := by rw [Nat.mul_comm (cfg k).itemSize]; exact Nat.mul_le_mul_right _ hm
    rw [Nat.add_mul] at this
    exact ⟨k, by omega, by omega⟩
  · have hn : bs.Pairwise (fun b c => b.addr ≠ c.addr) := List.pairwise_map.mp hi.nodup
    refine hn.imp_of_mem ?_
    intro b c hb hc hne
    obtain ⟨k, m, hm, ha, hs⟩ := hi.block b hb
    obtain ⟨j, n, hn, ha', hs'⟩ := hi.block c hc
    have h3 := hv.fits k
    have h3' := hv.fits j
    have q1 : (m + 1) * (cfg k).itemSize ≤ (cfg k).itemSize * (cfg k).max := by rw [Nat.mul_comm (cfg k).itemSize]; exact Nat.mul_le_mul_right _ hm
    have q2 : (n + 1) * (cfg j).itemSize ≤ (cfg j).itemSize * (cfg j).max := by rw [Nat.mul_comm (cfg j).itemSize]; exact Nat.mul_le_mul_right _ hn
    rw [Nat.add_mul] at q1 q2
    by_cases hjk : j = k
    · subst hjk
      have hmn : m ≠ n := fun e => hne (by rw [ha, ha', e])
      rcases Nat.lt_or_gt_of_ne hmn with hlt | hlt
      · left
        have : (m + 1) * (cfg j).itemSize ≤ n * (cfg j).itemSize := Nat.mul_le_mul_right _ hlt
        rw [Nat.add_mul] at this; omega
      · right
        have : (n + 1) * (cfg j).itemSize ≤ m * (cfg j).itemSize := Nat.mul_le_mul_right _ hlt
        rw [Nat.add_mul] at this; omega
    · have hd := hv.disjoint j k hjk
      omega

/-- C77: the user may write to their blocks: no access outside the buffers. -/
theorem C77_write {cfg : Nat → Cfg} (hv : Valid cfg) {w : W} {bs : List Block} (h : Reach cfg w bs) (b : Block) (hb : b ∈ bs) (k : Nat) (hk : (cfg k).inBuf b.addr = true) (v : Option Nat) :
    ∃ w', scribble w k b.addr v = .ok w' ∧ Reach cfg w' bs := by
  obtain ⟨w', h1, h2, _⟩ := scribble_inv hv (reach_inv hv h) hb hk v
  exact ⟨w', h1, Reach.write k b v h hb hk h1⟩

/-! ## Successors -/

/-- C77: `set_successor(s, rest...)`: the chain is this object, then the arguments, then what followed the last of them. -/
theorem C77_set_successor (self s : Nat) (rest : List Nat) (hn : (self :: s :: rest).Nodup) (succ : Links) (t : List Nat) (hlast : ∀ e, (s :: rest).getLast? = some e → Chain succ (succ e) t) (hd : ∀ k ∈ t, k ∉ self :: s :: rest) :
    Chain (setSuccessors succ self s rest) (some self) (self :: s :: rest ++ t) ∧ ∀ k, k ∉ self :: s :: rest → setSuccessors succ self s rest k = succ k := by
  have key : ∀ (rest : List Nat) (self s : Nat) (succ : Links), (self :: s :: rest).Nodup → (∀ e, (s :: rest).getLast? = some e → Chain succ (succ e) t) → (∀ k ∈ t, k ∉ self :: s :: rest) →
      Chain (setSuccessors succ self s rest) (some self) (self :: s :: rest ++ t) ∧ (∀ k, k ∉ self :: s :: rest → setSuccessors succ self s rest k = succ k) ∧ (setSuccessors succ self s rest self = some s) := by
    intro rest
    induction rest with
    | nil =>
      intro self s succ hn hlast hd
      have hne : s ≠ self := fun e => (List.nodup_cons.mp hn).1 (by rw [e]; exact List.mem_cons_self)
      refine ⟨?_, fun k hk => upd_other _ _ (fun (e : k = self) => hk (by rw [e]; exact List.mem_cons_self)), upd_same _ _ _⟩
      show Chain (upd succ self (some s)) (some self) (self :: s :: t)
      refine Chain.cons ?_
      rw [upd_same]
      refine Chain.cons ?_
      rw [upd_other _ _ hne]
      exact (hlast s rfl).frame (fun k hk => upd_other _ _ (fun (e : k = self) => hd k hk (by rw [e]; exact List.mem_cons_self)))
    | cons r rest ih =>
      intro self s succ hn hlast hd
      obtain ⟨hn1, hn2⟩ := List.nodup_cons.mp hn
      have hrec : setSuccessors succ self s (r :: rest) = setSuccessors (setSuccessor succ self s) s r rest := rfl
      obtain ⟨i1, i2, i3⟩ := ih s r (setSuccessor succ self s) hn2 (by
        intro e he
        have hes : e ∈ r :: rest := List.mem_of_getLast? he
        have hne : e ≠ self := fun h => hn1 (by rw [← h]; exact List.mem_cons_of_mem _ hes)
        have hb := hlast e (by rw [List.getLast?_cons_cons]; exact he)
        unfold setSuccessor
        rw [upd_other _ _ hne]
        exact hb.frame (fun k hk => upd_other _ _ (fun (h : k = self) => hd k hk (by rw [h]; exact List.mem_cons_self)))) (fun k hk hm => hd k hk (List.mem_cons_of_mem _ hm))
      have hself : setSuccessors succ self s (r :: rest) self = some s := by
        rw [hrec, i2 self hn1]; exact upd_same _ _ _
      refine ⟨?_, ?_, hself⟩
      · show Chain _ (some self) (self :: (s :: r :: rest ++ t))
        refine Chain.cons ?_
        rw [hself, hrec]
        exact i1
      · intro k hk
        rw [hrec, i2 k (fun hm => hk (List.mem_cons_of_mem _ hm))]
        exact upd_other _ _ (fun (h : k = self) => hk (by rw [h]; exact List.mem_cons_self))
  obtain ⟨k1, k2, _⟩ := key rest self s succ hn hlast hd
  exact ⟨k1, k2⟩

theorem appendOne_eq {succ : Links} (s fuel : Nat) : ∀ {self e : Nat} {l : List Nat}, Chain succ (some self) l → l.getLast? = some e → l.length ≤ fuel → appendOne fuel succ self s = .ok (upd succ e (some s)) := by
  induction fuel with
  | zero => intro self e l hc _ hf; cases hc; simp at hf
  | succ fuel ih =>
    intro self e l hc he hf
    cases hc with
    | @cons _ l hc' =>
    unfold appendOne
    cases l with
    | nil =>
      rw [show succ self = none from hc'.head]
      simp at he
      rw [he]; rfl
    | cons j l =>
      have hs : succ self = some j := hc'.head
      rw [hs] at hc' ⊢
      exact ih hc' (by rw [List.getLast?_cons_cons] at he; exact he) (by simp only [List.length_cons] at hf ⊢; omega)

/-- C77: `append_successor(s...)`: the chains of the arguments are put at the end, in order, when no object is in two of them. -/
theorem C77_append_successor (self s : Nat) (rest : List Nat) (succ : Links) (l : List Nat) (hl : Chain succ (some self) l) (ms : List (List Nat)) (hms : List.Forall₂ (fun x m => Chain succ (some x) m) (s :: rest) ms)
    (hn : (l ++ ms.flatten).Nodup) (fuel : Nat) (hf : (l ++ ms.flatten).length ≤ fuel) :
    ∃ succ', appendMany fuel succ self s rest = .ok succ' ∧ Chain succ' (some self) (l ++ ms.flatten) ∧ ∀ k, k ∉ l ++ ms.flatten → succ' k = succ k := by
  have one : ∀ (succ : Links) (self s : Nat) (l m : List Nat), Chain succ (some self) l → Chain succ (some s) m → (l ++ m).Nodup → l.length ≤ fuel →
      ∃ e, l.getLast? = some e ∧ appendOne fuel succ self s = .ok (upd succ e (some s)) ∧ Chain (upd succ e (some s)) (some self) (l ++ m) := by
    intro succ self s l m hl hm hn hf
    have hne : l ≠ [] := by intro e; rw [e] at hl; cases hl
    refine ⟨l.getLast hne, List.getLast?_eq_some_getLast hne, appendOne_eq s fuel hl (List.getLast?_eq_some_getLast hne) hf, ?_⟩
    exact hl.link (List.getLast?_eq_some_getLast hne) hm (fun k hk hkm => (List.nodup_append.mp hn).2.2 k hk k hkm rfl)
  have key : ∀ (rest : List Nat) (self s : Nat) (succ : Links) (l : List Nat) (ms : List (List Nat)), Chain succ (some self) l → List.Forall₂ (fun x m => Chain succ (some x) m) (s :: rest) ms → (l ++ ms.flatten).Nodup →
      (l ++ ms.flatten).length ≤ fuel → ∃ succ', appendMany fuel succ self s rest = .ok succ' ∧ Chain succ' (some self) (l ++ ms.flatten) ∧ ∀ k, k ∉ l ++ ms.flatten → succ' k = succ k := by
    intro rest
    induction rest with
    | nil =>
      intro self s succ l ms hl hms hn hf
      cases hms with
      | cons hm h' =>
      cases h'
      rename_i m
      have e0 : ([m] : List (List Nat)).flatten = m := by simp
      rw [e0] at hn hf ⊢
      obtain ⟨e, h1, h2, h3⟩ := one succ self s l m hl hm hn (by rw [List.length_append] at hf; omega)
      refine ⟨upd succ e (some s), ?_, h3, fun k hk => upd_other _ _ (fun (h : k = e) => hk (by rw [h]; exact List.mem_append_left _ (List.mem_of_getLast? h1)))⟩
      unfold appendMany; exact h2
    | cons r rest ih =>
      intro self s succ l ms hl hms hn hf
      cases hms with
      | cons hm h' =>
      rename_i m ms
      rw [List.flatten_cons, ← List.append_assoc] at hn hf ⊢
      have hn1 : (l ++ m).Nodup := (List.nodup_append.mp hn).1
      have fr : ∀ e, e ∈ l → List.Forall₂ (fun x m => Chain (upd succ e (some s)) (some x) m) (r :: rest) ms := by
        intro e he
        have hdis : ∀ k ∈ ms.flatten, k ≠ e := fun k hk h => (List.nodup_append.mp hn).2.2 e (List.mem_append_left _ he) k hk h.symm
        clear hn hf
        generalize r :: rest = xs at h'
        induction h' with
        | nil => exact List.Forall₂.nil
        | cons hx _ ih' =>
          rw [List.flatten_cons] at hdis
          exact List.Forall₂.cons (hx.frame (fun k hk => upd_other _ _ (hdis k (List.mem_append_left _ hk)))) (ih' (fun k hk => hdis k (List.mem_append_right _ hk)))
      cases l with
      | nil => cases hl
      | cons x l =>
      have hx : self = x := by cases hl; rfl
      subst hx
      cases l with
      | nil =>
        -- no successor yet
        have hs : succ self = none := by cases hl with | cons h => exact h.head
        obtain ⟨e, h1, h2, h3⟩ := one succ self s [self] m hl hm hn1 (by simp only [List.length_append, List.length_cons] at hf ⊢; omega)
        have hes : e = self := by simpa using h1.symm
        subst hes
        obtain ⟨succ', j1, j2, j3⟩ := ih e r (upd succ e (some s)) ([e] ++ m) ms h3 (fr e List.mem_cons_self) hn hf
        refine ⟨succ', ?_, j2, fun k hk => ?_⟩
        · unfold appendMany; rw [hs]; exact j1
        · rw [j3 k hk]; exact upd_other _ _ (fun (h : k = e) => hk (by rw [h]; simp))
      | cons q l =>
        have hs : succ self = some q := by cases hl with | cons h => exact h.head
        have hq : Chain succ (some q) (q :: l) := by cases hl with | cons h => rw [hs] at h; exact h
        have hnq : self ∉ q :: l ++ m ++ ms.flatten := (List.nodup_cons.mp hn).1
        have hn' : (q :: l ++ m ++ ms.flatten).Nodup := (List.nodup_cons.mp hn).2
        have hn1' : (q :: l ++ m).Nodup := (List.nodup_append.mp hn').1
        have hf' : (q :: l ++ m ++ ms.flatten).length ≤ fuel := by simp only [List.length_append, List.length_cons] at hf ⊢; omega
        obtain ⟨e, h1, h2, h3⟩ := one succ q s (q :: l) m hq hm hn1' (by simp only [List.length_append, List.length_cons] at hf' ⊢; omega)
        have heq : e ∈ q :: l := List.mem_of_getLast? h1
        obtain ⟨succ', j1, j2, j3⟩ := ih q r (upd succ e (some s)) (q :: l ++ m) ms h3 (fr e (List.mem_cons_of_mem _ heq)) hn' hf'
        have hse : self ≠ e := fun h => hnq (by rw [h]; exact List.mem_append_left _ (List.mem_append_left _ heq))
        refine ⟨succ', ?_, ?_, fun k hk => ?_⟩
        · unfold appendMany; rw [hs]; simp only [bind, Except.bind, h2]; exact j1
        · show Chain succ' (some self) (self :: (q :: l ++ m ++ ms.flatten))
          refine Chain.cons ?_
          rw [j3 self hnq, upd_other _ _ hse, hs]
          exact j2
        · have hk' : k ∉ q :: l ++ m ++ ms.flatten := fun hm => hk (List.mem_cons_of_mem _ hm)
          rw [j3 k hk']
          exact upd_other _ _ (fun (h : k = e) => hk' (by rw [h]; exact List.mem_append_left _ (List.mem_append_left _ heq)))
  exact key rest self s succ l ms hl hms hn hf

/-- C77: `clear_successor` cuts the chain after this object; `clear_successor_chain` takes the whole chain apart. -/
theorem C77_clear (succ : Links) (self : Nat) (l : List Nat) (hl : Chain succ (some self) l) (fuel : Nat) (hf : l.length ≤ fuel) :
    Chain (clearSuccessor succ self) (some self) [self] ∧ (∀ k, k ≠ self → clearSuccessor succ self k = succ k) ∧
    ∃ succ', clearChain fuel succ self = .ok succ' ∧ (∀ k ∈ l, Chain succ' (some k) [k]) ∧ ∀ k, k ∉ l → succ' k = succ k := by
  have det : ∀ (fuel self : Nat) (l : List Nat), Chain succ (some self) l → l.length ≤ fuel → ∃ succ', clearChain fuel succ self = .ok succ' ∧ (∀ k ∈ l, succ' k = none) ∧ ∀ k, k ∉ l → succ' k = succ k := by
    intro fuel
    induction fuel with
    | zero => intro self l h hf; cases h; simp at hf
    | succ fuel ih =>
      intro self l h hf
      cases h with
      | @cons _ l hc =>
      cases l with
      | nil =>
        have hin : succ self = none := hc.head
        refine ⟨succ, by unfold clearChain; rw [hin], ?_, fun _ _ => rfl⟩
        intro k hk; rw [List.mem_singleton.mp hk]; exact hin
      | cons j l =>
        have hin : succ self = some j := hc.head
        rw [hin] at hc
        obtain ⟨g, g1, g2, g3⟩ := ih j _ hc (by simp only [List.length_cons] at hf ⊢; omega)
        refine ⟨clearSuccessor g self, by unfold clearChain; rw [hin]; simp only [bind, Except.bind, g1], ?_, ?_⟩
        · intro k hk
          unfold clearSuccessor
          by_cases e : k = self
          · rw [e, upd_same]
          · rw [upd_other _ _ e]
            rcases List.mem_cons.mp hk with h | h
            · exact absurd h e
            · exact g2 k h
        · intro k hk
          unfold clearSuccessor
          rw [upd_other _ _ (fun (h : k = self) => hk (by rw [h]; exact List.mem_cons_self)), g3 k (fun hm => hk (List.mem_cons_of_mem _ hm))]
  refine ⟨?_, fun k hk => upd_other _ _ hk, ?_⟩
  · refine Chain.cons ?_
    unfold clearSuccessor; rw [upd_same]; exact Chain.nil
  · obtain ⟨g, g1, g2, g3⟩ := det fuel self l hl hf
    refine ⟨g, g1, fun k hk => Chain.cons ?_, g3⟩
    rw [g2 k hk]; exact Chain.nil

/-! ## Examples -/

/-- Allocator 0: two blocks of 8 bytes, the others: one block of 32 bytes. -/
def exCfg : Nat → Cfg := fun k => if k = 0 then ⟨8, 8, 2, 1000 * 8, 8, true⟩ else ⟨32, 16, 1, 1000 * 16 * (k + 1), 32, true⟩

example : Valid exCfg := by
  refine ⟨fun k => ?_, fun k => ?_, fun k => ?_, fun k => ?_, fun k => ?_, fun k => ?_, fun j k h => ?_⟩
  · unfold exCfg; split <;> simp
  · unfold exCfg; split <;> simp
  · unfold exCfg; split <;> simp
  · unfold exCfg; split
    · exact ⟨3, rfl⟩
    · exact ⟨4, rfl⟩
  · unfold exCfg; split
    · exact ⟨1, rfl⟩
    · exact ⟨2, rfl⟩
  · unfold exCfg; split
    · exact ⟨1000, rfl⟩
    · exact ⟨1000 * (k + 1), by ring_nf⟩
  · unfold exCfg
    split <;> split <;> simp <;> omega

/-- Two allocators in a chain: a block of 8 bytes from the first, one of 20 from the second, then null; both go back. -/
def exRun : Res (List (Option Nat) × List Bool) := do
  let w : W := ⟨fun k => if k = 0 then some 1 else none, fun k => ⟨(exCfg k).blockSize, (exCfg k).alignment, Pool.init (exCfg k).base (exCfg k).itemSize (exCfg k).max (exCfg k).debug (fun _ => none)⟩⟩
  let (w, a) ← allocate 2 w 0 8 4
  let (w, b) ← allocate 2 w 0 20 16
  let (w, c) ← allocate 2 w 0 20 16
  let (w, r) ← release 2 w 0 32000
  let (_, s) ← release 2 w 0 99
  let ad := fun (o : Out) => match o with | .addr p => p | _ => none
  let fl := fun (o : Out) => match o with | .flag b => b | _ => false
  .ok ([ad a, ad b, ad c], [fl r, fl s])

example : exRun = .ok ([some 8000, some 32000, none], [true, false]) := by rfl

/-! ## Findings -/

/-- The cause why C77_append_successor asks that no object is in two of the chains: nothing keeps a user from appending an object that is already in the chain; then every request that no allocator can serve recurs for ever. -/
theorem C77_finding_append_loop : ∃ succ' : Links, appendOne 2 (fun k => if k = 0 then some 1 else none) 0 1 = .ok succ' ∧
    ∀ fuel, allocate fuel ⟨succ', fun k => ⟨(exCfg k).blockSize, (exCfg k).alignment, Pool.init (exCfg k).base (exCfg k).itemSize (exCfg k).max (exCfg k).debug (fun _ => none)⟩⟩ 0 100 1 = .error .diverge := by
  refine ⟨upd (fun k => if k = 0 then some 1 else none) 1 (some 1), rfl, ?_⟩
  have key : ∀ fuel, allocate fuel ⟨upd (fun k => if k = 0 then some 1 else none) 1 (some 1), fun k => ⟨(exCfg k).blockSize, (exCfg k).alignment, Pool.init (exCfg k).base (exCfg k).itemSize (exCfg k).max (exCfg k).debug (fun _ => none)⟩⟩ 1 100 1 = .error .diverge := by
    intro fuel
    induction fuel with
    | zero => rfl
    | succ fuel ih =>
      unfold allocate
      have : ∀ a : Alloc, a.blockSize = 32 → allocateBlock a 100 1 = .ok (a, .addr none) := by
        intro a ha; unfold allocateBlock; rw [if_neg (by rw [ha]; omega)]
      rw [this _ rfl]
      simp only [upd_same]
      rw [upd_eta]
      exact ih
  intro fuel
  cases fuel with
  | zero => rfl
  | succ fuel =>
    unfold allocate
    have : ∀ a : Alloc, a.blockSize = 8 → allocateBlock a 100 1 = .ok (a, .addr none) := by
      intro a ha; unfold allocateBlock; rw [if_neg (by rw [ha]; omega)]
    rw [this _ rfl]
    have hs : upd (fun k => if k = 0 then some 1 else none) 1 (some 1) 0 = some 1 := rfl
    simp only [hs]
    rw [upd_eta]
    exact key fuel

end Etl.BlockAlloc
