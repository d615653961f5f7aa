import Verif.SharedMsg.Model
import Mathlib.Tactic.SplitIfs
import Mathlib.Data.List.Nodup

/-!
# C36: reference counted messages are released exactly once
-/
namespace Etl.SharedMsg

variable {α : Type}

/-! ## What the user must respect

Handles are ordinary C++ objects: a thread may read a handle only while nobody writes it, and write it only while nobody uses it. -/

def Pend.dst? : Pend → Option Nat
  | .idle => none
  | .copyAssign d _ _ => some d
  | .moveAssign d _ _ => some d
  | .destroy d _ => some d

/-- the handle an unfinished operation is still going to copy or move from -/
def Pend.src? : Pend → Option Nat
  | .copyAssign _ x _ => some x
  | .moveAssign _ x _ => some x
  | _ => none

def Pend.msrc? : Pend → Option Nat
  | .moveAssign _ x _ => some x
  | _ => none

def Pend.rel? : Pend → Option Nat
  | .idle => none
  | .copyAssign _ _ r => r
  | .moveAssign _ _ r => r
  | .destroy _ r => r

/-- nobody else is using the handle -/
def FreeToWrite (s : St α) (h : Nat) : Prop := ∀ t, (s.pend t).src? ≠ some h
/-- nobody else is writing the handle -/
def FreeToRead (s : St α) (h : Nat) : Prop := ∀ t, (s.pend t).msrc? ≠ some h

def Valid (s : St α) (h : Nat) : Prop := ∃ b, s.cell h = .own (some b)
def Exists (s : St α) (h : Nat) : Prop := ∃ p, s.cell h = .own p

/-- What the program must see to before an operation.  Copying from, and assigning to, a handle with no message (moved from, or allocation failure) is not allowed:
see the findings at the end. -/
def Legal (s : St α) : Op α → Prop
  | .create dst _ b => s.cell dst = .dead ∧ ∀ x, b = some x → s.blk x = .free
  | .wrap dst b => s.cell dst = .dead ∧ ∃ m, s.blk b = .persistent m
  | .copy dst src => s.cell dst = .dead ∧ Valid s src ∧ FreeToRead s src
  | .move dst src => s.cell dst = .dead ∧ Exists s src ∧ FreeToWrite s src
  | .copyAssign dst src => Valid s dst ∧ Valid s src ∧ FreeToWrite s dst ∧ FreeToRead s src
  | .moveAssign dst src => Valid s dst ∧ Exists s src ∧ FreeToWrite s dst ∧ FreeToWrite s src
  | .destroy dst => Exists s dst ∧ FreeToWrite s dst

inductive Act (α : Type) where
  | start (t : Nat) (o : Op α)
  | cont (t : Nat)

def step (s : St α) : Act α → Res (St α)
  | .start t o => start s t o
  | .cont t => cont s t

def Allowed (s : St α) : Act α → Prop
  | .start t o => s.pend t = .idle ∧ Legal s o
  | .cont _ => True

/-- No handles, no unfinished operations, nothing allocated; there may be persistent messages. -/
def Initial (s : St α) : Prop :=
  (∀ h, s.cell h = .dead) ∧ (∀ t, s.pend t = .idle) ∧ (∀ b, s.blk b = .free ∨ ∃ m, s.blk b = .persistent m) ∧ (∀ b, s.allocs b = 0 ∧ s.releases b = 0)

/-- All the states any threads can reach, in any interleaving. -/
inductive Reach : St α → Prop
  | init {s} : Initial s → Reach s
  | step {s s'} (a : Act α) : Reach s → Allowed s a → step s a = .ok s' → Reach s'

/-! ## Specification of what handles hold -/

/-- What a program can see of a handle: unusable, null, or holding a message. -/
inductive View (α : Type) where
  | none
  | null
  | msg (m : α)
  deriving DecidableEq, Repr

def view (s : St α) (h : Nat) : View α :=
  match s.cell h with
  | .own none => .null
  | .own (some _) => match getMessage s h with | .ok m => .msg m | .error _ => .none
  | _ => .none

/-- What the operations are to do to handles: `v` is what each holds before. -/
def ideal (s : St α) (v : Nat → View α) : Act α → Nat → View α
  | .start _ (.create dst m (some _)) => upd v dst (.msg m)
  | .start _ (.create dst _ none) => upd v dst .null
  | .start _ (.wrap dst b) => match s.blk b with | .persistent m => upd v dst (.msg m) | _ => v
  | .start _ (.copy dst src) => upd v dst (v src)
  | .start _ (.move dst src) => upd (upd v dst (v src)) src .null
  | .start _ (.copyAssign dst src) => if dst = src then v else upd v dst .none
  | .start _ (.moveAssign dst src) => if dst = src then v else upd v dst .none
  | .start _ (.destroy dst) => upd v dst .none
  | .cont t =>
    match s.pend t with
    | .copyAssign dst src none => upd v dst (v src)
    | .moveAssign dst src none => upd (upd v dst (v src)) src .null
    | _ => v

/-! ## Invariant -/

/-- `L` lists the handles that own block `b`. -/
def Owners (cell : Nat → Cell) (b : Nat) (L : List Nat) : Prop := L.Nodup ∧ ∀ h, h ∈ L ↔ cell h = .own (some b)

structure Inv (s : St α) : Prop where
  dstBusy : ∀ t d, (s.pend t).dst? = some d → s.cell d = .busy
  dstUnique : ∀ t t' d, (s.pend t).dst? = some d → (s.pend t').dst? = some d → t = t'
  srcLive : ∀ t d x r, s.pend t = .copyAssign d x r → Valid s x
  msrcLive : ∀ t d x r, s.pend t = .moveAssign d x r → Exists s x
  msrcOnly : ∀ t t' x, (s.pend t).msrc? = some x → (s.pend t').src? = some x → t = t'
  relZero : ∀ t b, (s.pend t).rel? = some b → ∃ m, s.blk b = .live m 0
  relUnique : ∀ t t' b, (s.pend t).rel? = some b → (s.pend t').rel? = some b → t = t'
  freeBlk : ∀ b, s.blk b = .free → ∀ h, s.cell h ≠ .own (some b)
  liveBlk : ∀ b m c, s.blk b = .live m c → ∃ L, Owners s.cell b L ∧ L.length = c
  zeroRel : ∀ b m, s.blk b = .live m 0 → ∃ t, (s.pend t).rel? = some b
  counts : ∀ b, s.allocs b = s.releases b + (match s.blk b with | .live _ _ => 1 | _ => 0)


theorem owners_add {cell : Nat → Cell} {b h : Nat} {L : List Nat} (ho : Owners cell b L) (hn : cell h ≠ .own (some b)) :
    Owners (upd cell h (.own (some b))) b (h :: L) := by
  refine ⟨List.nodup_cons.2 ⟨fun hm => hn ((ho.2 h).1 hm), ho.1⟩, fun x => ?_⟩
  by_cases hx : x = h
  · subst hx; simp
  · rw [upd_other _ _ hx, List.mem_cons, ho.2 x]; simp [hx]

theorem owners_remove {cell : Nat → Cell} {b h : Nat} {c : Cell} {L : List Nat} (ho : Owners cell b L) (hh : cell h = .own (some b)) (hc : c ≠ .own (some b)) :
    Owners (upd cell h c) b (L.erase h) ∧ (L.erase h).length + 1 = L.length := by
  have hm : h ∈ L := (ho.2 h).2 hh
  refine ⟨⟨ho.1.erase h, fun x => ?_⟩, ?_⟩
  · rw [ho.1.mem_erase_iff]
    by_cases hx : x = h
    · subst hx; simp [hc]
    · rw [upd_other _ _ hx, ← ho.2 x]; simp [hx]
  · rw [List.length_erase_of_mem hm]
    have := List.length_pos_of_mem hm
    omega

theorem owners_same {cell : Nat → Cell} {b h : Nat} {c : Cell} {L : List Nat} (ho : Owners cell b L) (hh : cell h ≠ .own (some b)) (hc : c ≠ .own (some b)) :
    Owners (upd cell h c) b L := by
  refine ⟨ho.1, fun x => ?_⟩
  by_cases hx : x = h
  · subst hx; rw [ho.2 x]; simp [hc, hh]
  · rw [upd_other _ _ hx, ho.2 x]

/-- the owners of `b` do not change when a handle that is not one becomes something else -/
theorem owners_move {cell : Nat → Cell} {b d x : Nat} {p : Option Nat} {L : List Nat} (ho : Owners cell b L) (hd : ∀ q, cell d ≠ .own q) (hx : cell x = .own p) :
    ∃ L', Owners (upd (upd cell d (.own p)) x (.own none)) b L' ∧ L'.length = L.length := by
  have hdx : x ≠ d := by rintro rfl; exact hd _ hx
  by_cases hp : p = some b
  · subst hp
    have h1 := owners_add ho (hd (some b))
    have h2 := owners_remove (h := x) (c := .own none) h1 (by rw [upd_other _ _ hdx]; exact hx) (by simp)
    exact ⟨_, h2.1, by have := h2.2; simp only [List.length_cons] at this; omega⟩
  · have hp' : Cell.own p ≠ .own (some b) := by simpa using hp
    have h1 := owners_same (c := .own p) ho (hd (some b)) hp'
    exact ⟨L, owners_same h1 (by rw [upd_other _ _ hdx, hx]; exact hp') (by simp), rfl⟩

theorem inv_initial {s : St α} (h : Initial s) : Inv s := by
  obtain ⟨hc, hp, hb, hn⟩ := h
  constructor
  · intro t d; simp [hp, Pend.dst?]
  · intro t t' d; simp [hp, Pend.dst?]
  · intro t d x r; simp [hp]
  · intro t d x r; simp [hp]
  · intro t t' x; simp [hp, Pend.msrc?]
  · intro t b; simp [hp, Pend.rel?]
  · intro t t' b; simp [hp, Pend.rel?]
  · intro b _ h; simp [hc]
  · intro b m c h; rcases hb b with h' | ⟨m', h'⟩ <;> simp [h'] at h
  · intro b m h; rcases hb b with h' | ⟨m', h'⟩ <;> simp [h'] at h
  · intro b; rcases hb b with h' | ⟨m', h'⟩ <;> simp [h', hn]

/-- A handle that does not exist becomes one that owns nothing new. -/
theorem inv_newNull {s : St α} (h : Inv s) (d : Nat) (c : Cell) (hd : ∀ q, s.cell d = .own q → q = none ∧ FreeToWrite s d) (hb : s.cell d ≠ .busy) (hc : c = .dead ∨ c = .own none) :
    Inv { s with cell := upd s.cell d c } := by
  have hd' : ∀ b, s.cell d ≠ .own (some b) := fun b e => by have := (hd _ e).1; simp at this
  have hc' : ∀ b, c ≠ .own (some b) := by rcases hc with rfl | rfl <;> simp
  have hsrc : ∀ t, (s.pend t).src? = some d → False := by
    intro t ht
    cases hp : s.pend t with
    | idle => simp [hp, Pend.src?] at ht
    | destroy => simp [hp, Pend.src?] at ht
    | copyAssign a x r =>
      simp [hp, Pend.src?] at ht; subst ht
      obtain ⟨b, hbb⟩ := h.srcLive _ _ _ _ hp
      exact hd' _ hbb
    | moveAssign a x r =>
      simp [hp, Pend.src?] at ht; subst ht
      obtain ⟨p, hb⟩ := h.msrcLive _ _ _ _ hp
      exact (hd _ hb).2 t (by simp [hp, Pend.src?])
  constructor
  · intro t e he
    have := h.dstBusy t e he
    have hne : e ≠ d := by rintro rfl; exact hb this
    simpa [upd_other _ _ hne] using this
  · exact h.dstUnique
  · intro t e x r hp
    obtain ⟨b, hb⟩ := h.srcLive _ _ _ _ hp
    have hne : x ≠ d := fun e => hd' b (e ▸ hb)
    exact ⟨b, by simpa [upd_other _ _ hne] using hb⟩
  · intro t e x r hp
    obtain ⟨p, hb⟩ := h.msrcLive _ _ _ _ hp
    have hp' : s.pend t = .moveAssign e x r := hp
    have hne : x ≠ d := by rintro rfl; exact hsrc t (by rw [hp']; rfl)
    exact ⟨p, by simpa [upd_other _ _ hne] using hb⟩
  · exact h.msrcOnly
  · exact h.relZero
  · exact h.relUnique
  · intro b hb x
    by_cases hx : x = d
    · subst hx; simpa using hc' b
    · simpa [upd_other _ _ hx] using h.freeBlk b hb x
  · intro b m c hb
    obtain ⟨L, hL, hl⟩ := h.liveBlk b m c hb
    exact ⟨L, owners_same hL (hd' b) (hc' b), hl⟩
  · exact h.zeroRel
  · exact h.counts


/-- A new owner of a block that has been counted. -/
theorem inv_newOwner {s : St α} (h : Inv s) (d b : Nat) (hd : s.cell d = .dead) (v : Blk α)
    (hv : (∃ m c, s.blk b = .live m (c + 1) ∧ v = .live m (c + 2)) ∨ (∃ m, s.blk b = .persistent m ∧ v = .persistent m)) :
    Inv { s with cell := upd s.cell d (.own (some b)), blk := upd s.blk b v } := by
  constructor
  · have := h.dstBusy; grind [upd]
  · exact h.dstUnique
  · have := h.srcLive; grind [upd, Valid]
  · have := h.msrcLive; grind [upd, Exists]
  · exact h.msrcOnly
  · have := h.relZero; grind [upd]
  · exact h.relUnique
  · have := h.freeBlk; grind [upd]
  · intro b' m c hb
    by_cases hbb : b' = b
    · subst hbb
      rcases hv with ⟨m0, c0, e1, rfl⟩ | ⟨m0, e1, rfl⟩
      · obtain ⟨L, hL, hl⟩ := h.liveBlk _ _ _ e1
        simp at hb
        exact ⟨d :: L, owners_add hL (by simp [hd]), by simp [hl, ← hb.2]⟩
      · simp at hb
    · simp only [upd_other _ _ hbb] at hb
      obtain ⟨L, hL, hl⟩ := h.liveBlk _ _ _ hb
      exact ⟨L, owners_same hL (by simp [hd]) (by simp [Ne.symm hbb]), hl⟩
  · have := h.zeroRel; grind [upd]
  · intro b'
    have := h.counts b'
    by_cases hbb : b' = b
    · subst hbb; rcases hv with ⟨m0, c0, e1, rfl⟩ | ⟨m0, e1, rfl⟩ <;> simpa [e1] using this
    · simpa [upd_other _ _ hbb] using this


/-- A freshly allocated message with its first owner. -/
theorem inv_alloc {s : St α} (h : Inv s) (d b : Nat) (m : α) (hd : s.cell d = .dead) (hb : s.blk b = .free) :
    Inv { s with blk := upd s.blk b (.live m 1), cell := upd s.cell d (.own (some b)), allocs := upd s.allocs b (s.allocs b + 1) } := by
  constructor
  · have := h.dstBusy; grind [upd]
  · exact h.dstUnique
  · have := h.srcLive; grind [upd, Valid]
  · have := h.msrcLive; grind [upd, Exists]
  · exact h.msrcOnly
  · have := h.relZero; grind [upd]
  · exact h.relUnique
  · have := h.freeBlk; grind [upd]
  · intro b' m' c hb'
    by_cases hbb : b' = b
    · subst hbb
      simp at hb'
      refine ⟨[d], ⟨by simp, fun x => ?_⟩, by simp [← hb'.2]⟩
      have := h.freeBlk _ hb x
      grind [upd]
    · simp only [upd_other _ _ hbb] at hb'
      obtain ⟨L, hL, hl⟩ := h.liveBlk _ _ _ hb'
      exact ⟨L, owners_same hL (by simp [hd]) (by simp [Ne.symm hbb]), hl⟩
  · have := h.zeroRel; grind [upd]
  · intro b'
    have := h.counts b'
    by_cases hbb : b' = b
    · subst hbb; simp [hb] at this ⊢; omega
    · simpa [upd_other _ _ hbb] using this

/-- Moving out of `x` into a handle `d` that owns nothing. -/
theorem inv_move {s : St α} (h : Inv s) (d x : Nat) (p : Option Nat) (hd : s.cell d = .dead) (hx : s.cell x = .own p) (hw : FreeToWrite s x) :
    Inv { s with cell := upd (upd s.cell d (.own p)) x (.own none) } := by
  constructor
  · have := h.dstBusy; grind [upd]
  · exact h.dstUnique
  · have := h.srcLive; grind [upd, Valid, FreeToWrite, Pend.src?]
  · have := h.msrcLive; grind [upd, Exists, FreeToWrite, Pend.src?]
  · exact h.msrcOnly
  · exact h.relZero
  · exact h.relUnique
  · have := h.freeBlk; grind [upd]
  · intro b m c hb
    obtain ⟨L, hL, hl⟩ := h.liveBlk _ _ _ hb
    obtain ⟨L', h1, h2⟩ := owners_move (d := d) (x := x) (p := p) hL (by simp [hd]) hx
    exact ⟨L', h1, h2.trans hl⟩
  · exact h.zeroRel
  · exact h.counts

/-- The end of a move assignment. -/
theorem inv_moveEnd {s : St α} (h : Inv s) (t d x : Nat) (p : Option Nat) (hp : s.pend t = .moveAssign d x none) (hx : s.cell x = .own p) :
    Inv { s with cell := upd (upd s.cell d (.own p)) x (.own none), pend := upd s.pend t .idle } := by
  have hd : s.cell d = .busy := h.dstBusy t d (by rw [hp]; rfl)
  constructor
  · have := h.dstBusy; have := h.dstUnique; grind [upd, Pend.dst?]
  · have := h.dstUnique; grind [upd, Pend.dst?]
  · have := h.srcLive; have := h.msrcOnly t; grind [upd, Valid, Pend.src?, Pend.msrc?]
  · have := h.msrcLive; have := h.msrcOnly t; grind [upd, Exists, Pend.src?, Pend.msrc?]
  · have := h.msrcOnly; grind [upd, Pend.src?, Pend.msrc?]
  · have := h.relZero; grind [upd, Pend.rel?]
  · have := h.relUnique; grind [upd, Pend.rel?]
  · have := h.freeBlk; grind [upd]
  · intro b m c hb
    obtain ⟨L, hL, hl⟩ := h.liveBlk _ _ _ hb
    obtain ⟨L', h1, h2⟩ := owners_move (d := d) (x := x) (p := p) hL (by simp [hd]) hx
    exact ⟨L', h1, h2.trans hl⟩
  · intro b m hb
    obtain ⟨t', ht'⟩ := h.zeroRel b m hb
    exact ⟨t', by have : t' ≠ t := (by rintro rfl; simp [hp, Pend.rel?] at ht'); simpa [upd_other _ _ this] using ht'⟩
  · exact h.counts

/-- The end of a copy assignment. -/
theorem inv_copyEnd {s : St α} (h : Inv s) (t d x b : Nat) (hp : s.pend t = .copyAssign d x none) (v : Blk α)
    (hv : (∃ m c, s.blk b = .live m (c + 1) ∧ v = .live m (c + 2)) ∨ (∃ m, s.blk b = .persistent m ∧ v = .persistent m)) :
    Inv { s with cell := upd s.cell d (.own (some b)), blk := upd s.blk b v, pend := upd s.pend t .idle } := by
  have hd : s.cell d = .busy := h.dstBusy t d (by rw [hp]; rfl)
  constructor
  · have := h.dstBusy; have := h.dstUnique; grind [upd, Pend.dst?]
  · have := h.dstUnique; grind [upd, Pend.dst?]
  · have := h.srcLive; grind [upd, Valid]
  · have := h.msrcLive; grind [upd, Exists]
  · have := h.msrcOnly; grind [upd, Pend.src?, Pend.msrc?]
  · have := h.relZero; grind [upd, Pend.rel?]
  · have := h.relUnique; grind [upd, Pend.rel?]
  · have := h.freeBlk; grind [upd]
  · intro b' m c hb
    by_cases hbb : b' = b
    · subst hbb
      rcases hv with ⟨m0, c0, e1, rfl⟩ | ⟨m0, e1, rfl⟩
      · obtain ⟨L, hL, hl⟩ := h.liveBlk _ _ _ e1
        simp at hb
        exact ⟨d :: L, owners_add hL (by simp [hd]), by simp [hl, ← hb.2]⟩
      · simp at hb
    · simp only [upd_other _ _ hbb] at hb
      obtain ⟨L, hL, hl⟩ := h.liveBlk _ _ _ hb
      exact ⟨L, owners_same hL (by simp [hd]) (by simp [Ne.symm hbb]), hl⟩
  · intro b' m hb
    have hb0 : s.blk b' = .live m 0 := by grind [upd]
    obtain ⟨t', ht'⟩ := h.zeroRel b' m hb0
    exact ⟨t', by have : t' ≠ t := (by rintro rfl; simp [hp, Pend.rel?] at ht'); simpa [upd_other _ _ this] using ht'⟩
  · intro b'
    have := h.counts b'
    by_cases hbb : b' = b
    · subst hbb; rcases hv with ⟨m0, c0, e1, rfl⟩ | ⟨m0, e1, rfl⟩ <;> simpa [e1] using this
    · simpa [upd_other _ _ hbb] using this

/-- The end of a destruction. -/
theorem inv_destroyEnd {s : St α} (h : Inv s) (t d : Nat) (hp : s.pend t = .destroy d none) :
    Inv { s with cell := upd s.cell d .dead, pend := upd s.pend t .idle } := by
  have hd : s.cell d = .busy := h.dstBusy t d (by rw [hp]; rfl)
  constructor
  · have := h.dstBusy; have := h.dstUnique; grind [upd, Pend.dst?]
  · have := h.dstUnique; grind [upd, Pend.dst?]
  · have := h.srcLive; grind [upd, Valid]
  · have := h.msrcLive; grind [upd, Exists]
  · have := h.msrcOnly; grind [upd, Pend.src?, Pend.msrc?]
  · have := h.relZero; grind [upd, Pend.rel?]
  · have := h.relUnique; grind [upd, Pend.rel?]
  · have := h.freeBlk; grind [upd]
  · intro b m c hb
    obtain ⟨L, hL, hl⟩ := h.liveBlk _ _ _ hb
    exact ⟨L, owners_same hL (by simp [hd]) (by simp), hl⟩
  · intro b m hb
    obtain ⟨t', ht'⟩ := h.zeroRel b m hb
    exact ⟨t', by have : t' ≠ t := (by rintro rfl; simp [hp, Pend.rel?] at ht'); simpa [upd_other _ _ this] using ht'⟩
  · exact h.counts

/-- A release. -/
theorem inv_release {s : St α} (h : Inv s) (t b : Nat) (P : Pend) (hr : (s.pend t).rel? = some b) (h1 : P.dst? = (s.pend t).dst?) (h2 : P.src? = (s.pend t).src?)
    (h3 : P.msrc? = (s.pend t).msrc?) (h4 : P.rel? = none) :
    Inv { s with blk := upd s.blk b .free, releases := upd s.releases b (s.releases b + 1), pend := upd s.pend t P } := by
  obtain ⟨m0, hb0⟩ := h.relZero t b hr
  constructor
  · have := h.dstBusy; grind [upd]
  · have := h.dstUnique; grind [upd]
  · have := h.srcLive
    intro t' d x r hp
    by_cases ht : t' = t
    · subst ht; simp at hp; subst hp
      have : ∃ d' r', s.pend t' = .copyAssign d' x r' := by
        cases hq : s.pend t' <;> simp_all [Pend.src?, Pend.msrc?]
      obtain ⟨d', r', e⟩ := this
      exact h.srcLive _ _ _ _ e
    · simp only [upd_other _ _ ht] at hp
      exact h.srcLive _ _ _ _ hp
  · intro t' d x r hp
    by_cases ht : t' = t
    · subst ht; simp at hp; subst hp
      have : ∃ d' r', s.pend t' = .moveAssign d' x r' := by
        cases hq : s.pend t' <;> simp_all [Pend.src?, Pend.msrc?]
      obtain ⟨d', r', e⟩ := this
      exact h.msrcLive _ _ _ _ e
    · simp only [upd_other _ _ ht] at hp
      exact h.msrcLive _ _ _ _ hp
  · have := h.msrcOnly; grind [upd]
  · have := h.relZero; have := h.relUnique; grind [upd]
  · have := h.relUnique; grind [upd]
  · intro b' hb' x
    by_cases hbb : b' = b
    · subst hbb
      obtain ⟨L, hL, hl⟩ := h.liveBlk _ _ _ hb0
      have : L = [] := List.length_eq_zero_iff.1 hl
      subst this
      intro e; have := (hL.2 x).2 e; simp at this
    · simp only [upd_other _ _ hbb] at hb'; exact h.freeBlk b' hb' x
  · have := h.liveBlk; grind [upd]
  · intro b' m hb
    have hbb : b' ≠ b := by rintro rfl; simp at hb
    simp only [upd_other _ _ hbb] at hb
    obtain ⟨t', ht'⟩ := h.zeroRel b' m hb
    have : t' ≠ t := by rintro rfl; rw [hr] at ht'; exact hbb (Option.some.inj ht').symm
    exact ⟨t', by simpa [upd_other _ _ this] using ht'⟩
  · intro b'
    have := h.counts b'
    by_cases hbb : b' = b
    · subst hbb; simp [hb0] at this ⊢; omega
    · simpa [upd_other _ _ hbb] using this

theorem msrc_src {P : Pend} {x : Nat} (h : P.msrc? = some x) : P.src? = some x := by cases P <;> simp_all [Pend.msrc?, Pend.src?]

/-- The first step of an assignment or destruction. -/
theorem inv_drop {s : St α} (h : Inv s) (t d b : Nat) (P : Pend) (v : Blk α) (n : Nat) (hidle : s.pend t = .idle) (hd : s.cell d = .own (some b)) (hw : FreeToWrite s d)
    (h1 : P.dst? = some d) (h4 : P.rel? = relOf b n)
    (hP : (∃ r, P = .destroy d r) ∨ (∃ x r, P = .copyAssign d x r ∧ x ≠ d ∧ Valid s x ∧ FreeToRead s x) ∨ (∃ x r, P = .moveAssign d x r ∧ x ≠ d ∧ Exists s x ∧ FreeToWrite s x))
    (hv : (∃ m c, s.blk b = .live m (c + 1) ∧ v = .live m c ∧ n = c) ∨ (∃ m, s.blk b = .persistent m ∧ v = .persistent m ∧ n = 1)) :
    Inv { s with cell := upd s.cell d .busy, blk := upd s.blk b v, pend := upd s.pend t P } := by
  constructor
  · have := h.dstBusy; grind [upd]
  · have := h.dstUnique; have := h.dstBusy; grind [upd]
  · intro t' d' x r hp
    by_cases ht : t' = t
    · subst ht
      have hp : P = .copyAssign d' x r := by simpa using hp
      subst hp
      simp only [reduceCtorEq, exists_false, Pend.copyAssign.injEq, false_and, or_false, false_or] at hP
      obtain ⟨x', r', ⟨e1, e2, e3⟩, h2, ⟨y, hy⟩, _⟩ := hP
      subst e2
      exact ⟨y, by simpa [upd_other _ _ h2] using hy⟩
    · simp only [upd_other _ _ ht] at hp
      obtain ⟨y, hy⟩ := h.srcLive _ _ _ _ hp
      have hne : x ≠ d := by rintro rfl; exact hw t' (by simp [hp, Pend.src?])
      exact ⟨y, by simpa [upd_other _ _ hne] using hy⟩
  · intro t' d' x r hp
    by_cases ht : t' = t
    · subst ht
      have hp : P = .moveAssign d' x r := by simpa using hp
      subst hp
      simp only [reduceCtorEq, exists_false, Pend.moveAssign.injEq, false_and, false_or] at hP
      obtain ⟨x', r', ⟨e1, e2, e3⟩, h2, ⟨y, hy⟩, _⟩ := hP
      subst e2
      exact ⟨y, by simpa [upd_other _ _ h2] using hy⟩
    · simp only [upd_other _ _ ht] at hp
      obtain ⟨y, hy⟩ := h.msrcLive _ _ _ _ hp
      have hne : x ≠ d := by rintro rfl; exact hw t' (by simp [hp, Pend.src?])
      exact ⟨y, by simpa [upd_other _ _ hne] using hy⟩
  · intro t1 t2 x e1 e2
    by_cases h1' : t1 = t
    · by_cases h2' : t2 = t
      · rw [h1', h2']
      · subst h1'
        simp only [upd_same, upd_other _ _ h2'] at e1 e2
        rcases hP with ⟨r, rfl⟩ | ⟨y, r, rfl, _⟩ | ⟨y, r, rfl, _, _, hf⟩
        · simp [Pend.msrc?] at e1
        · simp [Pend.msrc?] at e1
        · simp [Pend.msrc?] at e1; subst e1; exact absurd e2 (hf t2)
    · by_cases h2' : t2 = t
      · subst h2'
        simp only [upd_same, upd_other _ _ h1'] at e1 e2
        rcases hP with ⟨r, rfl⟩ | ⟨y, r, rfl, _, _, hf⟩ | ⟨y, r, rfl, _, _, hf⟩
        · simp [Pend.src?] at e2
        · simp [Pend.src?] at e2; subst e2; exact absurd e1 (hf t1)
        · simp [Pend.src?] at e2; subst e2
          exact absurd (msrc_src e1) (hf t1)
      · simp only [upd_other _ _ h1', upd_other _ _ h2'] at e1 e2
        exact h.msrcOnly _ _ _ e1 e2
  · have := h.relZero; grind [upd, relOf]
  · have := h.relUnique; have := h.relZero; grind [upd, relOf]
  · have := h.freeBlk; grind [upd]
  · intro b' m c hb
    by_cases hbb : b' = b
    · subst hbb
      rcases hv with ⟨m0, c0, e1, rfl, _⟩ | ⟨m0, e1, rfl, _⟩
      · obtain ⟨L, hL, hl⟩ := h.liveBlk _ _ _ e1
        simp at hb
        have := owners_remove (c := .busy) hL hd (by simp)
        exact ⟨_, this.1, by have := this.2; omega⟩
      · simp at hb
    · simp only [upd_other _ _ hbb] at hb
      obtain ⟨L, hL, hl⟩ := h.liveBlk _ _ _ hb
      exact ⟨L, owners_same hL (by simp [hd, Ne.symm hbb]) (by simp), hl⟩
  · intro b' m hb
    by_cases hbb : b' = b
    · subst hbb
      rcases hv with ⟨m0, c0, e1, rfl, rfl⟩ | ⟨m0, e1, rfl, rfl⟩
      · simp at hb
        exact ⟨t, by simp [h4, relOf, hb.2]⟩
      · simp at hb
    · simp only [upd_other _ _ hbb] at hb
      obtain ⟨t', ht'⟩ := h.zeroRel b' m hb
      have : t' ≠ t := by rintro rfl; simp [hidle, Pend.rel?] at ht'
      exact ⟨t', by simpa [upd_other _ _ this] using ht'⟩
  · intro b'
    have := h.counts b'
    by_cases hbb : b' = b
    · subst hbb; rcases hv with ⟨m0, c0, e1, rfl, _⟩ | ⟨m0, e1, rfl, _⟩ <;> simpa [e1] using this
    · simpa [upd_other _ _ hbb] using this

theorem own_counted {s : St α} (h : Inv s) {x b : Nat} (hx : s.cell x = .own (some b)) : (∃ m c, s.blk b = .live m (c + 1)) ∨ ∃ m, s.blk b = .persistent m := by
  cases hb : s.blk b with
  | free => exact absurd hx (h.freeBlk b hb x)
  | persistent m => exact .inr ⟨m, rfl⟩
  | live m c =>
    obtain ⟨L, hL, hl⟩ := h.liveBlk b m c hb
    have := List.length_pos_of_mem ((hL.2 x).2 hx)
    exact .inl ⟨m, c - 1, by rw [show c - 1 + 1 = c by omega]⟩

theorem upd_self {β : Type} (f : Nat → β) (i : Nat) (v : β) (h : f i = v) : upd f i v = f := by
  funext j; by_cases hj : j = i
  · subst hj; simp [h]
  · rw [upd_other _ _ hj]

/-- what `increment_reference_count` does for an owned block -/
theorem incr_owned {s : St α} (h : Inv s) {x b : Nat} (hx : s.cell x = .own (some b)) :
    ∃ v, incr s b = .ok { s with blk := upd s.blk b v } ∧
      ((∃ m c, s.blk b = .live m (c + 1) ∧ v = .live m (c + 2)) ∨ (∃ m, s.blk b = .persistent m ∧ v = .persistent m)) := by
  rcases own_counted h hx with ⟨m, c, e⟩ | ⟨m, e⟩
  · exact ⟨.live m (c + 2), by simp [incr, e], .inl ⟨m, c, e, rfl⟩⟩
  · exact ⟨.persistent m, by simp [incr, e, upd_self], .inr ⟨m, e, rfl⟩⟩

theorem decr_owned {s : St α} (h : Inv s) {x b : Nat} (hx : s.cell x = .own (some b)) :
    ∃ v n, decr s b = .ok ({ s with blk := upd s.blk b v }, n) ∧
      ((∃ m c, s.blk b = .live m (c + 1) ∧ v = .live m c ∧ n = c) ∨ (∃ m, s.blk b = .persistent m ∧ v = .persistent m ∧ n = 1)) := by
  rcases own_counted h hx with ⟨m, c, e⟩ | ⟨m, e⟩
  · exact ⟨.live m c, c, by simp [decr, e], .inl ⟨m, c, e, rfl, rfl⟩⟩
  · exact ⟨.persistent m, 1, by simp [decr, e, upd_self], .inr ⟨m, e, rfl, rfl⟩⟩

theorem release_ok {s : St α} {b : Nat} {m : α} {c : Nat} (hb : s.blk b = .live m c) :
    release s b = .ok { s with blk := upd s.blk b .free, releases := upd s.releases b (s.releases b + 1) } := by simp [release, hb]

/-- messages of owned blocks do not depend on counters -/
theorem view_congr {s s' : St α} (x : Nat) (hc : s'.cell x = s.cell x)
    (hb : ∀ b, s.cell x = .own (some b) → (∃ m c c', s.blk b = .live m c ∧ s'.blk b = .live m c') ∨ s'.blk b = s.blk b) : view s' x = view s x := by
  unfold view getMessage
  rw [hc]
  cases hx : s.cell x with
  | dead => rfl
  | busy => rfl
  | own p =>
    cases p with
    | none => rfl
    | some b =>
      rcases hb b hx with ⟨m, c, c', e1, e2⟩ | e
      · simp [e1, e2]
      · simp [e]

theorem view_upd_msg {s : St α} (x : Nat) {b : Nat} {m : α} (hc : s.cell x = .own (some b)) (hb : (∃ c, s.blk b = .live m c) ∨ s.blk b = .persistent m) : view s x = .msg m := by
  unfold view getMessage
  rw [hc]
  rcases hb with ⟨c, e⟩ | e <;> simp [e]

theorem view_none {s : St α} {x : Nat} (h : ∀ p, s.cell x ≠ .own p) : view s x = .none := by
  unfold view
  cases hx : s.cell x with
  | dead => rfl
  | busy => rfl
  | own p => exact absurd hx (h p)

theorem view_null {s : St α} {x : Nat} (h : s.cell x = .own none) : view s x = .null := by unfold view; rw [h]

/-- copying the pointer and counting it: the new handle holds the same message, the others keep theirs -/
theorem view_bump {s s' : St α} {d x b : Nat} {v : Blk α} (hne : d ≠ x) (hx : s.cell x = .own (some b)) (hc : s'.cell = upd s.cell d (.own (some b)))
    (hb : s'.blk = upd s.blk b v) (hv : (∃ m c, s.blk b = .live m (c + 1) ∧ v = .live m (c + 2)) ∨ (∃ m, s.blk b = .persistent m ∧ v = .persistent m)) :
    ∀ y, view s' y = upd (view s) d (view s x) y := by
  intro y
  by_cases hy : y = d
  · subst hy
    rw [upd_same]
    rcases hv with ⟨m, c, e1, e2⟩ | ⟨m, e1, e2⟩
    · rw [view_upd_msg (s := s) (b := b) (m := m) x hx (.inl ⟨_, e1⟩), view_upd_msg (b := b) (m := m) y (by simp [hc]) (.inl ⟨_, by rw [hb, upd_same, e2]⟩)]
    · rw [view_upd_msg (s := s) (b := b) (m := m) x hx (.inr e1), view_upd_msg (b := b) (m := m) y (by simp [hc]) (.inr (by rw [hb, upd_same, e2]))]
  · rw [upd_other _ _ hy]
    apply view_congr
    · rw [hc, upd_other _ _ hy]
    · intro b' _
      by_cases hbb : b' = b
      · subst hbb
        rcases hv with ⟨m, c, e1, e2⟩ | ⟨m, e1, e2⟩
        · exact .inl ⟨m, _, _, e1, by rw [hb, upd_same, e2]⟩
        · exact .inr (by rw [hb, upd_same, e2, e1])
      · exact .inr (by rw [hb, upd_other _ _ hbb])

theorem view_moved {s s' : St α} {d x : Nat} {p : Option Nat} (hne : d ≠ x) (hx : s.cell x = .own p) (hc : s'.cell = upd (upd s.cell d (.own p)) x (.own none)) (hb : s'.blk = s.blk) :
    ∀ y, view s' y = upd (upd (view s) d (view s x)) x .null y := by
  intro y
  by_cases hy : y = x
  · subst hy; rw [upd_same]; exact view_null (by rw [hc, upd_same])
  · rw [upd_other _ _ hy]
    by_cases hd : y = d
    · subst hd
      rw [upd_same]
      unfold view getMessage
      rw [hc, upd_other _ _ hy, upd_same, hx, hb]
    · rw [upd_other _ _ hd]
      exact view_congr _ (by rw [hc, upd_other _ _ hy, upd_other _ _ hd]) (fun b _ => .inr (by rw [hb]))

theorem view_dropped {s s' : St α} {d b : Nat} {v : Blk α} (hc : s'.cell = upd s.cell d .busy) (hb : s'.blk = upd s.blk b v)
    (hv : (∃ m c, s.blk b = .live m (c + 1) ∧ v = .live m c) ∨ (∃ m, s.blk b = .persistent m ∧ v = .persistent m)) : ∀ y, view s' y = upd (view s) d .none y := by
  intro y
  by_cases hy : y = d
  · subst hy; rw [upd_same]; exact view_none (by rw [hc, upd_same]; simp)
  · rw [upd_other _ _ hy]
    apply view_congr
    · rw [hc, upd_other _ _ hy]
    · intro b' _
      by_cases hbb : b' = b
      · subst hbb
        rcases hv with ⟨m, c, e1, e2⟩ | ⟨m, e1, e2⟩
        · exact .inl ⟨m, _, _, e1, by rw [hb, upd_same, e2]⟩
        · exact .inr (by rw [hb, upd_same, e2, e1])
      · exact .inr (by rw [hb, upd_other _ _ hbb])

theorem view_released {s s' : St α} (h : Inv s) {t b : Nat} (hr : (s.pend t).rel? = some b) (hc : s'.cell = s.cell) (hb : s'.blk = upd s.blk b .free) : ∀ y, view s' y = view s y := by
  intro y
  apply view_congr _ (by rw [hc])
  intro b' hy
  have : b' ≠ b := by
    rintro rfl
    obtain ⟨m, e⟩ := h.relZero t b' hr
    rcases own_counted h hy with ⟨m', c, e'⟩ | ⟨m', e'⟩ <;> simp [e] at e'
  exact .inr (by rw [hb, upd_other _ _ this])

theorem view_dead {s s' : St α} {d : Nat} {c : Cell} (hd : ∀ b, s.cell d ≠ .own (some b)) (hcc : c = .dead ∨ c = .own none) (hc : s'.cell = upd s.cell d c) (hb : s'.blk = s.blk) :
    ∀ y, view s' y = upd (view s) d (if c = .dead then .none else .null) y := by
  intro y
  by_cases hy : y = d
  · subst hy; rw [upd_same]
    rcases hcc with rfl | rfl
    · rw [if_pos rfl]; exact view_none (by rw [hc, upd_same]; simp)
    · rw [if_neg (by simp)]; exact view_null (by rw [hc, upd_same])
  · rw [upd_other _ _ hy]
    exact view_congr _ (by rw [hc, upd_other _ _ hy]) (fun b _ => .inr (by rw [hb]))

theorem startAssign_ok {s : St α} (h : Inv s) (t d x : Nat) (mk : Nat → Nat → Option Nat → Pend) (hidle : s.pend t = .idle) (hd : Valid s d) (hw : FreeToWrite s d)
    (hmk : ∀ r, x ≠ d → (mk d x r = .copyAssign d x r ∧ Valid s x ∧ FreeToRead s x) ∨ (mk d x r = .moveAssign d x r ∧ Exists s x ∧ FreeToWrite s x)) :
    ∃ s', startAssign mk s t d x = .ok s' ∧ Inv s' ∧ ∀ y, view s' y = (if d = x then view s else upd (view s) d .none) y := by
  by_cases hdx : d = x
  · exact ⟨s, by rw [startAssign, if_pos hdx], h, by simp [hdx]⟩
  · obtain ⟨b, hb⟩ := hd
    obtain ⟨v, n, e, hv⟩ := decr_owned h hb
    have hm := hmk (relOf b n) (Ne.symm hdx)
    refine ⟨{ s with cell := upd s.cell d .busy, blk := upd s.blk b v, pend := upd s.pend t (mk d x (relOf b n)) }, ?_, ?_, ?_⟩
    · simp [startAssign, hdx, hb, e, bind, Except.bind]
    · refine inv_drop h t d b _ v n hidle hb hw ?_ ?_ ?_ hv
      · rcases hm with ⟨e, _⟩ | ⟨e, _⟩ <;> rw [e] <;> rfl
      · rcases hm with ⟨e, _⟩ | ⟨e, _⟩ <;> rw [e] <;> rfl
      · rcases hm with ⟨e, h1, h2⟩ | ⟨e, h1, h2⟩
        · exact .inr (.inl ⟨x, _, e, Ne.symm hdx, h1, h2⟩)
        · exact .inr (.inr ⟨x, _, e, Ne.symm hdx, h1, h2⟩)
    · rw [if_neg hdx]
      refine view_dropped (b := b) (v := v) rfl rfl ?_
      rcases hv with ⟨m, c, e1, e2, _⟩ | ⟨m, e1, e2, _⟩
      · exact .inl ⟨m, c, e1, e2⟩
      · exact .inr ⟨m, e1, e2⟩

theorem step_aux {s : St α} (h : Inv s) (a : Act α) (ha : Allowed s a) :
    ∃ s', step s a = .ok s' ∧ Inv s' ∧ ∀ x, view s' x = ideal s (view s) a x := by
  cases a with
  | start t o =>
    obtain ⟨hidle, hl⟩ := ha
    cases o with
    | create d m b =>
      obtain ⟨hd, hb⟩ := hl
      cases b with
      | none =>
        refine ⟨{ s with cell := upd s.cell d (.own none) }, rfl, inv_newNull h d _ (by simp [hd]) (by simp [hd]) (.inr rfl), ?_⟩
        have := view_dead (s := s) (s' := { s with cell := upd s.cell d (.own none) }) (d := d) (c := .own none) (by simp [hd]) (.inr rfl) rfl rfl
        simpa [ideal] using this
      | some b =>
        have hb := hb b rfl
        refine ⟨{ s with blk := upd s.blk b (.live m 1), cell := upd s.cell d (.own (some b)), allocs := upd s.allocs b (s.allocs b + 1) },
          by simp [step, start, create, hb], inv_alloc h d b m hd hb, fun y => ?_⟩
        show _ = upd (view s) d (.msg m) y
        by_cases hy : y = d
        · subst hy; rw [upd_same]; exact view_upd_msg (b := b) y (by simp) (.inl ⟨1, by simp⟩)
        · rw [upd_other _ _ hy]
          apply view_congr _ (by simp [upd_other _ _ hy])
          intro b' hy'
          have : b' ≠ b := by rintro rfl; exact h.freeBlk _ hb y hy'
          exact .inr (by simp [upd_other _ _ this])
    | wrap d b =>
      obtain ⟨hd, m, hb⟩ := hl
      have hi := inv_newOwner h d b hd (.persistent m) (.inr ⟨m, hb, rfl⟩)
      rw [upd_self _ _ _ hb] at hi
      refine ⟨{ s with cell := upd s.cell d (.own (some b)) }, by simp [step, start, wrap, hb], hi, fun y => ?_⟩
      simp only [ideal, hb]
      by_cases hy : y = d
      · subst hy; rw [upd_same]; exact view_upd_msg (b := b) y (by simp) (.inr hb)
      · rw [upd_other _ _ hy]; exact view_congr _ (by simp [upd_other _ _ hy]) (fun _ _ => .inr rfl)
    | copy d x =>
      obtain ⟨hd, ⟨b, hx⟩, _⟩ := hl
      obtain ⟨v, e, hv⟩ := incr_owned h hx
      refine ⟨{ s with cell := upd s.cell d (.own (some b)), blk := upd s.blk b v }, by simp [step, start, copy, hx, e, bind, Except.bind], inv_newOwner h d b hd v hv, ?_⟩
      exact view_bump (d := d) (by rintro rfl; simp [hd] at hx) hx rfl rfl hv
    | move d x =>
      obtain ⟨hd, ⟨p, hx⟩, hw⟩ := hl
      exact ⟨{ s with cell := upd (upd s.cell d (.own p)) x (.own none) }, by simp [step, start, move, hx], inv_move h d x p hd hx hw,
        view_moved (by rintro rfl; simp [hd] at hx) hx rfl rfl⟩
    | copyAssign d x =>
      obtain ⟨h1, h2, h3, h4⟩ := hl
      exact startAssign_ok h t d x .copyAssign hidle h1 h3 (fun r _ => .inl ⟨rfl, h2, h4⟩)
    | moveAssign d x =>
      obtain ⟨h1, h2, h3, h4⟩ := hl
      exact startAssign_ok h t d x .moveAssign hidle h1 h3 (fun r _ => .inr ⟨rfl, h2, h4⟩)
    | destroy d =>
      obtain ⟨⟨p, hd⟩, hw⟩ := hl
      cases p with
      | none =>
        refine ⟨{ s with cell := upd s.cell d .dead }, by simp [step, start, startDestroy, hd], inv_newNull h d _ ?_ (by simp [hd]) (.inl rfl), ?_⟩
        · intro q hq; rw [hd] at hq; injection hq with hq; exact ⟨hq.symm, hw⟩
        · have := view_dead (s := s) (s' := { s with cell := upd s.cell d .dead }) (d := d) (c := .dead) (by simp [hd]) (.inl rfl) rfl rfl
          simpa [ideal] using this
      | some b =>
        obtain ⟨v, n, e, hv⟩ := decr_owned h hd
        refine ⟨{ s with cell := upd s.cell d .busy, blk := upd s.blk b v, pend := upd s.pend t (.destroy d (relOf b n)) }, ?_, ?_, ?_⟩
        · simp [step, start, startDestroy, hd, e, bind, Except.bind]
        · exact inv_drop h t d b _ v n hidle hd hw rfl rfl (.inl ⟨_, rfl⟩) hv
        · refine view_dropped (b := b) (v := v) rfl rfl ?_
          rcases hv with ⟨m, c, e1, e2, _⟩ | ⟨m, e1, e2, _⟩
          · exact .inl ⟨m, c, e1, e2⟩
          · exact .inr ⟨m, e1, e2⟩
  | cont t =>
    cases hp : s.pend t with
    | idle => exact ⟨s, by simp [step, cont, hp], h, by simp [ideal, hp]⟩
    | copyAssign d x r =>
      cases r with
      | some b =>
        have hr : (s.pend t).rel? = some b := by rw [hp]; rfl
        obtain ⟨m, hb⟩ := h.relZero t b hr
        refine ⟨{ s with blk := upd s.blk b .free, releases := upd s.releases b (s.releases b + 1), pend := upd s.pend t (.copyAssign d x none) },
          by simp [step, cont, hp, release_ok hb, bind, Except.bind], inv_release h t b _ hr (by rw [hp]; rfl) (by rw [hp]; rfl) (by rw [hp]; rfl) rfl, ?_⟩
        simp only [ideal, hp]
        exact view_released h hr rfl rfl
      | none =>
        obtain ⟨b, hx⟩ := h.srcLive _ _ _ _ hp
        obtain ⟨v, e, hv⟩ := incr_owned h hx
        have hd := h.dstBusy t d (by rw [hp]; rfl)
        refine ⟨{ s with cell := upd s.cell d (.own (some b)), blk := upd s.blk b v, pend := upd s.pend t .idle }, by simp [step, cont, hp, hx, e, bind, Except.bind],
          inv_copyEnd h t d x b hp v hv, ?_⟩
        simp only [ideal, hp]
        exact view_bump (by rintro rfl; simp [hd] at hx) hx rfl rfl hv
    | moveAssign d x r =>
      cases r with
      | some b =>
        have hr : (s.pend t).rel? = some b := by rw [hp]; rfl
        obtain ⟨m, hb⟩ := h.relZero t b hr
        refine ⟨{ s with blk := upd s.blk b .free, releases := upd s.releases b (s.releases b + 1), pend := upd s.pend t (.moveAssign d x none) },
          by simp [step, cont, hp, release_ok hb, bind, Except.bind], inv_release h t b _ hr (by rw [hp]; rfl) (by rw [hp]; rfl) (by rw [hp]; rfl) rfl, ?_⟩
        simp only [ideal, hp]
        exact view_released h hr rfl rfl
      | none =>
        obtain ⟨p, hx⟩ := h.msrcLive _ _ _ _ hp
        have hd := h.dstBusy t d (by rw [hp]; rfl)
        refine ⟨{ s with cell := upd (upd s.cell d (.own p)) x (.own none), pend := upd s.pend t .idle }, by simp [step, cont, hp, hx],
          inv_moveEnd h t d x p hp hx, ?_⟩
        simp only [ideal, hp]
        exact view_moved (by rintro rfl; simp [hd] at hx) hx rfl rfl
    | destroy d r =>
      cases r with
      | some b =>
        have hr : (s.pend t).rel? = some b := by rw [hp]; rfl
        obtain ⟨m, hb⟩ := h.relZero t b hr
        refine ⟨{ s with blk := upd s.blk b .free, releases := upd s.releases b (s.releases b + 1), pend := upd s.pend t (.destroy d none) },
          by simp [step, cont, hp, release_ok hb, bind, Except.bind], inv_release h t b _ hr (by rw [hp]; rfl) (by rw [hp]; rfl) (by rw [hp]; rfl) rfl, ?_⟩
        simp only [ideal, hp]
        exact view_released h hr rfl rfl
      | none =>
        have hd := h.dstBusy t d (by rw [hp]; rfl)
        refine ⟨{ s with cell := upd s.cell d .dead, pend := upd s.pend t .idle }, by simp [step, cont, hp], inv_destroyEnd h t d hp, ?_⟩
        simp only [ideal, hp]
        have := view_dead (s := s) (s' := { s with cell := upd s.cell d .dead, pend := upd s.pend t .idle }) (d := d) (c := .dead) (by simp [hd]) (.inl rfl) rfl rfl
        intro y; rw [this y]
        by_cases hy : y = d
        · subst hy; simp [view_none (s := s) (x := y) (by simp [hd])]
        · rw [upd_other _ _ hy]

theorem reach_inv {s : St α} (h : Reach s) : Inv s := by
  induction h with
  | init h => exact inv_initial h
  | step a _ ha e ih =>
    obtain ⟨s', e', hi, _⟩ := step_aux ih a ha
    rw [e] at e'; cases e'; exact hi

/-! ## C36 -/

/-- **C36.** Whatever any number of threads do with shared messages, and however their steps interleave, the next step is defined (no use of a released message, no
second release, no counter below zero), and afterwards every handle holds exactly the message the operations say it holds. -/
theorem C36_safe {s : St α} (h : Reach s) (a : Act α) (ha : Allowed s a) : ∃ s', step s a = .ok s' ∧ ∀ x, view s' x = ideal s (view s) a x := by
  obtain ⟨s', e, _, hv⟩ := step_aux (reach_inv h) a ha
  exact ⟨s', e, hv⟩

/-- **C36**: a message stays allocated while it has an owner: `get_message` of a valid handle always finds the message, and `get_reference_count` the number of handles
that own it. -/
theorem C36_owned_alive {s : St α} (h : Reach s) (x b : Nat) (hx : s.cell x = .own (some b)) :
    (∃ m, getMessage s x = .ok m) ∧ ((∃ m, s.blk b = .persistent m) ∨ ∃ L, Owners s.cell b L ∧ getCount s x = .ok L.length) := by
  rcases own_counted (reach_inv h) hx with ⟨m, c, e⟩ | ⟨m, e⟩
  · obtain ⟨L, hL, hl⟩ := (reach_inv h).liveBlk _ _ _ e
    exact ⟨⟨m, by simp [getMessage, hx, e]⟩, .inr ⟨L, hL, by simp [getCount, hx, e, hl]⟩⟩
  · exact ⟨⟨m, by simp [getMessage, hx, e]⟩, .inl ⟨m, e⟩⟩

/-- **C36**: `is_valid` tells exactly whether `get_message` and `get_reference_count` are defined, and the message is then the one the operations say. -/
theorem C36_valid {s : St α} (h : Reach s) (x : Nat) : (isValid s x = true ↔ ∃ m, getMessage s x = .ok m) ∧ (isValid s x = true ↔ ∃ n, getCount s x = .ok n) := by
  have hall : (∃ m, getMessage s x = .ok m) ∧ (∃ n, getCount s x = .ok n) ∨ isValid s x = false ∧ (∀ m, getMessage s x ≠ .ok m) ∧ ∀ n, getCount s x ≠ .ok n := by
    cases hx : s.cell x with
    | dead => right; simp [isValid, getMessage, getCount, hx]
    | busy => right; simp [isValid, getMessage, getCount, hx]
    | own p =>
      cases p with
      | none => right; simp [isValid, getMessage, getCount, hx]
      | some b =>
        left
        rcases own_counted (reach_inv h) hx with ⟨m, c, e⟩ | ⟨m, e⟩ <;> simp [getMessage, getCount, hx, e]
  have hv : ∀ m, getMessage s x = .ok m → isValid s x = true := by
    intro m hm
    unfold getMessage at hm
    unfold isValid
    split at hm
    · rename_i b hb; rw [hb]
    · cases hm
    · cases hm
  rcases hall with ⟨⟨m, hm⟩, n, hn⟩ | ⟨h1, h2, h3⟩
  · exact ⟨⟨fun _ => ⟨m, hm⟩, fun _ => hv m hm⟩, fun _ => ⟨n, hn⟩, fun _ => hv m hm⟩
  · exact ⟨⟨fun e => (by rw [h1] at e; cases e), fun ⟨m, e⟩ => absurd e (h2 m)⟩, fun e => (by rw [h1] at e; cases e), fun ⟨n, e⟩ => absurd e (h3 n)⟩

/-- **C36**: exactly one release per allocation: at any time a block has been released as often as it has been allocated, minus one if it is allocated now; and it is allocated
now only if somebody owns it or somebody is about to release it. -/
theorem C36_released_once {s : St α} (h : Reach s) (b : Nat) :
    ((∃ m c, s.blk b = .live m c) → s.allocs b = s.releases b + 1 ∧ ((∃ x, s.cell x = .own (some b)) ∨ ∃ t, (s.pend t).rel? = some b)) ∧
    ((¬ ∃ m c, s.blk b = .live m c) → s.allocs b = s.releases b) := by
  have hi := reach_inv h
  have hc := hi.counts b
  constructor
  · rintro ⟨m, c, e⟩
    rw [e] at hc
    refine ⟨hc, ?_⟩
    cases c with
    | zero => exact .inr (hi.zeroRel b m e)
    | succ c =>
      obtain ⟨L, hL, hl⟩ := hi.liveBlk _ _ _ e
      cases L with
      | nil => simp at hl
      | cons x L => exact .inl ⟨x, (hL.2 x).1 (by simp)⟩
  · intro hn
    cases hb : s.blk b with
    | free => simpa [hb] using hc
    | persistent m => simpa [hb] using hc
    | live m c => exact absurd ⟨m, c, hb⟩ hn

/-- **C36**: nothing leaks: when no operation is under way, an allocated message has an owner; when in addition all handles have been destroyed, everything is back in the pool,
each block released exactly as often as it was allocated. -/
theorem C36_no_leak {s : St α} (h : Reach s) (hq : ∀ t, s.pend t = .idle) :
    (∀ b m c, s.blk b = .live m c → ∃ x, s.cell x = .own (some b)) ∧
    ((∀ x, s.cell x = .dead) → ∀ b, (s.blk b = .free ∨ ∃ m, s.blk b = .persistent m) ∧ s.allocs b = s.releases b) := by
  have key : ∀ b m c, s.blk b = .live m c → ∃ x, s.cell x = .own (some b) := by
    intro b m c e
    rcases ((C36_released_once h b).1 ⟨m, c, e⟩).2 with hx | ⟨t, ht⟩
    · exact hx
    · simp [hq, Pend.rel?] at ht
  refine ⟨key, fun hd b => ?_⟩
  cases hb : s.blk b with
  | free => exact ⟨.inl rfl, (C36_released_once h b).2 (by simp [hb])⟩
  | persistent m => exact ⟨.inr ⟨m, rfl⟩, (C36_released_once h b).2 (by simp [hb])⟩
  | live m c => obtain ⟨x, hx⟩ := key b m c hb; simp [hd] at hx

/-! ## A history meeting the hypotheses: two threads, one copying while the other drops the last but one owner -/

def demo0 : St Nat := { cell := fun _ => .dead, blk := fun b => if b = 9 then .persistent 77 else .free, pend := fun _ => .idle, allocs := fun _ => 0, releases := fun _ => 0 }

def demoActs : List (Act Nat) :=
  [.start 0 (.create 0 5 (some 3)), .start 1 (.create 1 6 (some 4)), .start 0 (.copy 2 0), .start 1 (.copyAssign 1 0), .start 0 (.destroy 2), .cont 1, .cont 0, .cont 1,
   .start 0 (.wrap 5 9), .start 0 (.moveAssign 0 5), .cont 0, .start 1 (.destroy 1), .cont 1, .cont 1]

def runActs (s : St Nat) : List (Act Nat) → Res (St Nat)
  | [] => .ok s
  | a :: as => do runActs (← step s a) as

example : Initial demo0 := ⟨fun _ => rfl, fun _ => rfl, fun b => by by_cases h : b = 9 <;> simp [demo0, h], fun _ => ⟨rfl, rfl⟩⟩

example : (runActs demo0 demoActs).map (fun s => ([s.cell 0, s.cell 1, s.cell 2, s.cell 5], [s.blk 3, s.blk 4], [s.allocs 3, s.allocs 4], [s.releases 3, s.releases 4])) =
    .ok ([.own (some 9), .dead, .dead, .own none], [.free, .free], [1, 1], [1, 1]) := rfl

/-- a reachable state: two owners, one of them being destroyed by thread 1 -/
example : ∃ s : St Nat, Reach s ∧ s.pend 1 = .destroy 2 none ∧ s.cell 0 = .own (some 3) ∧ Allowed s (.start 0 (.destroy 0)) := by
  have r0 : Reach demo0 := .init ⟨fun _ => rfl, fun _ => rfl, fun b => by by_cases h : b = 9 <;> simp [demo0, h], fun _ => ⟨rfl, rfl⟩⟩
  have r1 := Reach.step (.start 0 (.create 0 5 (some 3))) r0 ⟨rfl, rfl, fun x hx => by cases hx; rfl⟩ rfl
  have r2 := Reach.step (.start 0 (.copy 2 0)) r1 ⟨rfl, rfl, ⟨3, rfl⟩, fun t => by simp [demo0, Pend.msrc?]⟩ rfl
  have r3 := Reach.step (.start 1 (.destroy 2)) r2 ⟨rfl, ⟨_, rfl⟩, fun t => by simp [demo0, Pend.src?]⟩ rfl
  refine ⟨_, r3, rfl, rfl, rfl, ⟨_, rfl⟩, fun t => ?_⟩
  simp only [upd, demo0]; split_ifs <;> simp [Pend.src?]

/-! ## Findings -/

/-- Why copying from a handle without a message is excluded: the copy constructor dereferences the null pointer. -/
theorem copy_of_moved_from_undefined : runActs demo0 [.start 0 (.create 0 5 (some 3)), .start 0 (.move 1 0), .start 0 (.copy 2 0)] |>.toOption.isNone := rfl

/-- Why assigning to a handle without a message is excluded: both assignments dereference the null pointer, so a moved from handle cannot be given a message again. -/
theorem assign_to_moved_from_undefined : runActs demo0 [.start 0 (.create 0 5 (some 3)), .start 0 (.move 1 0), .start 0 (.copyAssign 0 1)] |>.toOption.isNone := rfl

/-- Why `wrap` is only for persistent messages: constructing a second `shared_message` from a message in use resets its counter, and then the first owner to go releases it
under the others. -/
theorem wrap_of_shared_broken : (runActs demo0 [.start 0 (.create 0 5 (some 3)), .start 0 (.wrap 1 3), .start 0 (.destroy 1), .cont 0, .cont 0]).map (fun s => (s.cell 0, s.blk 3)) =
    .ok (.own (some 3), .free) := rfl

end Etl.SharedMsg
