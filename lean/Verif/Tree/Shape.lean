import Verif.Tree.Heap
import Mathlib.Tactic.ByContra
import Mathlib.Tactic.SplitIfs
import Mathlib.Tactic.Tauto
import Mathlib.Data.List.Nodup

/-! # Shapes: the tree a heap represents, paths into it, AVL balance -/
namespace Etl.Tree

/-- A tree of node numbers with the weights stored in the nodes; `c false` is the left subtree. -/
inductive T where
  | nil
  | node (n : Nat) (w : Option Bool) (c : Bool → T)

/-- `x` in direction `d`, `y` in the other. -/
def sel {β : Type} (d : Bool) (x y : β) : Bool → β := fun e => if e = d then x else y

@[simp] theorem sel_same {β : Type} (d : Bool) (x y : β) : sel d x y d = x := by simp [sel]
@[simp] theorem sel_not {β : Type} (d : Bool) (x y : β) : sel d x y (!d) = y := by simp [sel]
@[simp] theorem sel_not' {β : Type} (d : Bool) (x y : β) : sel (!d) x y d = y := by simp [sel]
theorem sel_eta {β : Type} (d : Bool) (c : Bool → β) : sel d (c d) (c (!d)) = c := by
  funext e; cases d <;> cases e <;> simp [sel]
theorem sel_flip {β : Type} (d : Bool) (x y : β) : sel (!d) x y = sel d y x := by
  funext e; cases d <;> cases e <;> simp [sel]

theorem eq_or_not (e d : Bool) : e = d ∨ e = !d := by cases e <;> cases d <;> simp

namespace T

def mk (d : Bool) (n : Nat) (w : Option Bool) (x y : T) : T := node n w (sel d x y)

theorem mk_flip (d : Bool) (n : Nat) (w : Option Bool) (x y : T) : mk (!d) n w x y = mk d n w y x := by
  simp only [mk, sel_flip]
theorem node_eq (d : Bool) (n : Nat) (w : Option Bool) (c : Bool → T) : node n w c = mk d n w (c d) (c (!d)) := by
  simp only [mk, sel_eta]

/-- The nodes, in-order, starting from the side `d`. -/
def ino (d : Bool) : T → List Nat
  | nil => []
  | node n _ c => (c d).ino d ++ n :: (c (!d)).ino d

/-- The nodes, left to right. -/
def ids (t : T) : List Nat := t.ino false

def height : T → Nat
  | nil => 0
  | node _ _ c => max (c false).height (c true).height + 1

/-- AVL balance: the stored weight says which subtree is one higher, or that both have the same height. -/
def Bal : T → Prop
  | nil => True
  | node _ w c => (∀ d, (c d).Bal) ∧ match w with
    | none => (c false).height = (c true).height
    | some d => (c d).height = (c (!d)).height + 1

def rootId : T → Nat
  | nil => 0
  | node n _ _ => n
def rootW : T → Option Bool
  | nil => none
  | node _ w _ => w

@[simp] theorem ino_nil (d : Bool) : nil.ino d = [] := rfl
@[simp] theorem height_nil : nil.height = 0 := rfl
theorem bal_nil : nil.Bal := trivial
@[simp] theorem rootId_mk (d n w x y) : (mk d n w x y).rootId = n := rfl
@[simp] theorem rootW_mk (d n w x y) : (mk d n w x y).rootW = w := rfl

theorem ino_rev (d : Bool) (t : T) : t.ino (!d) = (t.ino d).reverse := by
  induction t with
  | nil => rfl
  | node n w c ih => simp [ino, ih]

theorem ino_mk (d n w x y) : (mk d n w x y).ino d = x.ino d ++ n :: y.ino d := by simp [mk, ino]
theorem ino_mk' (d n w x y) : (mk d n w x y).ino (!d) = y.ino (!d) ++ n :: x.ino (!d) := by simp [mk, ino]

theorem ino_congr {d : Bool} {t t' : T} (h : t.ino d = t'.ino d) (e : Bool) : t.ino e = t'.ino e := by
  rcases eq_or_not e d with rfl | rfl
  · exact h
  · rw [ino_rev, ino_rev, h]

theorem mem_ino {d : Bool} {t : T} {n : Nat} : n ∈ t.ino d ↔ n ∈ t.ids := by
  cases d
  · rfl
  · show n ∈ t.ino (!false) ↔ _
    rw [ino_rev, List.mem_reverse]; rfl

theorem nodup_ino {d : Bool} {t : T} : (t.ino d).Nodup ↔ t.ids.Nodup := by
  cases d
  · rfl
  · show (t.ino (!false)).Nodup ↔ _
    rw [ino_rev, List.nodup_reverse]; rfl

theorem ids_len {d : Bool} {t : T} : (t.ino d).length = t.ids.length := by
  cases d
  · rfl
  · show (t.ino (!false)).length = _
    rw [ino_rev, List.length_reverse]; rfl

theorem mem_mk {d n w x y} {m : Nat} : m ∈ (mk d n w x y).ids ↔ m = n ∨ m ∈ x.ids ∨ m ∈ y.ids := by
  rw [← mem_ino (d := d), ino_mk]; simp [mem_ino]; tauto

theorem nodup_mk {d n w x y} : (mk d n w x y).ids.Nodup ↔
    n ∉ x.ids ∧ n ∉ y.ids ∧ x.ids.Nodup ∧ y.ids.Nodup ∧ ∀ m, m ∈ x.ids → m ∉ y.ids := by
  rw [← nodup_ino (d := d), ino_mk, List.nodup_append, List.nodup_cons, nodup_ino, nodup_ino]
  simp only [List.mem_cons, mem_ino]
  constructor
  · rintro ⟨h1, ⟨h2, h3⟩, h4⟩
    exact ⟨fun h => h4 _ h _ (.inl rfl) rfl, h2, h1, h3, fun m hm hm' => h4 m hm m (.inr hm') rfl⟩
  · rintro ⟨h1, h2, h3, h4, h5⟩
    refine ⟨h3, ⟨h2, h4⟩, ?_⟩
    rintro a ha b (rfl | hb) rfl
    · exact h1 ha
    · exact h5 _ ha hb

theorem height_mk (d n w x y) : (mk d n w x y).height = max x.height y.height + 1 := by
  cases d <;> simp [mk, height, sel, Nat.max_comm]

/-- The balance condition at one node, relative to a direction. -/
def BalW (d : Bool) (w : Option Bool) (hx hy : Nat) : Prop :=
  (w = none ∧ hx = hy) ∨ (w = some d ∧ hx = hy + 1) ∨ (w = some (!d) ∧ hy = hx + 1)

theorem bal_mk {d n w x y} : (mk d n w x y).Bal ↔ x.Bal ∧ y.Bal ∧ BalW d w x.height y.height := by
  unfold BalW
  cases d <;> rcases w with _ | (_ | _) <;> simp [mk, Bal, sel] <;> tauto

theorem height_pos {t : T} (h : t.height ≠ 0) (d : Bool) : ∃ n w x y, t = mk d n w x y := by
  cases t with
  | nil => exact absurd rfl h
  | node n w c => exact ⟨n, w, _, _, node_eq d n w c⟩

theorem ids_len_mk {d n w x y} : (mk d n w x y).ids.length = x.ids.length + y.ids.length + 1 := by
  rw [← ids_len (d := d), ino_mk]; simp [ids_len]; omega

theorem height_le_len (t : T) : t.height ≤ t.ids.length := by
  induction t with
  | nil => simp
  | node n w c ih =>
    rw [node_eq false, height_mk, ids_len_mk]
    have := ih false; have := ih true; simp; omega

end T

open T

/-- The heap holds the tree `t` below the pointer `p`. -/
def Rep (h : TH) (p : Nat) : T → Prop
  | .nil => p = 0
  | .node n w c => p = n ∧ h.valid n ∧ h.wt n = w ∧ ∀ d, Rep h (h.ch n d) (c d)

theorem rep_nil {h : TH} {p : Nat} : Rep h p .nil ↔ p = 0 := Iff.rfl

theorem rep_mk {h : TH} {p d n w x y} : Rep h p (mk d n w x y) ↔
    p = n ∧ h.valid n ∧ h.wt n = w ∧ Rep h (h.ch n d) x ∧ Rep h (h.ch n (!d)) y := by
  constructor
  · rintro ⟨h1, h2, h3, h4⟩
    have a := h4 d; have b := h4 (!d)
    rw [sel_same] at a; rw [sel_not] at b
    exact ⟨h1, h2, h3, a, b⟩
  · rintro ⟨h1, h2, h3, a, b⟩
    refine ⟨h1, h2, h3, fun e => ?_⟩
    rcases eq_or_not e d with rfl | rfl
    · simpa using a
    · simpa using b

theorem Rep.root_eq {h : TH} {p : Nat} {t : T} (r : Rep h p t) : p = t.rootId := by
  cases t with
  | nil => exact r
  | node n w c => exact r.1

theorem Rep.valid_of_mem {h : TH} {p : Nat} {t : T} (r : Rep h p t) {n : Nat} (hn : n ∈ t.ids) : h.valid n := by
  induction t generalizing p with
  | nil => simp [ids] at hn
  | node m w c ih =>
    rw [node_eq false, mem_mk] at hn
    rcases hn with rfl | hn | hn
    · exact r.2.1
    · exact ih _ (r.2.2.2 _) hn
    · exact ih _ (r.2.2.2 _) hn

theorem Rep.ne_zero {h : TH} {p : Nat} {t : T} (r : Rep h p t) : p ≠ 0 ↔ t ≠ .nil := by
  cases t with
  | nil => simp [show p = 0 from r]
  | node m w c => have := r.2.1.1; have := r.1; simp; omega

theorem Rep.mem_root {h : TH} {p : Nat} {t : T} (r : Rep h p t) (hp : p ≠ 0) : p ∈ t.ids := by
  cases t with
  | nil => exact absurd r hp
  | node m w c => rw [node_eq false, mem_mk]; exact .inl r.1

/-- A heap that agrees on the nodes of the tree represents the same tree. -/
theorem Rep.congr {h h' : TH} (hl : h'.lim = h.lim) {t : T} : ∀ {p}, Rep h p t →
    (∀ n ∈ t.ids, (∀ d, h'.ch n d = h.ch n d) ∧ h'.wt n = h.wt n) → Rep h' p t := by
  induction t with
  | nil => intro p r _; exact r
  | node m w c ih =>
    intro p r hc
    have hm := hc m (by rw [node_eq false, mem_mk]; exact .inl rfl)
    refine ⟨r.1, ?_, by rw [hm.2, r.2.2.1], fun d => ?_⟩
    · have := r.2.1; simp only [TH.valid, hl] at *; exact this
    · rw [hm.1]
      refine ih d (r.2.2.2 d) fun n hn => hc n ?_
      rw [node_eq d, mem_mk]; exact .inr (.inl hn)

theorem Rep.to {h : TH} {p : Nat} {t : T} (r : Rep h p t) (h' : TH) (hl : h'.lim = h.lim)
    (hc : ∀ n ∈ t.ids, (∀ d, h'.ch n d = h.ch n d) ∧ h'.wt n = h.wt n) : Rep h' p t := Rep.congr hl r hc

/-- Two representations with the same root are the same tree. -/
theorem Rep.unique {h : TH} {t : T} : ∀ {p} {t' : T}, Rep h p t → Rep h p t' → t = t' := by
  induction t with
  | nil =>
    intro p t' r r'
    cases t' with
    | nil => rfl
    | node n w c => have := r'.1; have := r'.2.1.1; have : p = 0 := r; omega
  | node n w c ih =>
    intro p t' r r'
    cases t' with
    | nil => have := r.1; have := r.2.1.1; have : p = 0 := r'; omega
    | node n' w' c' =>
      obtain ⟨e1, _, e2, e3⟩ := r
      obtain ⟨e1', _, e2', e3'⟩ := r'
      subst e1 e1' e2
      have : c = c' := by funext d; exact ih d (e3 d) (e3' d)
      rw [this, e2']

/-! ## Paths -/

/-- One step of a path: at node `n` of weight `w` go in direction `d`; `sib` hangs on the other side. -/
structure Frame where
  n : Nat
  d : Bool
  w : Option Bool
  sib : T

def Frame.plug (f : Frame) (t : T) : T := T.mk f.d f.n f.w t f.sib
/-- The nodes of the frame that come before / after the hole. -/
def Frame.bef (f : Frame) : List Nat := if f.d then f.sib.ids ++ [f.n] else []
def Frame.aft (f : Frame) : List Nat := if f.d then [] else f.n :: f.sib.ids

/-- A path from the root (head) downwards. -/
def plug : List Frame → T → T
  | [], t => t
  | f :: fs, t => f.plug (plug fs t)

def bef : List Frame → List Nat
  | [] => []
  | f :: fs => f.bef ++ bef fs
def aft : List Frame → List Nat
  | [] => []
  | f :: fs => aft fs ++ f.aft

/-- The nodes in the frames of the path. -/
def pids (fs : List Frame) : List Nat := bef fs ++ aft fs

theorem plug_append (a b : List Frame) (t : T) : plug (a ++ b) t = plug a (plug b t) := by
  induction a with
  | nil => rfl
  | cons f a ih => simp [plug, ih]
theorem bef_append (a b : List Frame) : bef (a ++ b) = bef a ++ bef b := by
  induction a with
  | nil => rfl
  | cons f a ih => simp [bef, ih]
theorem aft_append (a b : List Frame) : aft (a ++ b) = aft b ++ aft a := by
  induction a with
  | nil => simp [aft]
  | cons f a ih => simp [aft, ih]

theorem ids_fplug (f : Frame) (t : T) : (f.plug t).ids = f.bef ++ t.ids ++ f.aft := by
  rcases f with ⟨n, d, w, sib⟩
  cases d
  · have := ino_mk false n w t sib
    simp only [Frame.plug, Frame.bef, Frame.aft, ids, Bool.false_eq_true, if_false] at *
    rw [this]; simp
  · have := ino_mk' true n w t sib
    simp only [Frame.plug, Frame.bef, Frame.aft, ids, if_true, Bool.not_true] at *
    rw [this]; simp

theorem ids_plug (fs : List Frame) (t : T) : (plug fs t).ids = bef fs ++ t.ids ++ aft fs := by
  induction fs with
  | nil => simp [plug, bef, aft]
  | cons f fs ih => rw [plug, ids_fplug, ih]; simp [bef, aft]

theorem mem_frame (f : Frame) (m : Nat) : (m ∈ f.bef ∨ m ∈ f.aft) ↔ (m = f.n ∨ m ∈ f.sib.ids) := by
  rcases f with ⟨n, d, w, sib⟩
  cases d <;> simp [Frame.bef, Frame.aft, or_comm]

theorem mem_pids_cons {f : Frame} {fs : List Frame} {m : Nat} : m ∈ pids (f :: fs) ↔ m = f.n ∨ m ∈ f.sib.ids ∨ m ∈ pids fs := by
  have := mem_frame f m
  simp only [pids, bef, aft, List.mem_append] at *
  tauto
theorem mem_pids_append {a b : List Frame} {m : Nat} : m ∈ pids (a ++ b) ↔ m ∈ pids a ∨ m ∈ pids b := by
  simp only [pids, bef_append, aft_append, List.mem_append]; tauto
theorem mem_plug {fs : List Frame} {t : T} {m : Nat} : m ∈ (plug fs t).ids ↔ m ∈ pids fs ∨ m ∈ t.ids := by
  rw [ids_plug]; simp only [pids, List.mem_append]; tauto

theorem nodup_fplug {f : Frame} {t : T} : (f.plug t).ids.Nodup ↔
    f.n ∉ t.ids ∧ f.n ∉ f.sib.ids ∧ t.ids.Nodup ∧ f.sib.ids.Nodup ∧ ∀ m, m ∈ t.ids → m ∉ f.sib.ids := nodup_mk

theorem nodup_plug_sub {fs : List Frame} {t : T} (h : (plug fs t).ids.Nodup) : t.ids.Nodup := by
  induction fs with
  | nil => exact h
  | cons f fs ih => exact ih (nodup_fplug.1 h).2.2.1

theorem nodup_plug_disj {fs : List Frame} {t : T} (h : (plug fs t).ids.Nodup) {m : Nat} (hm : m ∈ pids fs) : m ∉ t.ids := by
  induction fs with
  | nil => simp [pids, bef, aft] at hm
  | cons f fs ih =>
    obtain ⟨h1, h2, h3, h4, h5⟩ := nodup_fplug.1 h
    rw [mem_pids_cons] at hm
    intro ht
    rcases hm with rfl | hm | hm
    · exact h1 (mem_plug.2 (.inr ht))
    · exact h5 _ (mem_plug.2 (.inr ht)) hm
    · exact ih h3 hm ht

/-- Replacing the subtree keeps the nodes distinct, if the new subtree's nodes are distinct and not on the path. -/
theorem nodup_plug_swap {fs : List Frame} {t t' : T} (h : (plug fs t).ids.Nodup) (h' : t'.ids.Nodup)
    (hd : ∀ m ∈ t'.ids, m ∈ t.ids ∨ m ∉ (plug fs t).ids) : (plug fs t').ids.Nodup := by
  induction fs with
  | nil => exact h'
  | cons f fs ih =>
    obtain ⟨h1, h2, h3, h4, h5⟩ := nodup_fplug.1 h
    refine nodup_fplug.2 ⟨?_, h2, ih h3 ?_, h4, ?_⟩
    · intro hc
      rcases mem_plug.1 hc with hc | hc
      · exact h1 (mem_plug.2 (.inl hc))
      · rcases hd _ hc with hc | hc
        · exact h1 (mem_plug.2 (.inr hc))
        · exact hc (mem_mk.2 (.inl rfl))
    · intro m hm
      rcases hd m hm with h | h
      · exact .inl h
      · exact .inr fun hc => h (mem_mk.2 (.inr (.inl hc)))
    · intro m hm hs
      rcases mem_plug.1 hm with hc | hc
      · exact h5 m (mem_plug.2 (.inl hc)) hs
      · rcases hd _ hc with hc | hc
        · exact h5 m (mem_plug.2 (.inr hc)) hs
        · exact hc (mem_mk.2 (.inr (.inr hs)))

/-- The reference at the end of the path. -/
def endLoc : Loc → List Frame → Loc
  | L, [] => L
  | _, f :: fs => endLoc (.child f.n f.d) fs

theorem endLoc_append (L : Loc) (a b : List Frame) : endLoc L (a ++ b) = endLoc (endLoc L a) b := by
  induction a generalizing L with
  | nil => rfl
  | cons f a ih => simp [endLoc, ih]
theorem endLoc_snoc (L : Loc) (a : List Frame) (f : Frame) : endLoc L (a ++ [f]) = .child f.n f.d := by
  rw [endLoc_append]; rfl

/-- The heap holds the frames of the path below the reference `L`. -/
def PRep (h : TH) : Loc → List Frame → Prop
  | _, [] => True
  | L, f :: fs => h.gl L = f.n ∧ h.valid f.n ∧ h.wt f.n = f.w ∧ Rep h (h.ch f.n (!f.d)) f.sib ∧ PRep h (.child f.n f.d) fs

theorem prep_append {h : TH} {a b : List Frame} : ∀ {L : Loc}, PRep h L (a ++ b) ↔ PRep h L a ∧ PRep h (endLoc L a) b := by
  induction a with
  | nil => intro L; simp [PRep, endLoc]
  | cons f a ih => intro L; simp only [List.cons_append, PRep, endLoc, ih]; tauto

theorem rep_plug {h : TH} {t : T} {fs : List Frame} : ∀ {L : Loc}, Rep h (h.gl L) (plug fs t) ↔
    PRep h L fs ∧ Rep h (h.gl (endLoc L fs)) t := by
  induction fs with
  | nil => intro L; simp [PRep, plug, endLoc]
  | cons f fs ih =>
    intro L
    have : Rep h (h.ch f.n f.d) (plug fs t) ↔ _ := ih (L := .child f.n f.d)
    simp only [plug, Frame.plug, rep_mk, PRep, endLoc]
    rw [this]
    tauto

/-- The path sets `dir` in its nodes. -/
def DRep (h : TH) (fs : List Frame) : Prop := ∀ f ∈ fs, h.dr f.n = some f.d

theorem PRep.congr {h h' : TH} (hl : h'.lim = h.lim) {fs : List Frame} : ∀ {L}, PRep h L fs → h'.gl L = h.gl L →
    (∀ n ∈ pids fs, (∀ d, h'.ch n d = h.ch n d) ∧ h'.wt n = h.wt n) → PRep h' L fs := by
  induction fs with
  | nil => intros; trivial
  | cons f fs ih =>
    intro L r hg hc
    obtain ⟨r1, r2, r3, r4, r5⟩ := r
    have hf := hc f.n (mem_pids_cons.2 (.inl rfl))
    refine ⟨by rw [hg, r1], by simp only [TH.valid, hl] at *; exact r2, by rw [hf.2, r3], ?_, ?_⟩
    · rw [hf.1]; exact r4.congr hl fun n hn => hc n (mem_pids_cons.2 (.inr (.inl hn)))
    · refine ih r5 ?_ fun n hn => hc n (mem_pids_cons.2 (.inr (.inr hn)))
      show h'.ch f.n f.d = h.ch f.n f.d
      exact hf.1 _

theorem PRep.to {h : TH} {L : Loc} {fs : List Frame} (r : PRep h L fs) (h' : TH) (hl : h'.lim = h.lim) (hg : h'.gl L = h.gl L)
    (hc : ∀ n ∈ pids fs, (∀ d, h'.ch n d = h.ch n d) ∧ h'.wt n = h.wt n) : PRep h' L fs := PRep.congr hl r hg hc

theorem PRep.valid_of_mem {h : TH} {fs : List Frame} : ∀ {L}, PRep h L fs → ∀ {n}, n ∈ pids fs → h.valid n := by
  induction fs with
  | nil => intro L r n hn; simp [pids, bef, aft] at hn
  | cons f fs ih =>
    intro L r n hn
    obtain ⟨r1, r2, r3, r4, r5⟩ := r
    rcases mem_pids_cons.1 hn with rfl | hn | hn
    · exact r2
    · exact r4.valid_of_mem hn
    · exact ih r5 hn

/-- Writing the reference at the end of a path leaves the path. -/
theorem PRep.set_end {h : TH} {fs : List Frame} {v : Nat} (t : T) : ∀ {L : Loc}, PRep h L fs → (plug fs t).ids.Nodup →
    (∀ p d, L = .child p d → p ∉ pids fs) → PRep (h.sl (endLoc L fs) v) L fs := by
  induction fs with
  | nil => intros; trivial
  | cons f fs ih =>
    intro L r nd hL
    obtain ⟨r1, r2, r3, r4, r5⟩ := r
    obtain ⟨h1, h2, h3, h4, h5⟩ := nodup_fplug.1 nd
    have ihr := ih r5 h3 (fun p d e => by cases e; exact fun hc => h1 (mem_plug.2 (.inl hc)))
    -- the reference written is in a node of the path
    have key : ∃ g e, endLoc (.child f.n f.d) fs = .child g e ∧ (g = f.n ∧ e = f.d ∨ g ∈ pids fs) := by
      rcases List.eq_nil_or_concat fs with rfl | ⟨fs', g, rfl⟩
      · exact ⟨_, _, rfl, .inl ⟨rfl, rfl⟩⟩
      · refine ⟨g.n, g.d, by simp [endLoc_snoc], .inr ?_⟩
        rw [List.concat_eq_append, mem_pids_append]
        exact .inr (mem_pids_cons.2 (.inl rfl))
    obtain ⟨g, e, hk, hge⟩ := key
    have hgs : g ∉ f.sib.ids := by
      rcases hge with ⟨rfl, _⟩ | hg
      · exact h2
      · exact h5 g (mem_plug.2 (.inl hg))
    simp only [endLoc, hk] at ihr ⊢
    refine ⟨?_, r2, r3, ?_, ihr⟩
    · cases L with
      | root => exact r1
      | child p d =>
        have hp := hL p d rfl
        show (if p = g ∧ d = e then v else h.ch p d) = f.n
        rw [if_neg]
        · exact r1
        · rintro ⟨rfl, rfl⟩
          rcases hge with ⟨rfl, _⟩ | hg
          · exact hp (mem_pids_cons.2 (.inl rfl))
          · exact hp (mem_pids_cons.2 (.inr (.inr hg)))
    · have hne : ¬ (f.n = g ∧ (!f.d) = e) := by
        rintro ⟨rfl, rfl⟩
        rcases hge with ⟨_, h⟩ | hg
        · cases hfd : f.d <;> rw [hfd] at h <;> cases h
        · exact h1 (mem_plug.2 (.inl hg))
      show Rep _ (if f.n = g ∧ (!f.d) = e then v else h.ch f.n (!f.d)) f.sib
      rw [if_neg hne]
      refine Rep.congr (h := h) (h' := h.sl (.child g e) v) rfl r4 fun n hn => ⟨fun d => ?_, rfl⟩
      show (if n = g ∧ d = e then v else h.ch n d) = _
      rw [if_neg]; rintro ⟨rfl, _⟩; exact hgs hn

theorem gl_sl (h : TH) (L : Loc) (v : Nat) : (h.sl L v).gl L = v := by
  cases L <;> simp [TH.gl, TH.sl, TH.sc]

/-! ## Balance along paths -/

theorem bal_plug_sub {fs : List Frame} {t : T} (h : (plug fs t).Bal) : t.Bal := by
  induction fs with
  | nil => exact h
  | cons f fs ih => exact ih (bal_mk.1 h).1

theorem plug_swap {fs : List Frame} {t t' : T} (h : (plug fs t).Bal) (h' : t'.Bal) (he : t'.height = t.height) :
    (plug fs t').Bal ∧ (plug fs t').height = (plug fs t).height := by
  induction fs with
  | nil => exact ⟨h', he⟩
  | cons f fs ih =>
    obtain ⟨h1, h2, h3⟩ := bal_mk.1 h
    obtain ⟨i1, i2⟩ := ih h1
    refine ⟨bal_mk.2 ⟨i1, h2, by rw [i2]; exact h3⟩, ?_⟩
    simp only [plug, Frame.plug, height_mk, i2]

theorem len_le_height (fs : List Frame) (t : T) : fs.length + t.height ≤ (plug fs t).height := by
  induction fs with
  | nil => simp [plug]
  | cons f fs ih => simp only [plug, Frame.plug, height_mk, List.length_cons]; omega

end Etl.Tree
