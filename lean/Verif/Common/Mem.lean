import Verif.Common.Res
import Mathlib.Tactic.SplitIfs

/-!
# Raw storage with object lifetimes

Shared by the containers that keep their elements in an array of raw storage (`vector`, `deque`, ...).
A cell is raw, holds a live object with a value, or holds a live but moved-from object.

* constructing over anything but raw storage is an error (the old object would never be destroyed);
* reading needs a live, not moved-from object;
* assigning and destroying need a live object (moved-from is fine);
* every access must be inside the array.

The range algorithms are the loops of `/repo/include/etl/memory.h` (`uninitialized_fill_n` l.185-213, `uninitialized_copy` l.275-290,
`uninitialized_move` l.423-437, `destroy` l.1115-1122) and `/repo/include/etl/algorithm.h` (`copy` l.197, `move` l.291-301, `move_backward` l.322-330,
`fill_n` l.572).  The variants that forward to the `std::` functions of the same name, and the ones for trivial types (`memmove`), have the same effect.
-/
namespace Etl

inductive Cell (α : Type) where
  | raw | moved | live (v : α)
  deriving DecidableEq, Repr

/-- an object lives in the cell -/
def Cell.alive {α : Type} : Cell α → Bool
  | .raw => false
  | _ => true

structure Mem (α : Type) where
  cap  : Nat
  /-- `T`'s move assignment leaves the value alone when source and target are the same object -/
  sms  : Bool
  cell : Nat → Cell α

namespace Mem
variable {α : Type}

def fresh (cap : Nat) (sms : Bool) : Mem α := ⟨cap, sms, fun _ => .raw⟩

def set (m : Mem α) (i : Nat) (c : Cell α) : Mem α := { m with cell := upd m.cell i c }

/-- placement new -/
def construct (m : Mem α) (i : Nat) (v : α) : Res (Mem α) :=
  if i < m.cap then
    match m.cell i with
    | .raw => .ok (m.set i (.live v))
    | _ => .error .constructLive
  else .error .outOfBounds

/-- destructor call -/
def destroy (m : Mem α) (i : Nat) : Res (Mem α) :=
  if i < m.cap then
    match m.cell i with
    | .raw => .error .deadAccess
    | _ => .ok (m.set i .raw)
  else .error .outOfBounds

/-- copying out of an object -/
def read (m : Mem α) (i : Nat) : Res α :=
  if i < m.cap then
    match m.cell i with
    | .live v => .ok v
    | _ => .error .deadAccess
  else .error .outOfBounds

/-- moving out of an object -/
def take (m : Mem α) (i : Nat) : Res (α × Mem α) := do
  let v ← m.read i
  .ok (v, m.set i .moved)

/-- assignment to an object -/
def assign (m : Mem α) (i : Nat) (v : α) : Res (Mem α) :=
  if i < m.cap then
    match m.cell i with
    | .raw => .error .deadAccess
    | _ => .ok (m.set i (.live v))
  else .error .outOfBounds

/-- `p[dst] = etl::move(p[src])` -/
def moveAssign (m : Mem α) (src dst : Nat) : Res (Mem α) :=
  if src = dst then do
    let v ← m.read src
    .ok (m.set src (if m.sms then .live v else .moved))
  else do
    let (v, m) ← m.take src
    m.assign dst v

/-- `uninitialized_fill_n` -/
def fillNew (m : Mem α) (i n : Nat) (v : α) : Res (Mem α) :=
  match n with
  | 0 => .ok m
  | n + 1 => do
    let m ← m.construct i v
    m.fillNew (i + 1) n v

/-- `uninitialized_copy` from a source outside the array -/
def copyNew (m : Mem α) (i : Nat) : List α → Res (Mem α)
  | [] => .ok m
  | v :: vs => do
    let m ← m.construct i v
    m.copyNew (i + 1) vs

/-- `uninitialized_move` within the array -/
def moveNew (m : Mem α) (src n dst : Nat) : Res (Mem α) :=
  match n with
  | 0 => .ok m
  | n + 1 => do
    let (v, m) ← m.take src
    let m ← m.construct dst v
    m.moveNew (src + 1) n (dst + 1)

/-- `move`, ascending -/
def moveUp (m : Mem α) (src n dst : Nat) : Res (Mem α) :=
  match n with
  | 0 => .ok m
  | n + 1 => do
    let m ← m.moveAssign src dst
    m.moveUp (src + 1) n (dst + 1)

/-- `move_backward` of `n` elements ending before `last` to those ending before `dlast` -/
def moveDown (m : Mem α) (n last dlast : Nat) : Res (Mem α) :=
  match n with
  | 0 => .ok m
  | n + 1 => do
    let m ← m.moveAssign (last - 1) (dlast - 1)
    m.moveDown n (last - 1) (dlast - 1)

/-- `fill_n` -/
def fillN (m : Mem α) (i n : Nat) (v : α) : Res (Mem α) :=
  match n with
  | 0 => .ok m
  | n + 1 => do
    let m ← m.assign i v
    m.fillN (i + 1) n v

/-- `copy` from a source outside the array -/
def copyTo (m : Mem α) (i : Nat) : List α → Res (Mem α)
  | [] => .ok m
  | v :: vs => do
    let m ← m.assign i v
    m.copyTo (i + 1) vs

/-- `destroy(first, last)` / `destroy_n` -/
def destroyN (m : Mem α) (i n : Nat) : Res (Mem α) :=
  match n with
  | 0 => .ok m
  | n + 1 => do
    let m ← m.destroy i
    m.destroyN (i + 1) n

/-- Iterating over `n` elements from `i`, copying their values. -/
def readN (m : Mem α) (i n : Nat) : Res (List α) :=
  match n with
  | 0 => .ok []
  | n + 1 => do
    let v ← m.read i
    let vs ← m.readN (i + 1) n
    .ok (v :: vs)

/-! ## Effect of the loops -/

def Same (m m' : Mem α) : Prop := m'.cap = m.cap ∧ m'.sms = m.sms

theorem Same.rfl {m : Mem α} : Same m m := ⟨_root_.rfl, _root_.rfl⟩
theorem Same.trans {a b c : Mem α} (h : Same a b) (k : Same b c) : Same a c := ⟨k.1.trans h.1, k.2.trans h.2⟩
theorem same_set {m : Mem α} {i : Nat} {c : Cell α} : Same m (m.set i c) := ⟨_root_.rfl, _root_.rfl⟩

@[simp] theorem set_cap (m : Mem α) (i : Nat) (c : Cell α) : (m.set i c).cap = m.cap := rfl
@[simp] theorem set_sms (m : Mem α) (i : Nat) (c : Cell α) : (m.set i c).sms = m.sms := rfl
theorem set_cell (m : Mem α) (i j : Nat) (c : Cell α) : (m.set i c).cell j = if j = i then c else m.cell j := by
  simp [set, upd]

theorem construct_ok {m : Mem α} {i : Nat} (v : α) (hi : i < m.cap) (hr : m.cell i = .raw) :
    m.construct i v = .ok (m.set i (.live v)) := by simp [construct, hi, hr]
theorem destroy_ok {m : Mem α} {i : Nat} (hi : i < m.cap) (hr : m.cell i ≠ .raw) :
    m.destroy i = .ok (m.set i .raw) := by
  unfold destroy; rw [if_pos hi]; split
  · exact absurd ‹_› hr
  · rfl
theorem assign_ok {m : Mem α} {i : Nat} (v : α) (hi : i < m.cap) (hr : m.cell i ≠ .raw) :
    m.assign i v = .ok (m.set i (.live v)) := by
  unfold assign; rw [if_pos hi]; split
  · exact absurd ‹_› hr
  · rfl
theorem read_ok {m : Mem α} {i : Nat} {v : α} (hi : i < m.cap) (hr : m.cell i = .live v) : m.read i = .ok v := by
  simp [read, hi, hr]

theorem fillNew_ok (v : α) (n : Nat) : ∀ (m : Mem α) (i : Nat), i + n ≤ m.cap → (∀ j, i ≤ j → j < i + n → m.cell j = .raw) →
    ∃ m', m.fillNew i n v = .ok m' ∧ Same m m' ∧ ∀ j, m'.cell j = if i ≤ j ∧ j < i + n then .live v else m.cell j := by
  induction n with
  | zero => intro m i _ _; exact ⟨m, rfl, .rfl, fun j => by rw [if_neg (by omega)]⟩
  | succ n ih =>
    intro m i hc hr
    obtain ⟨m', e, hs, hm⟩ := ih (m.set i (.live v)) (i+1) (by simp [set]; omega) (fun j h1 h2 => by
      rw [set_cell, if_neg (by omega)]; exact hr j (by omega) (by omega))
    refine ⟨m', ?_, same_set.trans hs, fun j => ?_⟩
    · simp [fillNew, construct_ok v (show i < m.cap by omega) (hr i (by omega) (by omega)), e, bind, Except.bind]
    · rw [hm, set_cell]
      by_cases h1 : j = i
      · subst h1; simp
      · by_cases h2 : i + 1 ≤ j ∧ j < i + 1 + n
        · rw [if_pos h2, if_pos (by omega)]
        · rw [if_neg h2, if_neg h1, if_neg (by omega)]

theorem copyNew_ok (vs : List α) : ∀ (m : Mem α) (i : Nat), i + vs.length ≤ m.cap → (∀ j, i ≤ j → j < i + vs.length → m.cell j = .raw) →
    ∃ m', m.copyNew i vs = .ok m' ∧ Same m m' ∧
      ∀ j, m'.cell j = match (if i ≤ j then vs[j - i]? else none) with | some v => .live v | none => m.cell j := by
  induction vs with
  | nil => intro m i _ _; exact ⟨m, rfl, .rfl, fun j => by simp⟩
  | cons v vs ih =>
    intro m i hc hr
    simp only [List.length_cons] at hc hr
    obtain ⟨m', e, hs, hm⟩ := ih (m.set i (.live v)) (i+1) (by simp [set]; omega) (fun j h1 h2 => by
      rw [set_cell, if_neg (by omega)]; exact hr j (by omega) (by omega))
    refine ⟨m', ?_, same_set.trans hs, fun j => ?_⟩
    · simp [copyNew, construct_ok v (show i < m.cap by omega) (hr i (by omega) (by omega)), e, bind, Except.bind]
    · rw [hm, set_cell]
      by_cases h1 : j = i
      · subst h1; simp [show ¬ (j + 1 ≤ j) by omega]
      · by_cases h2 : i ≤ j
        · have e1 : j - i = (j - (i+1)) + 1 := by omega
          rw [if_pos (by omega), if_pos h2, e1, List.getElem?_cons_succ, if_neg h1]
        · rw [if_neg (by omega), if_neg h2, if_neg h1]

theorem moveNew_ok (n : Nat) : ∀ (m : Mem α) (src dst : Nat), src + n ≤ dst → dst + n ≤ m.cap →
    (∀ j, src ≤ j → j < src + n → ∃ v, m.cell j = .live v) → (∀ j, dst ≤ j → j < dst + n → m.cell j = .raw) →
    ∃ m', m.moveNew src n dst = .ok m' ∧ Same m m' ∧
      ∀ j, m'.cell j = if dst ≤ j ∧ j < dst + n then m.cell (j - dst + src) else if src ≤ j ∧ j < src + n then .moved else m.cell j := by
  induction n with
  | zero => intro m src dst _ _ _ _; exact ⟨m, rfl, .rfl, fun j => by rw [if_neg (by omega), if_neg (by omega)]⟩
  | succ n ih =>
    intro m src dst hsd hc hl hr
    obtain ⟨v, hv⟩ := hl src (by omega) (by omega)
    have hraw : (m.set src .moved).cell dst = .raw := by rw [set_cell, if_neg (by omega)]; exact hr dst (by omega) (by omega)
    obtain ⟨m', e, hs, hm⟩ := ih ((m.set src .moved).set dst (.live v)) (src+1) (dst+1) (by omega) (by simp [set]; omega)
      (fun j h1 h2 => by rw [set_cell, set_cell, if_neg (by omega), if_neg (by omega)]; exact hl j (by omega) (by omega))
      (fun j h1 h2 => by rw [set_cell, set_cell, if_neg (by omega), if_neg (by omega)]; exact hr j (by omega) (by omega))
    refine ⟨m', ?_, (same_set.trans same_set).trans hs, fun j => ?_⟩
    · simp [moveNew, take, read_ok (show src < m.cap by omega) hv, construct_ok v (show dst < (m.set src .moved).cap by simp [set]; omega) hraw, e, bind, Except.bind]
    · rw [hm]
      simp only [set_cell]
      by_cases h1 : j = dst
      · subst h1
        rw [if_neg (by omega), if_neg (by omega), if_pos rfl, if_pos (by omega), Nat.sub_self, Nat.zero_add, hv]
      · by_cases h2 : dst + 1 ≤ j ∧ j < dst + 1 + n
        · rw [if_pos h2, if_pos (show dst ≤ j ∧ j < dst + (n+1) by omega), if_neg (show ¬ (j - (dst+1) + (src+1) = dst) by omega),
            if_neg (show ¬ (j - (dst+1) + (src+1) = src) by omega)]
          congr 1; omega
        · rw [if_neg h2, if_neg (show ¬ (dst ≤ j ∧ j < dst + (n+1)) by omega)]
          by_cases h3 : src + 1 ≤ j ∧ j < src + 1 + n
          · rw [if_pos h3, if_pos (by omega)]
          · rw [if_neg h3, if_neg h1]
            by_cases h4 : j = src
            · rw [if_pos h4, if_pos (by omega)]
            · rw [if_neg h4, if_neg (by omega)]

theorem moveAssign_ok {m : Mem α} {src dst : Nat} {v : α} (hs : src < m.cap) (hd : dst < m.cap) (hv : m.cell src = .live v)
    (hne : src ≠ dst) (hr : m.cell dst ≠ .raw) :
    m.moveAssign src dst = .ok ((m.set src .moved).set dst (.live v)) := by
  have : (m.set src .moved).cell dst ≠ .raw := by rw [set_cell, if_neg (Ne.symm hne)]; exact hr
  simp [moveAssign, hne, take, read_ok hs hv, bind, Except.bind, assign_ok v (show dst < (m.set src .moved).cap from hd) this]

theorem moveAssign_self {m : Mem α} {i : Nat} {v : α} (hs : i < m.cap) (hv : m.cell i = .live v) (hsm : m.sms = true) :
    ∃ m', m.moveAssign i i = .ok m' ∧ Same m m' ∧ ∀ j, m'.cell j = m.cell j := by
  refine ⟨m.set i (.live v), by simp [moveAssign, read_ok hs hv, hsm, bind, Except.bind], same_set, fun j => ?_⟩
  rw [set_cell]; split
  · subst j; exact hv.symm
  · rfl

/-- Moving down in memory (`etl::move`, target before source). -/
theorem moveUp_ok (n : Nat) : ∀ (m : Mem α) (src dst : Nat), dst < src → src + n ≤ m.cap →
    (∀ j, src ≤ j → j < src + n → ∃ v, m.cell j = .live v) → (∀ j, dst ≤ j → j < src → m.cell j ≠ .raw) →
    ∃ m', m.moveUp src n dst = .ok m' ∧ Same m m' ∧
      ∀ j, m'.cell j = if dst ≤ j ∧ j < dst + n then m.cell (j - dst + src) else if src ≤ j ∧ j < src + n then .moved else m.cell j := by
  induction n with
  | zero => intro m src dst _ _ _ _; exact ⟨m, rfl, .rfl, fun j => by rw [if_neg (by omega), if_neg (by omega)]⟩
  | succ n ih =>
    intro m src dst hsd hc hl hr
    obtain ⟨v, hv⟩ := hl src (by omega) (by omega)
    obtain ⟨m', e, hs, hm⟩ := ih ((m.set src .moved).set dst (.live v)) (src+1) (dst+1) (by omega) (by simp [set]; omega)
      (fun j h1 h2 => by rw [set_cell, set_cell, if_neg (by omega), if_neg (by omega)]; exact hl j (by omega) (by omega))
      (fun j h1 h2 => by
        rw [set_cell, set_cell, if_neg (by omega)]
        split
        · simp
        · exact hr j (by omega) (by omega))
    refine ⟨m', ?_, (same_set.trans same_set).trans hs, fun j => ?_⟩
    · simp [moveUp, moveAssign_ok (show src < m.cap by omega) (show dst < m.cap by omega) hv (by omega) (hr dst (by omega) (by omega)), e, bind, Except.bind]
    · rw [hm]
      simp only [set_cell]
      by_cases h1 : j = dst
      · subst h1
        rw [if_neg (by omega), if_neg (by omega), if_pos rfl, if_pos (by omega), Nat.sub_self, Nat.zero_add, hv]
      · by_cases h2 : dst + 1 ≤ j ∧ j < dst + 1 + n
        · rw [if_pos h2, if_pos (show dst ≤ j ∧ j < dst + (n+1) by omega), if_neg (show ¬ (j - (dst+1) + (src+1) = dst) by omega),
            if_neg (show ¬ (j - (dst+1) + (src+1) = src) by omega)]
          congr 1; omega
        · rw [if_neg h2, if_neg (show ¬ (dst ≤ j ∧ j < dst + (n+1)) by omega)]
          by_cases h3 : src + 1 ≤ j ∧ j < src + 1 + n
          · rw [if_pos h3, if_pos (by omega)]
          · rw [if_neg h3, if_neg h1]
            by_cases h4 : j = src
            · rw [if_pos h4, if_pos (by omega)]
            · rw [if_neg h4, if_neg (by omega)]

theorem moveUp_self (n : Nat) : ∀ (m : Mem α) (src : Nat), m.sms = true → src + n ≤ m.cap →
    (∀ j, src ≤ j → j < src + n → ∃ v, m.cell j = .live v) →
    ∃ m', m.moveUp src n src = .ok m' ∧ Same m m' ∧ ∀ j, m'.cell j = m.cell j := by
  induction n with
  | zero => intro m src _ _ _; exact ⟨m, rfl, .rfl, fun _ => rfl⟩
  | succ n ih =>
    intro m src hsm hc hl
    obtain ⟨v, hv⟩ := hl src (by omega) (by omega)
    obtain ⟨m1, e1, s1, c1⟩ := moveAssign_self (show src < m.cap by omega) hv hsm
    obtain ⟨m', e, hs, hm⟩ := ih m1 (src+1) (by rw [s1.2, hsm]) (by rw [s1.1]; omega)
      (fun j h1 h2 => by rw [c1]; exact hl j (by omega) (by omega))
    exact ⟨m', by simp [moveUp, e1, e, bind, Except.bind], s1.trans hs, fun j => by rw [hm, c1]⟩

/-- Moving up in memory (`etl::move_backward`, target after source). -/
theorem moveDown_ok (n : Nat) : ∀ (m : Mem α) (last dlast : Nat), last < dlast → n ≤ last → dlast ≤ m.cap →
    (∀ j, last - n ≤ j → j < last → ∃ v, m.cell j = .live v) → (∀ j, last ≤ j → j < dlast → m.cell j ≠ .raw) →
    ∃ m', m.moveDown n last dlast = .ok m' ∧ Same m m' ∧
      ∀ j, m'.cell j = if dlast - n ≤ j ∧ j < dlast then m.cell (j - (dlast - last)) else if last - n ≤ j ∧ j < last then .moved else m.cell j := by
  induction n with
  | zero => intro m last dlast _ _ _ _ _; exact ⟨m, rfl, .rfl, fun j => by rw [if_neg (by omega), if_neg (by omega)]⟩
  | succ n ih =>
    intro m last dlast hsd hn hc hl hr
    obtain ⟨v, hv⟩ := hl (last-1) (by omega) (by omega)
    have hdr : m.cell (dlast - 1) ≠ .raw := hr _ (by omega) (by omega)
    obtain ⟨m', e, hs, hm⟩ := ih ((m.set (last-1) .moved).set (dlast-1) (.live v)) (last-1) (dlast-1) (by omega) (by omega) (by simp [set]; omega)
      (fun j h1 h2 => by rw [set_cell, set_cell, if_neg (by omega), if_neg (by omega)]; exact hl j (by omega) (by omega))
      (fun j h1 h2 => by
        rw [set_cell, set_cell, if_neg (by omega)]
        split
        · simp
        · exact hr j (by omega) (by omega))
    refine ⟨m', ?_, (same_set.trans same_set).trans hs, fun j => ?_⟩
    · simp [moveDown, moveAssign_ok (show last-1 < m.cap by omega) (show dlast-1 < m.cap by omega) hv (by omega) hdr, e, bind, Except.bind]
    · rw [hm]
      simp only [set_cell]
      by_cases h1 : j = dlast - 1
      · subst h1
        rw [if_neg (by omega), if_neg (by omega), if_pos rfl, if_pos (by omega)]
        have : dlast - 1 - (dlast - last) = last - 1 := by omega
        rw [this, hv]
      · by_cases h2 : dlast - 1 - n ≤ j ∧ j < dlast - 1
        · rw [if_pos h2, if_pos (show dlast - (n+1) ≤ j ∧ j < dlast by omega), if_neg (show ¬ (j - (dlast - 1 - (last - 1)) = dlast - 1) by omega),
            if_neg (show ¬ (j - (dlast - 1 - (last - 1)) = last - 1) by omega)]
          congr 1; omega
        · rw [if_neg h2, if_neg (show ¬ (dlast - (n+1) ≤ j ∧ j < dlast) by omega)]
          by_cases h3 : last - 1 - n ≤ j ∧ j < last - 1
          · rw [if_pos h3, if_pos (by omega)]
          · rw [if_neg h3, if_neg h1]
            by_cases h4 : j = last - 1
            · rw [if_pos h4, if_pos (by omega)]
            · rw [if_neg h4, if_neg (by omega)]

theorem moveDown_self (n : Nat) : ∀ (m : Mem α) (last : Nat), m.sms = true → n ≤ last → last ≤ m.cap →
    (∀ j, last - n ≤ j → j < last → ∃ v, m.cell j = .live v) →
    ∃ m', m.moveDown n last last = .ok m' ∧ Same m m' ∧ ∀ j, m'.cell j = m.cell j := by
  induction n with
  | zero => intro m last _ _ _ _; exact ⟨m, rfl, .rfl, fun _ => rfl⟩
  | succ n ih =>
    intro m last hsm hn hc hl
    obtain ⟨v, hv⟩ := hl (last - 1) (by omega) (by omega)
    obtain ⟨m1, e1, s1, c1⟩ := moveAssign_self (show last - 1 < m.cap by omega) hv hsm
    obtain ⟨m', e, hs, hm⟩ := ih m1 (last-1) (by rw [s1.2, hsm]) (by omega) (by rw [s1.1]; omega)
      (fun j h1 h2 => by rw [c1]; exact hl j (by omega) (by omega))
    exact ⟨m', by simp [moveDown, e1, e, bind, Except.bind], s1.trans hs, fun j => by rw [hm, c1]⟩

theorem fillN_ok (v : α) (n : Nat) : ∀ (m : Mem α) (i : Nat), i + n ≤ m.cap → (∀ j, i ≤ j → j < i + n → m.cell j ≠ .raw) →
    ∃ m', m.fillN i n v = .ok m' ∧ Same m m' ∧ ∀ j, m'.cell j = if i ≤ j ∧ j < i + n then .live v else m.cell j := by
  induction n with
  | zero => intro m i _ _; exact ⟨m, rfl, .rfl, fun j => by rw [if_neg (by omega)]⟩
  | succ n ih =>
    intro m i hc hr
    obtain ⟨m', e, hs, hm⟩ := ih (m.set i (.live v)) (i+1) (by simp [set]; omega) (fun j h1 h2 => by
      rw [set_cell, if_neg (by omega)]; exact hr j (by omega) (by omega))
    refine ⟨m', ?_, same_set.trans hs, fun j => ?_⟩
    · simp [fillN, assign_ok v (show i < m.cap by omega) (hr i (by omega) (by omega)), e, bind, Except.bind]
    · rw [hm, set_cell]
      by_cases h1 : j = i
      · subst h1; simp
      · by_cases h2 : i + 1 ≤ j ∧ j < i + 1 + n
        · rw [if_pos h2, if_pos (by omega)]
        · rw [if_neg h2, if_neg h1, if_neg (by omega)]

theorem copyTo_ok (vs : List α) : ∀ (m : Mem α) (i : Nat), i + vs.length ≤ m.cap → (∀ j, i ≤ j → j < i + vs.length → m.cell j ≠ .raw) →
    ∃ m', m.copyTo i vs = .ok m' ∧ Same m m' ∧
      ∀ j, m'.cell j = match (if i ≤ j then vs[j - i]? else none) with | some v => .live v | none => m.cell j := by
  induction vs with
  | nil => intro m i _ _; exact ⟨m, rfl, .rfl, fun j => by simp⟩
  | cons v vs ih =>
    intro m i hc hr
    simp only [List.length_cons] at hc hr
    obtain ⟨m', e, hs, hm⟩ := ih (m.set i (.live v)) (i+1) (by simp [set]; omega) (fun j h1 h2 => by
      rw [set_cell, if_neg (by omega)]; exact hr j (by omega) (by omega))
    refine ⟨m', ?_, same_set.trans hs, fun j => ?_⟩
    · simp [copyTo, assign_ok v (show i < m.cap by omega) (hr i (by omega) (by omega)), e, bind, Except.bind]
    · rw [hm, set_cell]
      by_cases h1 : j = i
      · subst h1; simp [show ¬ (j + 1 ≤ j) by omega]
      · by_cases h2 : i ≤ j
        · have e1 : j - i = (j - (i+1)) + 1 := by omega
          rw [if_pos (by omega), if_pos h2, e1, List.getElem?_cons_succ, if_neg h1]
        · rw [if_neg (by omega), if_neg h2, if_neg h1]

theorem destroyN_ok (n : Nat) : ∀ (m : Mem α) (i : Nat), i + n ≤ m.cap → (∀ j, i ≤ j → j < i + n → m.cell j ≠ .raw) →
    ∃ m', m.destroyN i n = .ok m' ∧ Same m m' ∧ ∀ j, m'.cell j = if i ≤ j ∧ j < i + n then .raw else m.cell j := by
  induction n with
  | zero => intro m i _ _; exact ⟨m, rfl, .rfl, fun j => by rw [if_neg (by omega)]⟩
  | succ n ih =>
    intro m i hc hr
    obtain ⟨m', e, hs, hm⟩ := ih (m.set i .raw) (i+1) (by simp [set]; omega) (fun j h1 h2 => by
      rw [set_cell, if_neg (by omega)]; exact hr j (by omega) (by omega))
    refine ⟨m', ?_, same_set.trans hs, fun j => ?_⟩
    · simp [destroyN, destroy_ok (show i < m.cap by omega) (hr i (by omega) (by omega)), e, bind, Except.bind]
    · rw [hm, set_cell]
      by_cases h1 : j = i
      · subst h1; simp
      · by_cases h2 : i + 1 ≤ j ∧ j < i + 1 + n
        · rw [if_pos h2, if_pos (by omega)]
        · rw [if_neg h2, if_neg h1, if_neg (by omega)]

/-- The cells `[0, cap)` hold exactly the list: live in front, raw behind. -/
def cellOf (l : List α) (j : Nat) : Cell α := match l[j]? with | some v => .live v | none => .raw

theorem cellOf_lt {l : List α} {j : Nat} (h : j < l.length) : cellOf l j = .live l[j] := by simp [cellOf, h]
theorem cellOf_ge {l : List α} {j : Nat} (h : l.length ≤ j) : cellOf l j = .raw := by simp [cellOf, h]

/-- The storage holds exactly the elements of `l` from index 0 on, everything behind them is raw. -/
def Holds (m : Mem α) (l : List α) : Prop := l.length ≤ m.cap ∧ ∀ j, m.cell j = cellOf l j

theorem Holds.live {m : Mem α} {l : List α} (h : Holds m l) {j : Nat} (hj : j < l.length) : ∃ v, m.cell j = .live v :=
  ⟨l[j], by rw [h.2, cellOf_lt hj]⟩
theorem Holds.notraw {m : Mem α} {l : List α} (h : Holds m l) {j : Nat} (hj : j < l.length) : m.cell j ≠ .raw := by
  rw [h.2, cellOf_lt hj]; simp
theorem Holds.israw {m : Mem α} {l : List α} (h : Holds m l) {j : Nat} (hj : l.length ≤ j) : m.cell j = .raw := by
  rw [h.2, cellOf_ge hj]

theorem readN_ok {m : Mem α} {l : List α} (h : Holds m l) (n : Nat) : ∀ i, i + n ≤ l.length → m.readN i n = .ok ((l.drop i).take n) := by
  induction n with
  | zero => intro i _; simp [readN]
  | succ n ih =>
    intro i hi
    have hl : i < l.length := by omega
    have : m.read i = .ok l[i] := read_ok (by have := h.1; omega) (by rw [h.2, cellOf_lt hl])
    simp only [readN, this, bind, Except.bind, ih (i+1) (by omega)]
    rw [List.drop_eq_getElem_cons hl, List.take_succ_cons]

theorem cellOf_ins (l vs : List α) (p : Nat) (hp : p ≤ l.length) (j : Nat) :
    cellOf (l.take p ++ vs ++ l.drop p) j =
      if j < p then cellOf l j else if j < p + vs.length then (match vs[j - p]? with | some v => .live v | none => .raw)
      else cellOf l (j - vs.length) := by
  unfold cellOf
  have e : min p l.length = p := by omega
  split_ifs with h1 h2
  · rw [List.append_assoc, List.getElem?_append_left (by simp; omega), List.getElem?_take_of_lt h1]
  · rw [List.append_assoc, List.getElem?_append_right (by simp; omega), List.getElem?_append_left (by simp; omega)]
    simp only [List.length_take, e]
  · rw [List.getElem?_append_right (by simp; omega), List.getElem?_drop]
    simp only [List.length_append, List.length_take, e]
    have : p + (j - (p + vs.length)) = j - vs.length := by omega
    rw [this]

theorem cellOf_ins1 (l : List α) (v : α) (p : Nat) (hp : p ≤ l.length) (j : Nat) :
    cellOf (l.take p ++ v :: l.drop p) j = if j < p then cellOf l j else if j = p then .live v else cellOf l (j - 1) := by
  have := cellOf_ins l [v] p hp j
  simp only [List.append_assoc, List.singleton_append, List.length_singleton] at this
  rw [this]
  split_ifs with h1 h2 h3 h4
  · rfl
  · subst h3; simp
  · omega
  · omega
  · rfl

theorem cellOf_insN (l : List α) (k : Nat) (v : α) (p : Nat) (hp : p ≤ l.length) (j : Nat) :
    cellOf (l.take p ++ List.replicate k v ++ l.drop p) j =
      if j < p then cellOf l j else if j < p + k then .live v else cellOf l (j - k) := by
  rw [cellOf_ins _ _ _ hp]
  simp only [List.length_replicate]
  split_ifs with h1 h2
  · rfl
  · rw [List.getElem?_replicate, if_pos (by omega)]
  · rfl

theorem cellOf_cut (l : List α) (a b : Nat) (hab : a ≤ b) (hb : b ≤ l.length) (j : Nat) :
    cellOf (l.take a ++ l.drop b) j = if j < a then cellOf l j else cellOf l (j + (b - a)) := by
  unfold cellOf
  have e : min a l.length = a := by omega
  split_ifs with h1
  · rw [List.getElem?_append_left (by simp; omega), List.getElem?_take_of_lt h1]
  · rw [List.getElem?_append_right (by simp; omega), List.getElem?_drop]
    simp only [List.length_take, e]
    have : b + (j - a) = j + (b - a) := by omega
    rw [this]

theorem cellOf_replicate (k : Nat) (v : α) (j : Nat) : cellOf (List.replicate k v) j = if j < k then .live v else .raw := by
  unfold cellOf; rw [List.getElem?_replicate]; split_ifs <;> rfl

theorem cellOf_snoc (l : List α) (v : α) (j : Nat) : cellOf (l ++ [v]) j = if j = l.length then .live v else cellOf l j := by
  unfold cellOf
  split_ifs with h
  · subst h; simp
  · by_cases h2 : j < l.length
    · rw [List.getElem?_append_left h2]
    · rw [List.getElem?_eq_none (by simp; omega), List.getElem?_eq_none (by omega)]

theorem cellOf_dropLast (l : List α) (j : Nat) : cellOf l.dropLast j = if j = l.length - 1 then .raw else cellOf l j := by
  unfold cellOf
  split_ifs with h
  · rw [List.getElem?_eq_none (by simp; omega)]
  · by_cases h2 : j < l.length - 1
    · rw [List.getElem?_dropLast, if_pos h2]
    · rw [List.getElem?_eq_none (by simp; omega), List.getElem?_eq_none (by omega)]

theorem cellOf_resize (l : List α) (k : Nat) (v : α) (j : Nat) :
    cellOf (l.take k ++ List.replicate (k - l.length) v) j = if j < k then (if j < l.length then cellOf l j else .live v) else .raw := by
  unfold cellOf
  split_ifs with h1 h2
  · rw [List.getElem?_append_left (by simp; omega), List.getElem?_take_of_lt h1]
  · rw [List.getElem?_append_right (by simp; omega), List.getElem?_replicate, if_pos (by simp; omega)]
  · rw [List.getElem?_eq_none (by simp; omega)]

end Mem
end Etl
