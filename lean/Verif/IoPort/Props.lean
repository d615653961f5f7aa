import Verif.IoPort.Model

/-!
# Properties of the io ports (C111)
-/
namespace Etl.IoPort

/-! ## Specification -/

/-- The value after an operation, as a number: what the bits of the result are; `none`: the shift is undefined. -/
def opSpec {n : Nat} (x : BitVec n) : Op n → Option (Nat → Bool)
  | .write v => some (fun i => v.getLsbD i)
  | .or v => some (fun i => x.getLsbD i || v.getLsbD i)
  | .and v => some (fun i => x.getLsbD i && v.getLsbD i)
  | .xor v => some (fun i => x.getLsbD i != v.getLsbD i)
  | .shl k => if 0 ≤ k ∧ k < (max 32 n : Nat) then some (fun i => decide (i < n) && decide (k.toNat ≤ i) && x.getLsbD (i - k.toNat)) else none
  | .shr k => if 0 ≤ k ∧ k < (max 32 n : Nat) then some (fun i => x.getLsbD (i + k.toNat)) else none

/-- The accesses of a history at one address. -/
def Ev.addr {n : Nat} : Ev n → Nat
  | .rd a _ => a
  | .wr a _ => a
def Ev.isRead {n : Nat} : Ev n → Bool
  | .rd _ _ => true
  | .wr _ _ => false

/-- The values of a variable that starts with `x`: one after each operation. -/
def values {n : Nat} (x : BitVec n) : List (Op n) → Option (List (BitVec n))
  | [] => some []
  | o :: os => match apply x o with
    | none => none
    | some y => (values y os).map (y :: ·)

/-- The device that is a memory: a read gives what was last written there. -/
def memory {n : Nat} (m : Nat → BitVec n) : Device n
  | [], a => m a
  | e :: h, a => memory (match e with | .rd _ _ => m | .wr b v => fun c => if c = b then v else m c) h a

/-! ## Theorems -/

/-- C111: the operators act bit by bit on the value. -/
theorem C111_ops {n : Nat} (x : BitVec n) (o : Op n) : (apply x o).map (fun y i => y.getLsbD i) = opSpec x o := by
  have hw : pwidth n = max 32 n := by unfold pwidth; split <;> omega
  cases o with
  | write v => rfl
  | or v => simp [apply, opSpec]
  | and v => simp [apply, opSpec]
  | xor v => simp [apply, opSpec]
  | shl k =>
    simp only [apply, opSpec, hw]
    split
    · simp only [Option.map_some, Option.some.injEq]
      funext i
      rw [BitVec.getLsbD_shiftLeft]
      by_cases h : i < k.toNat
      · rw [decide_eq_true h, decide_eq_false (by omega : ¬ k.toNat ≤ i)]; simp
      · rw [decide_eq_false h, decide_eq_true (by omega : k.toNat ≤ i)]; simp
    · rfl
  | shr k =>
    simp only [apply, opSpec, hw]
    split
    · simp only [Option.map_some, Option.some.injEq]
      funext i
      rw [BitVec.getLsbD_ushiftRight, Nat.add_comm]
    · rfl

/-- C111: an operator of `io_port_rw` makes, whatever the device does, exactly one write, to its address, of the result of the operation on the value that it read there just before; `=` does not read. -/
theorem C111_rw {n : Nat} (d : Device n) (a : Nat) (o : Op n) (h : List (Ev n)) :
    rwOp d a o h = (apply (d h a) o).map (fun y => h ++ ((match o with | .write _ => [] | _ => [.rd a (d h a)]) ++ [.wr a y])) := by
  cases o with
  | write v => rfl
  | shl k => simp only [rwOp]; cases apply (d h a) (.shl k) <;> simp
  | shr k => simp only [rwOp]; cases apply (d h a) (.shr k) <;> simp
  | or v => simp [rwOp, apply]
  | and v => simp [rwOp, apply]
  | xor v => simp [rwOp, apply]

/-- C111: `read` and `~` make one read and nothing else; `write` makes one write. -/
theorem C111_access {n : Nat} (d : Device n) (a : Nat) (v : BitVec n) (h : List (Ev n)) :
    read d a h = (d h a, h ++ [.rd a (d h a)]) ∧ inv d a h = (~~~ (d h a), h ++ [.rd a (d h a)]) ∧ write a v h = h ++ [.wr a v] := ⟨rfl, rfl, rfl⟩

/-- C111: a write only port with a shadow never reads the device: whatever the history of its operations, it writes to its address the values that a variable, zero at the start, has after each of them, in order; and `read` and `~` give the last of them. -/
theorem C111_wos {n : Nat} (os : List (Op n)) : ∀ (p : Wos n) (h : List (Ev n)),
    p.run os h = (values p.shadow os).map (fun l => (⟨p.addr, (p.shadow :: l).getLast (by simp)⟩, h ++ l.map (Ev.wr p.addr))) := by
  induction os with
  | nil => intro p h; simp [Wos.run, values]
  | cons o os ih =>
    intro p h
    simp only [Wos.run, Wos.op, values]
    cases apply p.shadow o with
    | none => rfl
    | some y =>
      simp only []
      rw [ih]
      cases values y os with
      | none => rfl
      | some l => simp

theorem C111_wos_new {n : Nat} (a : Nat) (os : List (Op n)) (h : List (Ev n)) (l : List (BitVec n)) (hl : values 0 os = some l) :
    ∃ p : Wos n, (Wos.new a).run os h = some (p, h ++ l.map (Ev.wr a)) ∧ p.read = (0 :: l).getLast (by simp) ∧ p.inv = ~~~ p.read ∧ p.addr = a ∧
      ∀ e ∈ l.map (Ev.wr a), e.isRead = false ∧ e.addr = a := by
  refine ⟨⟨a, (0 :: l).getLast (by simp)⟩, ?_, rfl, rfl, rfl, ?_⟩
  · rw [C111_wos]
    show (values 0 os).map _ = _
    rw [hl]; rfl
  · intro e he
    obtain ⟨v, _, rfl⟩ := List.mem_map.mp he
    exact ⟨rfl, rfl⟩

/-- C111: changing the address or assigning a port accesses nothing; the shadow goes with the assignment and stays with the change of address. -/
theorem C111_wos_address {n : Nat} (p q : Wos n) (a : Nat) (o : Op n) (h : List (Ev n)) :
    (p.setAddress a).op o h = (apply p.shadow o).map (fun y => (⟨a, y⟩, h ++ [.wr a y])) ∧ (p.assign q).op o h = q.op o h := by
  constructor
  · simp only [Wos.op, Wos.setAddress]; cases apply p.shadow o <;> rfl
  · rfl

theorem memory_append {n : Nat} (h k : List (Ev n)) : ∀ (m : Nat → BitVec n) (a : Nat), memory m (h ++ k) a = memory (memory m h) k a := by
  induction h with
  | nil => intro m a; rfl
  | cons e h ih =>
    intro m a
    rw [List.cons_append]
    show memory _ (h ++ k) a = _
    rw [ih]
    rfl

/-- Specification: a store of variables. -/
def storeRun {n : Nat} (m : Nat → BitVec n) : List (Nat × Op n) → Option (Nat → BitVec n)
  | [] => some m
  | (a, o) :: os => match apply (m a) o with
    | none => none
    | some y => storeRun (fun c => if c = a then y else m c) os

theorem rwRun_split {n : Nat} (m : Nat → BitVec n) (os : List (Nat × Op n)) : ∀ h : List (Ev n),
    (rwRun (memory m) os h).map (fun h' => memory m h') = storeRun (memory m h) os := by
  induction os with
  | nil => intro h; rfl
  | cons b os ih =>
    obtain ⟨a, o⟩ := b
    intro h
    simp only [rwRun, storeRun]
    rw [C111_rw]
    cases hy : apply (memory m h a) o with
    | none => rfl
    | some y =>
      simp only [Option.map_some]
      rw [ih]
      congr 1
      funext c
      rw [memory_append, memory_append]
      cases o <;> rfl

/-- C111: on a device that is a memory, read write ports are variables: after any history of operations of any ports, each address holds what the operations addressed to it made, one after the other, of its first value; ports at other addresses do not matter. -/
theorem C111_memory {n : Nat} (m : Nat → BitVec n) (os : List (Nat × Op n)) (h : List (Ev n)) (hr : rwRun (memory m) os [] = some h) (a : Nat) :
    ∃ l, values (m a) ((os.filter (fun b => b.1 = a)).map (·.2)) = some l ∧ memory m h a = (m a :: l).getLast (by simp) := by
  have hs : storeRun m os = some (memory m h) := by
    have := rwRun_split m os []
    rw [hr] at this
    exact this.symm
  revert hs
  generalize memory m h = r
  clear hr
  induction os generalizing m with
  | nil => intro hs; cases hs; exact ⟨[], rfl, rfl⟩
  | cons b os ih =>
    obtain ⟨c, o⟩ := b
    intro hs
    simp only [storeRun] at hs
    cases hy : apply (m c) o with
    | none => rw [hy] at hs; cases hs
    | some y =>
      rw [hy] at hs
      obtain ⟨l, h1, h2⟩ := ih _ hs
      by_cases hca : c = a
      · subst hca
        rw [if_pos (by first | rfl | trivial)] at h1
        simp only [if_true] at h2
        refine ⟨y :: l, ?_, ?_⟩
        · rw [List.filter_cons_of_pos (by simp), List.map_cons, values, hy]
          simp only []
          rw [h1]; rfl
        · rw [h2]; simp
      · rw [if_neg (fun e => hca e.symm)] at h1
        simp only [if_neg (fun e : a = c => hca e.symm)] at h2
        exact ⟨l, by rw [List.filter_cons_of_neg (by simpa using hca)]; exact h1, h2⟩

/-- C111: on a memory that starts with zeros, a port with a shadow is the same as a read write port, as long as nobody else writes there. -/
theorem C111_shadow_is_memory {n : Nat} (m : Nat → BitVec n) (a : Nat) (hm : m a = 0) (os : List (Op n)) (p : Wos n) (h : List (Ev n))
    (hr : (Wos.new a).run os [] = some (p, h)) : p.read = memory m h a := by
  rw [C111_wos] at hr
  change (values 0 os).map _ = _ at hr
  cases hv : values (0 : BitVec n) os with
  | none => rw [hv] at hr; cases hr
  | some l =>
    rw [hv] at hr
    simp only [Option.map_some, Option.some.injEq, Prod.mk.injEq] at hr
    obtain ⟨rfl, rfl⟩ := hr
    show (0 :: l).getLast _ = memory m ([] ++ l.map (Ev.wr a)) a
    rw [List.nil_append]
    clear hv
    have key : ∀ (l : List (BitVec n)) (m : Nat → BitVec n), memory m (l.map (Ev.wr a)) a = (m a :: l).getLast (by simp) := by
      intro l
      induction l with
      | nil => intro m; rfl
      | cons v l ih =>
        intro m
        rw [List.map_cons, memory, ih]
        simp
    rw [key]; simp only [hm]

/-- C111: copying a sequence to the iterator of a port writes its elements to the address, in order, and reads nothing; also through a shadow, which then is the last. -/
theorem C111_copy_to {n : Nat} (a : Nat) (l : List (BitVec n)) : ∀ h, copyTo a l h = h ++ l.map (Ev.wr a) := by
  induction l with
  | nil => intro h; simp [copyTo]
  | cons v l ih => intro h; rw [copyTo, ih, write]; simp

theorem C111_copy_to_wos {n : Nat} (l : List (BitVec n)) : ∀ (p : Wos n) (h : List (Ev n)),
    p.copyTo l h = some (⟨p.addr, (p.shadow :: l).getLast (by simp)⟩, h ++ l.map (Ev.wr p.addr)) := by
  induction l with
  | nil => intro p h; simp [Wos.copyTo]
  | cons v l ih =>
    intro p h
    simp only [Wos.copyTo, Wos.op, apply]
    rw [ih]; simp

/-- C111: copying `k` elements from the iterator of a port makes exactly `k` reads of the address and nothing else; element `i` is what the device gave to read `i`. -/
theorem C111_copy_from {n : Nat} (d : Device n) (a : Nat) (k : Nat) : ∀ h, (copyFrom d a k h).1.length = k ∧
    (copyFrom d a k h).2 = h ++ (copyFrom d a k h).1.map (Ev.rd a) ∧
    ∀ i (hi : i < (copyFrom d a k h).1.length), (copyFrom d a k h).1[i] = d (h ++ ((copyFrom d a k h).1.take i).map (Ev.rd a)) a := by
  induction k with
  | zero => intro h; refine ⟨rfl, by simp [copyFrom], ?_⟩; intro i hi; exact absurd hi (by simp [copyFrom])
  | succ k ih =>
    intro h
    obtain ⟨h1, h2, h3⟩ := ih (read d a h).2
    refine ⟨by simp [copyFrom, h1], ?_, ?_⟩
    · simp only [copyFrom]
      rw [h2]
      simp [read]
    · intro i hi
      cases i with
      | zero => simp [copyFrom, read]
      | succ i =>
        simp only [copyFrom, List.getElem_cons_succ, List.take_succ_cons, List.map_cons]
        rw [h3 i (by simpa [copyFrom] using hi)]
        simp [read]

/-! ## Examples -/

/-- A device that counts its reads. -/
def counter : Device 8 := fun h _ => BitVec.ofNat 8 h.length
example : copyFrom counter 5 3 [] = ([0, 1, 2], [.rd 5 0, .rd 5 1, .rd 5 2]) := by decide
example : ((Wos.new 7 : Wos 8).run [.or 0x11, .shl 2, .xor 0x0F] []).map (·.2) = some [.wr 7 0x11, .wr 7 0x44, .wr 7 0x4B] := by decide
example : (rwRun (memory (fun _ => (1 : BitVec 8))) [(3, .or 6), (4, .write 9), (3, .and 5)] []).map (fun h => (memory (fun _ => 1) h 3, memory (fun _ => 1) h 4)) = some (5, 9) := by decide
/-- A shift by the width of the promoted type is undefined. -/
example : rwOp counter 3 (.shl 32) [] = none := by decide
/-- FINDING: before its first write the value that a shadow gives is zero, whatever the register holds; and `set_address` keeps the shadow of the old register without writing it to the new one. -/
theorem shadow_differs_before_first_write : ∃ (m : Nat → BitVec 8) (p : Wos 8), p = Wos.new 3 ∧ p.read ≠ memory m [] 3 := ⟨fun _ => 1, _, rfl, by decide⟩
theorem set_address_keeps_shadow : ∃ (p : Wos 8) (h : List (Ev 8)), (Wos.new 3).op (.write 5) [] = some (p, h) ∧ (p.setAddress 4).read ≠ memory (fun _ => 0) h 4 :=
  ⟨⟨3, 5⟩, [.wr 3 5], rfl, by decide⟩

end Etl.IoPort
