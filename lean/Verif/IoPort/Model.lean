/-!
# Model of the io ports

Source: `/repo/include/etl/io_port.h`.

A port of the type `T` with `n` bits (unsigned) reads and writes a `volatile` object.  The accesses are observable: they are recorded in a history, in order.
What a read gives is decided by the device, any function of the history of accesses and the address (a device may count, clear on reading, and so on).
`io_port_xx<T, Address>` (l.255-727) and `io_port_xx<T, 0>` (l.733-1375) differ in where the address is kept only; the second can be changed by `set_address` and assignment of ports.
Shifts by a negative number or by the width of the promoted type or more are undefined (`none`); the width is that of `int` at least.  Simplified: the overflow of `int` in a left shift of a promoted value is taken to wrap.
Not modelled: signed types.
-/
namespace Etl.IoPort

/-- An access to an address. -/
inductive Ev (n : Nat) where
  | rd (a : Nat) (v : BitVec n)
  | wr (a : Nat) (v : BitVec n)
  deriving DecidableEq, Repr

/-- What a read at an address gives after a history of accesses. -/
abbrev Device (n : Nat) := List (Ev n) → Nat → BitVec n

/-- The operators with an effect: `= / write`, `|=`, `&=`, `^=`, `<<=`, `>>=`. -/
inductive Op (n : Nat) where
  | write (v : BitVec n)
  | or (v : BitVec n)
  | and (v : BitVec n)
  | xor (v : BitVec n)
  | shl (k : Int)
  | shr (k : Int)

/-- The width of the promoted type: `int` is 32 bits. -/
def pwidth (n : Nat) : Nat := if n < 32 then 32 else n

/-- `temp op= value` for a `value_type`: l.330-391 (rw), l.653-702 (wos) and the same lines of the second specialisations -/
def apply {n : Nat} (x : BitVec n) : Op n → Option (BitVec n)
  | .write v => some v
  | .or v => some (x ||| v)
  | .and v => some (x &&& v)
  | .xor v => some (x ^^^ v)
  | .shl k => if 0 ≤ k ∧ k < pwidth n then some (x <<< k.toNat) else none
  | .shr k => if 0 ≤ k ∧ k < pwidth n then some (x >>> k.toNat) else none

/-! ## `io_port_rw` (l.255-420, l.734-934), `io_port_ro` (l.426-495, l.941-1042), `io_port_wo` (l.501-562, l.1049-1150) -/

/-- `read`, `operator value_type`: rw l.297-308, l.901-912, ro l.459-470, l.1023-1034 -/
def read {n : Nat} (d : Device n) (a : Nat) (h : List (Ev n)) : BitVec n × List (Ev n) := (d h a, h ++ [.rd a (d h a)])
/-- `operator ~`: l.395-398, l.869-872 -/
def inv {n : Nat} (d : Device n) (a : Nat) (h : List (Ev n)) : BitVec n × List (Ev n) := (~~~ (d h a), h ++ [.rd a (d h a)])
/-- `write`, `operator =`: rw l.313-325, l.917-929, wo l.526-537, l.1131-1142 -/
def write {n : Nat} (a : Nat) (v : BitVec n) (h : List (Ev n)) : List (Ev n) := h ++ [.wr a v]
/-- The operators of `io_port_rw`: l.313-391, l.809-865.  The compound ones read, compute and write. -/
def rwOp {n : Nat} (d : Device n) (a : Nat) (o : Op n) (h : List (Ev n)) : Option (List (Ev n)) :=
  match o with
  | .write v => some (write a v h)
  | o => match apply (d h a) o with
    | none => none
    | some t => some (h ++ [.rd a (d h a)] ++ [.wr a t])

/-! ## `io_port_wos`: write only with a shadow (l.568-727, l.1157-1375) -/

structure Wos (n : Nat) where
  addr : Nat
  shadow : BitVec n

/-- The constructors: l.586-589, l.1177-1190 -/
def Wos.new {n : Nat} (a : Nat) : Wos n := ⟨a, 0⟩
/-- The operators: l.634-704, l.1236-1287, l.1339-1353.  The shadow is updated, then written. -/
def Wos.op {n : Nat} (p : Wos n) (o : Op n) (h : List (Ev n)) : Option (Wos n × List (Ev n)) :=
  match apply p.shadow o with
  | none => none
  | some s => some (⟨p.addr, s⟩, h ++ [.wr p.addr s])
/-- `read`, `operator value_type`: l.618-629, l.1323-1334 -/
def Wos.read {n : Nat} (p : Wos n) : BitVec n := p.shadow
/-- `operator ~`: l.708-711, l.1291-1294 -/
def Wos.inv {n : Nat} (p : Wos n) : BitVec n := ~~~ p.shadow
/-- `set_address`: l.1299-1302.  Nothing is written. -/
def Wos.setAddress {n : Nat} (p : Wos n) (a : Nat) : Wos n := ⟨a, p.shadow⟩
/-- Assignment of a port to a port, l.1202-1207 -/
def Wos.assign {n : Nat} (_ q : Wos n) : Wos n := ⟨q.addr, q.shadow⟩

/-! ## The iterators (l.57-245): `*it` is the port, `++it` does nothing -/

/-- `copy(first, last, port.iter())` with a rw or wo port: `*out = *in; ++out; ++in` (`algorithm.h`) -/
def copyTo {n : Nat} (a : Nat) : List (BitVec n) → List (Ev n) → List (Ev n)
  | [], h => h
  | v :: l, h => copyTo a l (write a v h)
/-- The same with a wos port. -/
def Wos.copyTo {n : Nat} (p : Wos n) : List (BitVec n) → List (Ev n) → Option (Wos n × List (Ev n))
  | [], h => some (p, h)
  | v :: l, h => match p.op (.write v) h with
    | none => none
    | some (p, h) => Wos.copyTo p l h
/-- `copy_n(port.iter(), k, out)` with a rw or ro port -/
def copyFrom {n : Nat} (d : Device n) (a : Nat) : Nat → List (Ev n) → List (BitVec n) × List (Ev n)
  | 0, h => ([], h)
  | k + 1, h => ((read d a h).1 :: (copyFrom d a k (read d a h).2).1, (copyFrom d a k (read d a h).2).2)

/-! ## Programs -/

/-- The operations of a wos port. -/
def Wos.run {n : Nat} (p : Wos n) : List (Op n) → List (Ev n) → Option (Wos n × List (Ev n))
  | [], h => some (p, h)
  | o :: os, h => match p.op o h with
    | none => none
    | some (p, h) => Wos.run p os h
/-- The operations of rw ports at any addresses. -/
def rwRun {n : Nat} (d : Device n) : List (Nat × Op n) → List (Ev n) → Option (List (Ev n))
  | [], h => some h
  | (a, o) :: os, h => match rwOp d a o h with
    | none => none
    | some h => rwRun d os h

end Etl.IoPort
