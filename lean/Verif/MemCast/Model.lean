/-
Model of /repo/include/etl/mem_cast.h: classes mem_cast and mem_cast_ptr.

The memory is a list of bytes. A value of a type `T` is the list of its `sizeof(T)` bytes (object lifetimes, padding and alignment of the accesses are not modelled).
`mem_cast` owns its buffer: it is a cast with the whole memory as its buffer; its checks without an offset are static assertions, the others are those of `mem_cast_ptr`.
`size_t` has `W` bits and its subtraction wraps.
-/
import Verif.Common.Res
import Verif.Binary.Model

namespace Etl.MemCast

abbrev Mem := List Nat

/-- `mem_cast_exception`s, l.53-86 -/
inductive Err where
  | size | null
  deriving DecidableEq

/-- The members `pbuffer` (`none`: null) and `buffer_size`, l.585-586. -/
structure Cast where
  base : Option Nat
  size : Nat
  deriving DecidableEq

/-- the default constructor, l.334-338: null, with the size `Undefined_Size` -/
def dflt (W : Nat) : Cast := ⟨none, 2 ^ W - 1⟩
/-- the constructor and `data(pbuffer, size)`, l.343-347, l.560-564; no size given: `Undefined_Size` -/
def make (W : Nat) (p : Option Nat) (size : Option Nat) : Cast := ⟨p, size.getD (2 ^ W - 1)⟩

/-- `size_t` subtraction -/
def sub (W a b : Nat) : Nat := (a + 2 ^ W - b) % 2 ^ W

/-- placement new of a value at `p` -/
def put (m : Mem) (p : Nat) (bs : List Nat) : Res Mem := if p + bs.length ≤ m.length then .ok (m.take p ++ bs ++ m.drop (p + bs.length)) else .error .outOfBounds
/-- reading a value of `n` bytes through a reference to `p` -/
def get (m : Mem) (p n : Nat) : Res (List Nat) := if p + n ≤ m.length then .ok ((m.drop p).take n) else .error .outOfBounds

/-- `assign(value)`, l.373-379 -/
def assign (m : Mem) (c : Cast) (bs : List Nat) : Res (Mem × Option Err) := match c.base with
  | none => .ok (m, some .null)
  | some p => if bs.length ≤ c.size then (match put m p bs with
    | .error u => .error u
    | .ok m => .ok (m, none)) else .ok (m, some .size)

/-- `assign_at_offset`, l.385-404; l.149-156 of `mem_cast` -/
def assignAt (W : Nat) (m : Mem) (c : Cast) (off : Nat) (bs : List Nat) : Res (Mem × Option Err) := match c.base with
  | none => .ok (m, some .null)
  | some p => if bs.length ≤ sub W c.size off then (match put m (p + off) bs with
    | .error u => .error u
    | .ok m => .ok (m, none)) else .ok (m, some .size)

/-- `ref<T>()`, l.457-479: where the reference points, or the error -/
def ref (c : Cast) (n : Nat) : Nat ⊕ Err := match c.base with
  | none => .inr .null
  | some p => if n ≤ c.size then .inl p else .inr .size

/-- `ref_at_offset<T>(offset)`, l.485-535; l.238-252 of `mem_cast` -/
def refAt (W : Nat) (c : Cast) (off n : Nat) : Nat ⊕ Err := match c.base with
  | none => .inr .null
  | some p => if n ≤ sub W c.size off then .inl (p + off) else .inr .size

/-- `emplace`, l.412-420, and `emplace_at_offset`, l.426-450: construct, then make the reference -/
def emplace (m : Mem) (c : Cast) (bs : List Nat) : Res (Mem × (Nat ⊕ Err)) := match assign m c bs with
  | .error u => .error u
  | .ok (m, some e) => .ok (m, .inr e)
  | .ok (m, none) => .ok (m, ref c bs.length)
def emplaceAt (W : Nat) (m : Mem) (c : Cast) (off : Nat) (bs : List Nat) : Res (Mem × (Nat ⊕ Err)) := match assignAt W m c off bs with
  | .error u => .error u
  | .ok (m, some e) => .ok (m, .inr e)
  | .ok (m, none) => .ok (m, refAt W c off bs.length)

/-- reading the value of `n` bytes at an offset: `ref_at_offset` and a read; `inr` is the error -/
def readAt (W : Nat) (m : Mem) (c : Cast) (off n : Nat) : Res (List Nat ⊕ Err) := match refAt W c off n with
  | .inr e => .ok (.inr e)
  | .inl p => match get m p n with
    | .error u => .error u
    | .ok bs => .ok (.inl bs)
def read (m : Mem) (c : Cast) (n : Nat) : Res (List Nat ⊕ Err) := match ref c n with
  | .inr e => .ok (.inr e)
  | .inl p => match get m p n with
    | .error u => .error u
    | .ok bs => .ok (.inl bs)

/-- `alignment()`, l.548-554: `size_t(1U) << count_trailing_zeros(p)` for the address `p` of the buffer, 64 bits -/
def alignment (address : Nat) : Res Nat := if 64 ≤ Binary.ctz64 address then .error .overflow else .ok (Binary.trunc 64 (1 <<< Binary.ctz64 address))

end Etl.MemCast
