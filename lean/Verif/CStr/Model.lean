import Verif.Common.Res

/-!
# Model of the C string functions

Source: `/repo/include/etl/char_traits.h` (`char_traits`, l.116-279, and the free functions, l.281-384).

The memory is one array of `lim` characters, so that the arguments may overlap; a pointer is an index, the null pointer is `none` where a function tests it.  Reading or writing
outside the array is the error `outOfBounds`.  A character is its value as a number of the character type, signed or not.
`etl::copy_n` and `etl::fill_n` are the loops of `algorithm.h` (l.245-256, l.572-581); with the STL and C++20 they are the ones of the standard library.
-/
namespace Etl.CStr

/-- the memory -/
structure Mem where
  lim : Nat
  at_ : Nat → Int

/-- `*p` -/
def Mem.rd (m : Mem) (p : Nat) : Res Int := if p < m.lim then .ok (m.at_ p) else .error .outOfBounds
/-- `*p = c` -/
def Mem.wr (m : Mem) (p : Nat) (c : Int) : Res Mem := if p < m.lim then .ok { m with at_ := upd m.at_ p c } else .error .outOfBounds

/-- the loop of `length(str)`, l.146-149.  The argument `fuel` bounds the recursion; with `fuel > lim` the end of the array is met first. -/
def lengthLoop (m : Mem) : Nat → Nat → Nat → Res Nat
  | 0, _, _ => .error .diverge
  | f + 1, p, count => match m.rd p with
    | .error u => .error u
    | .ok c => if c ≠ 0 then lengthLoop m f (p + 1) (count + 1) else .ok count
/-- `length(str)`, l.140-153; `strlen(t)`, l.284-288 -/
def length (m : Mem) (str : Option Nat) : Res Nat := match str with
  | none => .ok 0
  | some p => lengthLoop m (m.lim + 1) p 0

/-- the loop of `length(str, max_length)`, l.162-165: `left` is `max_length - count` -/
def lengthMaxLoop (m : Mem) : Nat → Nat → Nat → Res Nat
  | 0, _, count => .ok count
  | left + 1, p, count => match m.rd p with
    | .error u => .error u
    | .ok c => if c ≠ 0 then lengthMaxLoop m left (p + 1) (count + 1) else .ok count
/-- `length(str, max_length)`, l.156-169; `strlen(t, max_length)`, l.293-297 -/
def lengthMax (m : Mem) (str : Option Nat) (max : Nat) : Res Nat := match str with
  | none => .ok 0
  | some p => lengthMaxLoop m max p 0

/-- `etl::fill_n`, algorithm.h l.572-581 -/
def fillN (m : Mem) (p : Nat) (c : Int) : Nat → Res Mem
  | 0 => .ok m
  | n + 1 => match m.wr p c with
    | .error u => .error u
    | .ok m => fillN m (p + 1) c n
/-- `assign(p, n, c)`, l.178-186 -/
def assign (m : Mem) (p : Option Nat) (n : Nat) (c : Int) : Res Mem := match p with
  | none => .ok m
  | some p => fillN m p c n

/-- `etl::copy_n(src, count, dst)` with pointers, algorithm.h l.245-256 -/
def copyN (m : Mem) (src dst : Nat) : Nat → Res Mem
  | 0 => .ok m
  | n + 1 => match m.rd src with
    | .error u => .error u
    | .ok c => match m.wr dst c with
      | .error u => .error u
      | .ok m => copyN m (src + 1) (dst + 1) n
/-- `etl::copy_n` with `reverse_iterator`s based at `src` and `dst`, algorithm.h l.245-256: `*it` is the character before the base, `++it` moves the base down -/
def copyRev (m : Mem) (src dst : Nat) : Nat → Res Mem
  | 0 => .ok m
  | n + 1 => match m.rd (src - 1) with
    | .error u => .error u
    | .ok c => match m.wr (dst - 1) c with
      | .error u => .error u
      | .ok m => copyRev m (src - 1) (dst - 1) n
/-- `move`, l.189-203 -/
def move (m : Mem) (dst src count : Nat) : Res Mem :=
  if dst < src ∨ dst > src + count then copyN m src dst count else copyRev m (src + count) (dst + count) count
/-- `copy`, l.206-211 -/
def copy (m : Mem) (dst src count : Nat) : Res Mem := copyN m src dst count

/-- `compare`, l.214-232 -/
def compare (m : Mem) (s1 s2 : Nat) : Nat → Res Int
  | 0 => .ok 0
  | n + 1 => match m.rd s1 with
    | .error u => .error u
    | .ok c1 => match m.rd s2 with
      | .error u => .error u
      | .ok c2 => if c1 < c2 then .ok (-1) else if c1 > c2 then .ok 1 else compare m (s1 + 1) (s2 + 1) n

/-- `find`, l.235-248 -/
def find (m : Mem) (p : Nat) (ch : Int) : Nat → Res (Option Nat)
  | 0 => .ok none
  | n + 1 => match m.rd p with
    | .error u => .error u
    | .ok c => if c = ch then .ok (some p) else find m (p + 1) ch n

/-- the condition `(*t1 != 0) || (*t2 != 0)` of l.305, l.330: the second character is read only if the first is 0 -/
def more (m : Mem) (t1 t2 : Nat) : Res Bool := match m.rd t1 with
  | .error u => .error u
  | .ok c => if c ≠ 0 then .ok true else match m.rd t2 with
    | .error u => .error u
    | .ok d => .ok (d != 0)
/-- `strcmp`, l.302-322; for `fuel` see `lengthLoop` -/
def strcmpLoop (m : Mem) : Nat → Nat → Nat → Res Int
  | 0, _, _ => .error .diverge
  | f + 1, t1, t2 => match more m t1 t2 with
    | .error u => .error u
    | .ok false => .ok 0
    | .ok true => match m.rd t1 with
      | .error u => .error u
      | .ok c => match m.rd t2 with
        | .error u => .error u
        | .ok d => if c > d then .ok 1 else if c < d then .ok (-1) else strcmpLoop m f (t1 + 1) (t2 + 1)
def strcmp (m : Mem) (t1 t2 : Nat) : Res Int := strcmpLoop m (m.lim + 1) t1 t2
/-- `strncmp`, l.327-347: the characters are read before `n` is tested -/
def strncmp (m : Mem) (t1 t2 : Nat) : Nat → Res Int
  | 0 => match more m t1 t2 with
    | .error u => .error u
    | .ok _ => .ok 0
  | n + 1 => match more m t1 t2 with
    | .error u => .error u
    | .ok false => .ok 0
    | .ok true => match m.rd t1 with
      | .error u => .error u
      | .ok c => match m.rd t2 with
        | .error u => .error u
        | .ok d => if c < d then .ok (-1) else if c > d then .ok 1 else strncmp m (t1 + 1) (t2 + 1) n

/-- `strcpy`, l.352-365; for `fuel` see `lengthLoop` -/
def strcpyLoop (m : Mem) : Nat → Nat → Nat → Res Mem
  | 0, _, _ => .error .diverge
  | f + 1, dst, src => match m.rd src with
    | .error u => .error u
    | .ok c => if c ≠ 0 then (match m.wr dst c with
        | .error u => .error u
        | .ok m => strcpyLoop m f (dst + 1) (src + 1))
      else m.wr dst 0
def strcpy (m : Mem) (dst src : Nat) : Res Mem := strcpyLoop m (m.lim + 1) dst src
/-- `strncpy`, l.370-384: the character is read before `n` is tested, and a terminator is always written -/
def strncpy (m : Mem) (dst src : Nat) : Nat → Res Mem
  | 0 => match m.rd src with
    | .error u => .error u
    | .ok _ => m.wr dst 0
  | n + 1 => match m.rd src with
    | .error u => .error u
    | .ok c => if c ≠ 0 then (match m.wr dst c with
        | .error u => .error u
        | .ok m => strncpy m (dst + 1) (src + 1) n)
      else m.wr dst 0

/-! ## Characters and `int_type` (l.48-111, l.251-278) -/

/-- an integral type of the target: its width and whether it is signed -/
structure IType where
  bits : Nat
  signed : Bool
/-- the values of the type -/
def IType.has (t : IType) (x : Int) : Prop := if t.signed then -(2 : Int) ^ (t.bits - 1) ≤ x ∧ x < (2 : Int) ^ (t.bits - 1) else 0 ≤ x ∧ x < (2 : Int) ^ t.bits
instance (t : IType) (x : Int) : Decidable (t.has x) := by unfold IType.has; split <;> infer_instance
/-- `static_cast<T>(x)` -/
def IType.cast (t : IType) (x : Int) : Int := if t.signed then x.bmod (2 ^ t.bits) else x % (2 : Int) ^ t.bits

/-- `char_type` and `int_type`, l.48-111; `char` is signed or not, `wchar_t` has 16 or 32 bits, as the target has it -/
structure Types where
  chr : IType
  int : IType
def charT (signed : Bool) : Types := ⟨⟨8, signed⟩, ⟨32, true⟩⟩
def scharT : Types := ⟨⟨8, true⟩, ⟨32, true⟩⟩
def ucharT : Types := ⟨⟨8, false⟩, ⟨32, true⟩⟩
def wcharT (bits : Nat) (signed : Bool) : Types := ⟨⟨bits, signed⟩, ⟨16, false⟩⟩
def char8T : Types := ⟨⟨8, false⟩, ⟨32, false⟩⟩
def char16T : Types := ⟨⟨16, false⟩, ⟨16, false⟩⟩
def char32T : Types := ⟨⟨32, false⟩, ⟨32, false⟩⟩

/-- `to_char_type`, l.251-254 -/
def toChar (t : Types) (c : Int) : Int := t.chr.cast c
/-- `to_int_type`, l.257-260 -/
def toInt (t : Types) (c : Int) : Int := t.int.cast c
/-- `eof`, l.269-272 -/
def eof (t : Types) : Int := t.int.cast (-1)
/-- `not_eof`, l.275-278 -/
def notEof (t : Types) (e : Int) : Int := if e = eof t then t.int.cast (eof t - 1) else e

end Etl.CStr
