import Verif.StdHash.Model
/-!
# `etl::poly_span<TBase, Extent>` (include/etl/poly_span.h)

A view of an array of objects of a type derived from `TBase`, seen as `TBase`s: the size of an element is a member, not a type.
Pointers are byte addresses.
-/
namespace Etl.PolySpan

/-- A poly_span.  `pbegin`, `element_size`, poly_span.h:610-612, 985-987.  `extent` is the template argument `Extent` of a span of fixed
extent (245-613) or the member `span_extent` of one with a dynamic extent (619-988); `fixed` tells which. -/
structure PSpan where
  fixed : Bool
  pbegin : Int
  esize : Nat
  extent : Nat
  deriving DecidableEq, Repr

/-- The iterator, poly_span.h:65-244. -/
structure Iter where
  ptr : Int
  esize : Nat
  deriving DecidableEq, Repr

/-- `iterator(pbegin_, index_, element_size_)`, poly_span.h:237-241. -/
def Iter.mk' (pbegin : Int) (index es : Nat) : Iter := ⟨pbegin + (index * es : Nat), es⟩

/-- `operator ++`, poly_span.h:118-130 -/
def Iter.inc (i : Iter) : Iter := { i with ptr := i.ptr + i.esize }
/-- `operator --`, poly_span.h:133-145 -/
def Iter.dec (i : Iter) : Iter := { i with ptr := i.ptr - i.esize }
/-- `operator +=`, `+`, poly_span.h:148-152, 198-211 -/
def Iter.add (i : Iter) (offset : Int) : Iter := { i with ptr := i.ptr + offset * i.esize }
/-- `operator -=`, `-`, poly_span.h:155-159, 214-227 -/
def Iter.sub (i : Iter) (offset : Int) : Iter := { i with ptr := i.ptr - offset * i.esize }
/-- `operator ==`, poly_span.h:162-165 -/
def Iter.eq (a b : Iter) : Bool := a.ptr == b.ptr && a.esize == b.esize
/-- `operator <`, poly_span.h:174-177 -/
def Iter.lt (a b : Iter) : Bool := decide (a.ptr < b.ptr)
/-- `operator >`, poly_span.h:186-189 -/
def Iter.gt (a b : Iter) : Bool := b.lt a
/-- `operator <=`, poly_span.h:180-183 -/
def Iter.le (a b : Iter) : Bool := !a.gt b
/-- `operator >=`, poly_span.h:192-195 -/
def Iter.ge (a b : Iter) : Bool := !a.lt b
/-- `operator -` of two iterators: the difference of two `TBase*`, poly_span.h:230-233: the distance in bytes divided by `sizeof(TBase)`. -/
def Iter.diff (sizeofBase : Nat) (a b : Iter) : Int := (a.ptr - b.ptr) / sizeofBase

/-- Construction from iterator and size, a range, a C array or an `etl::array`, poly_span.h:285-373, 655-752: for a fixed extent the size
of the source is ignored (iterators) or only required to be no greater than `Extent` (arrays: `N <= Extent`). -/
def construct (ext : Option Nat) (begin' : Int) (es n : Nat) : PSpan := match ext with
  | some e => ⟨true, begin', es, e⟩
  | none => ⟨false, begin', es, n⟩

/-- The protected constructor, poly_span.h:600-606, 958-964: `extent_` is ignored by a fixed extent, which is that of the type. -/
def sub (ext : Option Nat) (pbegin : Int) (offset extent es : Nat) : PSpan := match ext with
  | some e => ⟨true, pbegin + (offset * es : Nat), es, e⟩
  | none => ⟨false, pbegin + (offset * es : Nat), es, extent⟩

/-- `element_at`, poly_span.h:592-596, 979-983 -/
def elementAt (s : PSpan) (i : Nat) : Int := s.pbegin + (i * s.esize : Nat)
/-- `operator []`, poly_span.h:504-507, 879-882 -/
def index (s : PSpan) (i : Nat) : Int := elementAt s i
/-- `front`, poly_span.h:395-398, 768-771 -/
def front (s : PSpan) : Int := s.pbegin
/-- `back`, poly_span.h:403-406, 776-779 -/
def back (s : PSpan) : Int := elementAt s (s.extent - 1)
/-- `begin`, poly_span.h:419-422, 792-795 -/
def begin' (s : PSpan) : Iter := Iter.mk' s.pbegin 0 s.esize
/-- `end`, poly_span.h:427-430, 800-803 -/
def end' (s : PSpan) : Iter := Iter.mk' s.pbegin s.extent s.esize
/-- `empty`, poly_span.h:451-454, 824-827 -/
def empty (s : PSpan) : Bool := s.extent == 0
/-- `size`, poly_span.h:459-462, 832-835 -/
def size (s : PSpan) : Nat := s.extent
/-- `size_bytes`, poly_span.h:475-478, 848-851 -/
def sizeBytes (s : PSpan) : Nat := s.extent * s.esize

/-- The ways to make a span out of a span.  A template argument is a fixed extent. -/
inductive Sub where
  /-- `first<COUNT>()`, 512-516, 887-891 -/
  | firstT (count : Nat)
  /-- `first(count)`, 521-524, 896-899 -/
  | first (count : Nat)
  /-- `last<COUNT>()`, 529-533, 904-908 -/
  | lastT (count : Nat)
  /-- `last(count)`, 538-541, 913-916 -/
  | last (count : Nat)
  /-- `subspan<OFFSET, COUNT>()`, `COUNT` defaulted or not, 547-552, 922-927 -/
  | subspanT (offset : Nat) (count : Option Nat)
  /-- `subspan(offset, count)`, 574-578, 949-953 -/
  | subspan (offset : Nat) (count : Option Nat)
  deriving DecidableEq, Repr

/-- poly_span.h:509-578 for a fixed extent, 884-953 for a dynamic one. -/
def subview (s : PSpan) : Sub → PSpan
  | .firstT c => sub (some c) s.pbegin 0 c s.esize
  | .first c => sub none s.pbegin 0 c s.esize
  | .lastT c => sub (some c) s.pbegin (s.extent - c) c s.esize
  | .last c => sub none s.pbegin (s.extent - c) c s.esize
  | .subspanT o none => if s.fixed then sub (some (s.extent - o)) s.pbegin o s.extent s.esize else sub none s.pbegin o s.extent s.esize
  | .subspanT o (some c) => sub (some c) s.pbegin o c s.esize
  | .subspan o none => if s.fixed then sub none s.pbegin o s.extent s.esize else sub none s.pbegin o (s.extent - o) s.esize
  | .subspan o (some c) => sub none s.pbegin o c s.esize

/-- `for (it = begin(); it != end(); ++it)`: the addresses of the elements visited, at most `fuel` of them. -/
def visit (e : Iter) : Nat → Iter → List Int
  | 0, _ => []
  | fuel + 1, i => if i.eq e then [] else i.ptr :: visit e fuel i.inc

/-- `for (it = rbegin(); it != rend(); ++it)`; `std::reverse_iterator` dereferences the iterator before its base. -/
def visitBack (e : Iter) : Nat → Iter → List Int
  | 0, _ => []
  | fuel + 1, i => if i.eq e then [] else i.dec.ptr :: visitBack e fuel i.dec

/-- `hash<poly_span>`, poly_span.h:1033-1041: the bytes from `data()` to `data() + size()`, the latter in units of `TBase`. -/
def hash (z : StdHash.SizeT) (mem : Int → Fcs.Byte) (sizeofBase : Nat) (s : PSpan) : BitVec z.bits :=
  StdHash.genericHash z ((List.range (s.extent * sizeofBase)).map fun (i : Nat) => mem (s.pbegin + (i : Int)))

end Etl.PolySpan
