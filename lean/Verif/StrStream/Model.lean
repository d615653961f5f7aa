/-
Model of etl::string_stream: /repo/include/etl/basic_string_stream.h (l.42-281), the format specification and the manipulators of
/repo/include/etl/basic_format_spec.h (l.42-495), and the helpers for booleans, pointers, strings and string views of
/repo/include/etl/private/to_string_helper.h (l.91-134, l.439-492).  Integers are printed by `Etl.Arith.toString` (C39) and aligned by
`Etl.Arith.addAlignment`.

A character is a number.  The string the stream writes to is a list of characters and a capacity; its `insert` and `push_back` cut off at the
capacity (C37).  Floating point insertion is not modelled; nor is insertion of the stream's own string into itself.
-/
import Verif.Arith.Model

namespace Etl.StrStream
open Etl.Arith

/-- `basic_format_spec`, basic_format_spec.h l.201-495: `Fmt` and the boolalpha flag -/
structure Spec where
  f : Fmt := {}
  boolalpha : Bool := false

/-- `static_cast<uint_least8_t>`, and the conversion to the 8 bit parameter of `base_spec`, `width_spec` and `precision_spec`, l.47-96, l.262-266, l.338-342, l.356-360 -/
def u8 (n : Nat) : Nat := n % 256

/-- `clear`, l.246-256 -/
def Spec.clear (_ : Spec) : Spec := { f := { base := 10, width := 0, precision := 0, upper := false, left := false, showBase := false, fill := 32 }, boolalpha := false }
/-- `base`, l.262-266 -/
def Spec.base (s : Spec) (b : Nat) : Spec := { s with f := { s.f with base := u8 b } }
/-- `show_base`, l.320-324 -/
def Spec.showBase (s : Spec) (b : Bool) : Spec := { s with f := { s.f with showBase := b } }
/-- `width`, l.338-342 -/
def Spec.width (s : Spec) (w : Nat) : Spec := { s with f := { s.f with width := u8 w } }
/-- `precision`, l.356-360 -/
def Spec.precision (s : Spec) (p : Nat) : Spec := { s with f := { s.f with precision := u8 p } }
/-- `upper_case`, l.374-378 -/
def Spec.upperCase (s : Spec) (u : Bool) : Spec := { s with f := { s.f with upper := u } }
/-- `fill`, l.392-396 -/
def Spec.fill (s : Spec) (c : Nat) : Spec := { s with f := { s.f with fill := c } }
/-- `left`, l.410-414 -/
def Spec.left (s : Spec) : Spec := { s with f := { s.f with left := true } }
/-- `right`, l.428-432 -/
def Spec.right (s : Spec) : Spec := { s with f := { s.f with left := false } }
/-- `boolalpha`, l.446-450 -/
def Spec.setBoolalpha (s : Spec) (b : Bool) : Spec := { s with boolalpha := b }
/-- `operator ==`, l.463-473 -/
def Spec.eq (l r : Spec) : Bool :=
  l.f.base == r.f.base && l.f.width == r.f.width && l.f.precision == r.f.precision && l.f.upper == r.f.upper && l.f.left == r.f.left && l.boolalpha == r.boolalpha && l.f.showBase == r.f.showBase && l.f.fill == r.f.fill

/-- `str.insert(str.end(), first, last)` (C37) -/
def insertEnd (cap : Nat) (str s : List Nat) : List Nat := (str ++ s).take cap

/-- `add_boolean`, to_string_helper.h l.91-134 -/
def addBoolean (cap : Nat) (value : Bool) (str0 : List Nat) (s : Spec) (append : Bool) : List Nat :=
  let str := if append then str0 else []
  let start := str.length
  let str := if s.boolalpha then (if value then insertEnd cap str [116, 114, 117, 101] else insertEnd cap str [102, 97, 108, 115, 101])
    else (if value then push cap str 49 else push cap str 48)
  addAlignment cap str start s.f
/-- `add_string`, `add_string_view`, to_string_helper.h l.453-492 -/
def addString (cap : Nat) (value : List Nat) (str0 : List Nat) (s : Spec) (append : Bool) : List Nat :=
  let str := if append then str0 else []
  let start := str.length
  addAlignment cap (insertEnd cap str value) start s.f
/-- `add_pointer`, to_string_helper.h l.439-451: the address as an unsigned integer, never negative -/
def addPointer (cap : Nat) (p : Nat) (str0 : List Nat) (s : Spec) (append : Bool) : Res (List Nat) := addIntegral cap (p : Int) str0 s.f append false

/-- the stream: the text it refers to and its format, basic_string_stream.h l.273-274 -/
structure Stream where
  text : List Nat
  spec : Spec

/-- what can be put into a stream.  `int v` is any integral type of at most 32 bits, `int64_t` or `uint64_t`; characters are integers here (`to_string` of a `char` takes l.528-538 of to_string_helper.h). -/
inductive Item
  /-- `bool` -/
  | bool (b : Bool)
  /-- an integer -/
  | int (v : Int)
  /-- a pointer that is not a string -/
  | ptr (p : Nat)
  /-- a string, a string view, or a C string up to its terminator -/
  | str (s : List Nat)

/-- the operations on a stream, basic_string_stream.h l.56-269 -/
inductive Op
  /-- `set_format(spec)`, `ss << spec`, l.72-75, l.124-128 -/
  | format (s : Spec)
  /-- `ss << setbase(n)`, `bin`, `oct`, `dec`, `hex`, l.133-137 -/
  | setbase (n : Nat)
  /-- `ss << setw(n)`, l.142-146 -/
  | setw (n : Nat)
  /-- `ss << setfill(c)`, l.151-156 -/
  | setfill (c : Nat)
  /-- `ss << setprecision(n)`, l.161-165 -/
  | setprecision (n : Nat)
  /-- `ss << boolalpha`, `noboolalpha`, l.170-174 -/
  | boolalpha (b : Bool)
  /-- `ss << uppercase`, `nouppercase`, l.179-183 -/
  | uppercase (b : Bool)
  /-- `ss << showbase`, `noshowbase`, l.188-192 -/
  | showbase (b : Bool)
  /-- `ss << left`, l.197-201 -/
  | left
  /-- `ss << right`, l.206-210 -/
  | right
  /-- `ss << item`, l.215-269 -/
  | put (i : Item)
  /-- `ss.str(p)`, l.104-115 -/
  | str (s : List Nat)

/-- `ss << item`, l.215-269: always appending -/
def Stream.put (cap : Nat) (ss : Stream) : Item → Res Stream
  | .bool b => .ok { ss with text := addBoolean cap b ss.text ss.spec true }
  | .int v => match toString cap v ss.text ss.spec.f true with
    | .error u => .error u
    | .ok t => .ok { ss with text := t }
  | .ptr p => match addPointer cap p ss.text ss.spec true with
    | .error u => .error u
    | .ok t => .ok { ss with text := t }
  | .str s => .ok { ss with text := addString cap s ss.text ss.spec true }
/-- one operation, l.56-269; the manipulators convert their argument to 8 bits before the setter does (basic_format_spec.h l.139-161) -/
def Stream.step (cap : Nat) (ss : Stream) : Op → Res Stream
  | .format s => .ok { ss with spec := s }
  | .setbase n => .ok { ss with spec := ss.spec.base (u8 n) }
  | .setw n => .ok { ss with spec := ss.spec.width (u8 n) }
  | .setfill c => .ok { ss with spec := ss.spec.fill c }
  | .setprecision n => .ok { ss with spec := ss.spec.precision (u8 n) }
  | .boolalpha b => .ok { ss with spec := ss.spec.setBoolalpha b }
  | .uppercase b => .ok { ss with spec := ss.spec.upperCase b }
  | .showbase b => .ok { ss with spec := ss.spec.showBase b }
  | .left => .ok { ss with spec := ss.spec.left }
  | .right => .ok { ss with spec := ss.spec.right }
  | .put i => ss.put cap i
  | .str s => .ok { ss with text := s.take cap }
/-- a history -/
def Stream.run (cap : Nat) : Stream → List Op → Res Stream
  | ss, [] => .ok ss
  | ss, o :: os => match ss.step cap o with
    | .error u => .error u
    | .ok ss => Stream.run cap ss os

end Etl.StrStream
