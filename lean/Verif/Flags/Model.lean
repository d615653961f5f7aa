/-
Model of etl::flags: /repo/include/etl/flags.h l.51-389.

The unsigned type has `w` bits; MASK is a template argument.  Flags are variables, numbered.  The member templates that take the pattern as a template
argument (l.86-90, l.101-125, l.156-162, l.183-189, l.208-212, l.229-233, l.250-254) do what the functions with a parameter do and are not repeated.
-/
namespace Etl.Flags

variable {w : Nat}
abbrev World (w : Nat) := Nat → BitVec w
def put (s : World w) (i : Nat) (d : BitVec w) : World w := fun k => if k = i then d else s k

inductive Op (w : Nat)
  /-- `flags f;`, l.68-71 -/
  | make (i : Nat)
  /-- `flags f(pattern)`, l.73-76 -/
  | makeOf (i : Nat) (p : BitVec w)
  /-- `flags f(other)`, `f = other`, l.78-81, l.321-326 -/
  | copy (i j : Nat)
  /-- `set(pattern)`, `f |= pattern`, l.128-133, l.301-306 -/
  | set (i : Nat) (p : BitVec w)
  /-- `set(pattern, value)`, l.136-141 -/
  | setTo (i : Nat) (p : BitVec w) (value : Bool)
  /-- `clear()`, l.146-151 -/
  | clear (i : Nat)
  /-- `reset(pattern)`, l.165-170 -/
  | reset (i : Nat) (p : BitVec w)
  /-- `flip()`, l.175-180 -/
  | flipAll (i : Nat)
  /-- `flip(pattern)`, `f ^= pattern`, l.192-197, l.311-316 -/
  | flip (i : Nat) (p : BitVec w)
  /-- `value(pattern)`, `f = pattern`, l.273-278, l.331-336 -/
  | value (i : Nat) (p : BitVec w)
  /-- `f &= pattern`, l.291-296 -/
  | and (i : Nat) (p : BitVec w)
  /-- `swap`, l.341-345, l.383-386 -/
  | swap (i j : Nat)

def step (mask : BitVec w) (s : World w) : Op w → World w
  | .make i => put s i 0#w
  | .makeOf i p => put s i (p &&& mask)
  | .copy i j => put s i (s j)
  | .set i p => put s i (s i ||| (p &&& mask))
  | .setTo i p value => put s i (if value then s i ||| (p &&& mask) else s i &&& (~~~p &&& mask))
  | .clear i => put s i 0#w
  | .reset i p => put s i (s i &&& ~~~p)
  | .flipAll i => put s i (~~~(s i) &&& mask)
  | .flip i p => put s i (s i ^^^ (p &&& mask))
  | .value i p => put s i (p &&& mask)
  | .and i p => put s i (s i &&& p)
  | .swap i j => put (put s i (s j)) j (s i)
/-- a history of flags that are default constructed -/
def after (mask : BitVec w) (ops : List (Op w)) : World w := ops.foldl (step mask) fun _ => 0#w

/-- `test(pattern)`, l.93-96 -/
def test (d p : BitVec w) : Bool := decide (d &&& p ≠ 0#w)
/-- `all()`, l.202-205 -/
def all (mask d : BitVec w) : Bool := decide (d = mask)
/-- `all_of(pattern)`, l.215-218 -/
def allOf (mask d p : BitVec w) : Bool := decide (d &&& (p &&& mask) = p &&& mask)
/-- `none()`, l.223-226 -/
def none (mask d : BitVec w) : Bool := decide (d &&& mask = 0#w)
/-- `any_of(pattern)`, l.257-260 -/
def anyOf (mask d p : BitVec w) : Bool := decide (d &&& (p &&& mask) ≠ 0#w)
/-- `none_of(pattern)`, l.236-239 -/
def noneOf (mask d p : BitVec w) : Bool := !anyOf mask d p
/-- `any()`, l.244-247 -/
def any (mask d : BitVec w) : Bool := decide (d &&& mask ≠ 0#w)
/-- `operator ==`, l.365-368; `!=` is its negation -/
def equal (d e : BitVec w) : Bool := decide (d = e)

end Etl.Flags
