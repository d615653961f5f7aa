import Verif.Common.Res

/-!
# Model of `etl::bresenham_line`

Source: `/repo/include/etl/bresenham_line.h`.

The coordinates have an integer type `T`; `cv` is the conversion to it (whatever it does to values that `T` does not have).  The work type is `int16_t`: with any
other the iterators do not compile, because `const_iterator` holds a `bresenham_line<T>*`, l.154-159.  Simplification: storing a value that the work type does
not have is the error `overflow`.
-/
namespace Etl.Line

structure Pt where
  x : Int
  y : Int
  deriving DecidableEq, Repr

/-- l.340-349 -/
structure St where
  first : Pt
  last : Pt
  coordinate : Pt
  xi : Int
  yi : Int
  dx : Int
  dy : Int
  balance : Int
  minor : Bool
  deriving DecidableEq, Repr

/-- Storing into a variable of the work type. -/
def fit (v : Int) : Res Int := if -32768 ≤ v ∧ v ≤ 32767 then .ok v else .error .overflow

/-- `y_is_major_axis`, l.295-298. -/
def yMajor (dx dy : Int) : Bool := decide (dx < dy)

/-- `initialise`, l.265-290. -/
def initialise (f l : Pt) : Res St := do
  let xi := if l.x < f.x then -1 else 1
  let yi := if l.y < f.y then -1 else 1
  let dx ← fit (if l.x < f.x then f.x - l.x else l.x - f.x)
  let dy ← fit (if l.y < f.y then f.y - l.y else l.y - f.y)
  if yMajor dx dy then do
    let dx ← fit (dx * 2)
    let balance ← fit (dx - dy)
    let dy ← fit (dy * 2)
    .ok ⟨f, l, f, xi, yi, dx, dy, balance, false⟩
  else do
    let dy ← fit (dy * 2)
    let balance ← fit (dy - dx)
    let dx ← fit (dx * 2)
    .ok ⟨f, l, f, xi, yi, dx, dy, balance, false⟩

/-- `next`, l.303-332. -/
def next (cv : Int → Int) (s : St) : Res St :=
  if yMajor s.dx s.dy then do
    let s ← if s.minor then do
        let b ← fit (s.balance - s.dy)
        .ok { s with coordinate := ⟨cv (s.coordinate.x + s.xi), s.coordinate.y⟩, balance := b }
      else .ok s
    let b ← fit (s.balance + s.dx)
    let s := { s with coordinate := ⟨s.coordinate.x, cv (s.coordinate.y + s.yi)⟩, balance := b }
    .ok { s with minor := decide (s.balance ≥ 0) }
  else do
    let s ← if s.minor then do
        let b ← fit (s.balance - s.dx)
        .ok { s with coordinate := ⟨s.coordinate.x, cv (s.coordinate.y + s.yi)⟩, balance := b }
      else .ok s
    let b ← fit (s.balance + s.dy)
    let s := { s with coordinate := ⟨cv (s.coordinate.x + s.xi), s.coordinate.y⟩, balance := b }
    .ok { s with minor := decide (s.balance ≥ 0) }

/-- `begin`, l.211-216: only the coordinate is reset. -/
def begin (s : St) : St := { s with coordinate := s.first }

/-- The loop `for (itr = begin(); itr != end(); ++itr) use(*itr);`: `operator++`, l.101-116, ends it at the last coordinate.  The points used, in order. -/
def walk (cv : Int → Int) : Nat → St → Res (St × List Pt)
  | 0, _ => .error .diverge
  | fuel + 1, s =>
    if s.coordinate = s.last then .ok (s, [s.coordinate])
    else
      match next cv s with
      | .error u => .error u
      | .ok s' =>
        match walk cv fuel s' with
        | .error u => .error u
        | .ok (s', ps) => .ok (s', s.coordinate :: ps)

/-- A complete iteration from `begin()`. -/
def iterate (cv : Int → Int) (fuel : Nat) (s : St) : Res (St × List Pt) := walk cv fuel (begin s)

/-- The first `n` increments of an iteration, abandoned then. -/
def advance (cv : Int → Int) : Nat → St → Res St
  | 0, s => .ok s
  | n + 1, s => match next cv s with | .error u => .error u | .ok s => advance cv n s

/-- `size`, l.243-253. -/
def size (s : St) : Int := if yMajor s.dx s.dy then s.dy / 2 + 1 else s.dx / 2 + 1

end Etl.Line
