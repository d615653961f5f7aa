import Verif.Str.Model
import Verif.View.Model

/-!
# Model of the string utilities, and of the character searches of `etl::string`

Source: `/repo/include/etl/string_utilities.h`, `/repo/include/etl/basic_string.h`.

Strings as in `Str`, views as in `View`.  Text given by a pointer (`trim_characters`, `delimiters`, the pairs of `replace_strings`) is the list of its characters before the null.
A loop that does not end is the error `diverge`.
-/
namespace Etl.StrUtil

open Etl.Str (St get put)

/-- The inner loop over the characters searched for, basic_string.h l.2090-2096, l.2175-2181; string_utilities.h l.527-535. -/
def oneOf (x : Nat) : List Nat → Bool
  | [] => false
  | y :: ys => if x == y then true else oneOf x ys

/-- The outer loop of `find_first_of` (`want = true`), basic_string.h l.2088-2097, and `find_first_not_of` (`false`), l.2260-2276: `n` positions to go. -/
def firstLoop (s : St) (d : List Nat) (want : Bool) : Nat → Nat → Res (Option Nat)
  | 0, _ => .ok none
  | n + 1, i => match get s i with
    | .error u => .error u
    | .ok x => if oneOf x d == want then .ok (some i) else firstLoop s d want n (i + 1)

/-- `find_first_of`, l.2084-2101, `find_first_not_of`, l.2256-2280; `none` is `npos`. -/
def findFirst (s : St) (d : List Nat) (want : Bool) (position : Nat) : Res (Option Nat) :=
  if position < s.size then firstLoop s d want (s.size - position) position else .ok none

/-- The loop of `find_last_of`, l.2172-2186, and `find_last_not_of`, l.2351-2371: `position + 1` steps to `rend()`. -/
def lastLoop (s : St) (d : List Nat) (want : Bool) : Nat → Res (Option Nat)
  | 0 => .ok none
  | p + 1 => match get s p with
    | .error u => .error u
    | .ok x => if oneOf x d == want then .ok (some p) else lastLoop s d want p

/-- `find_last_of`, l.2161-2189, `find_last_not_of`, l.2340-2373. -/
def findLast (s : St) (d : List Nat) (want : Bool) (position : Option Nat) : Res (Option Nat) :=
  if s.size = 0 then .ok none else lastLoop s d want (min (position.getD (s.size - 1)) (s.size - 1) + 1)

/-! ## string_utilities.h, strings -/

/-- `trim_from_left`, l.128-133.  An erased length of `npos` is `none`. -/
def trimFromLeft (s : St) (d : List Nat) : Res St := do
  let position ← findFirst s d false 0
  Str.erase s 0 position

/-- `trim_left`, l.175-188. -/
def trimLeft (s : St) (d : List Nat) : Res St := do
  match ← findFirst s d true 0 with
  | none => Str.clear s
  | some p => Str.erase s 0 (some p)

/-- `find_last_…(…) + 1`: `npos + 1` is 0. -/
def succ (r : Option Nat) : Nat := match r with
  | none => 0
  | some p => p + 1

/-- `trim_from_right`, l.218-222. -/
def trimFromRight (s : St) (d : List Nat) : Res St := do
  let r ← findLast s d false none
  Str.erase s (succ r) none

/-- `trim_right`, l.266-284. -/
def trimRight (s : St) (d : List Nat) : Res St := do
  match ← findLast s d true none with
  | none => Str.clear s
  | some p => if p + 1 ≠ s.size then Str.erase s (p + 1) none else .ok s

/-- `trim_from`, l.315-320. -/
def trimFrom (s : St) (d : List Nat) : Res St := do trimFromRight (← trimFromLeft s d) d

/-- `trim`, l.371-376. -/
def trim (s : St) (d : List Nat) : Res St := do trimRight (← trimLeft s d) d

/-- `left_n`, l.406-412. -/
def leftN (s : St) (n : Nat) : Res St := Str.eraseRange s (if n > s.size then s.size else n) s.size

/-- `right_n`, l.428-434. -/
def rightN (s : St) (n : Nat) : Res St := Str.eraseRange s 0 (s.size - (if n > s.size then s.size else n))

/-- The loop of `etl::reverse` on pointers, algorithm.h l.351-355, used by `reverse`, l.452-456: `j` is `--e`. -/
def reverseLoop (s : St) (i j : Nat) : Nat → Res St
  | 0 => .error .diverge
  | fuel + 1 =>
    if i < j then do
      let x ← get s i
      let y ← get s j
      let s ← put s i y
      let s ← put s j x
      reverseLoop s (i + 1) (j - 1) fuel
    else .ok s

/-- `reverse`, l.452-456, with algorithm.h l.347-357. -/
def reverse (s : St) : Res St := if s.size = 0 then .ok s else reverseLoop s 0 (s.size - 1) (s.size + 1)

/-- `while (i_begin != i_end) { *i_begin = f(*i_begin); ++i_begin; }`: `etl::replace` and `etl::transform` in place. -/
def mapLoop (f : Nat → Nat) (e : Nat) : Nat → Nat → St → Res St
  | 0, _, _ => .error .diverge
  | fuel + 1, i, s =>
    if i = e then .ok s
    else do
      let x ← get s i
      let s ← put s i (f x)
      mapLoop f e fuel (i + 1) s

/-- `replace_characters`, l.461-471. -/
def replaceChars (s : St) : List (Nat × Nat) → Res St
  | [] => .ok s
  | (a, b) :: ps => do
    let s ← mapLoop (fun x => if x = a then b else x) s.size (s.cap + 2) 0 s
    replaceChars s ps

/-- The loop `do { … } while (position != npos)` of `replace_strings`, l.489-497.  `none`: an assertion fails. -/
def replaceLoop (old new : List Nat) : Nat → Nat → St → Res (Option St)
  | 0, _, _ => .error .diverge
  | fuel + 1, position, s => do
    match ← Str.find s old old.length position with
    | none => .ok (some s)
    | some p => do
      match ← Str.replace s p (some old.length) new false with
      | none => .ok none
      | some s => replaceLoop old new fuel (p + new.length) s

/-- `replace_strings`, l.476-501. -/
def replaceStrings (fuel : Nat) (s : St) : List (List Nat × List Nat) → Res (Option St)
  | [] => .ok (some s)
  | (a, b) :: ps => do
    match ← replaceLoop a b fuel 0 s with
    | none => .ok none
    | some s => replaceStrings fuel s ps

/-- `pad_left`, l.758-768. -/
def padLeft (s : St) (n c : Nat) : Res (Option St) :=
  if min n s.cap > s.size then Str.insertAtN s 0 (min n s.cap - s.size) c else .ok (some s)

/-- `pad_right`, l.773-783. -/
def padRight (s : St) (n c : Nat) : Res (Option St) :=
  if min n s.cap > s.size then Str.insertAtN s s.size (min n s.cap - s.size) c else .ok (some s)

/-- `to_upper_case`, `to_lower_case`, l.815-828, for the function `f` (`toupper`, `tolower`). -/
def mapCase (f : Nat → Nat) (s : St) : Res St := mapLoop f s.size (s.cap + 2) 0 s

/-- `to_sentence_case`, l.833-842. -/
def sentence (up low : Nat → Nat) (s : St) : Res St := do
  let x ← get s 0
  let s ← put s 0 (up x)
  mapLoop low s.size (s.cap + 2) 1 s

/-! ## string_utilities.h, views -/

open Etl.View (View)

/-- The text behind a pointer, as the view `basic_string_view(text)`. -/
abbrev txt (d : List Nat) : View := View.whole d

/-- `trim_from_view_left`, l.150-162. -/
def vTrimFromLeft (m : List Nat) (v : View) (d : List Nat) : Res View := do
  match ← View.findFirst m d v (txt d) false 0 with
  | none => .ok { v with beg := v.fin }
  | some p => .ok { v with beg := v.beg + p }

/-- `trim_view_left`, l.195-211. -/
def vTrimLeft (m : List Nat) (v : View) (d : List Nat) : Res View := do
  match ← View.findFirst m d v (txt d) true 0 with
  | none => .ok { v with fin := v.beg }
  | some p => .ok { v with beg := v.beg + p }

/-- `trim_from_view_right`, l.239-251 (`last` is never `npos`). -/
def vTrimFromRight (m : List Nat) (v : View) (d : List Nat) : Res View := do
  let r ← View.findLast m d v (txt d) false none
  .ok { v with fin := v.beg + succ r }

/-- `trim_view_right`, l.291-307. -/
def vTrimRight (m : List Nat) (v : View) (d : List Nat) : Res View := do
  let r ← View.findLast m d v (txt d) true none
  .ok { v with fin := v.beg + succ r }

/-- `trim_from_view`, l.337-357 (`want = false`), and `trim_view`, l.383-403 (`true`). -/
def vTrimBoth (m : List Nat) (v : View) (d : List Nat) (want : Bool) : Res View := do
  let first ← View.findFirst m d v (txt d) want 0
  let last ← View.findLast m d v (txt d) want none
  .ok { v with beg := v.beg + first.getD 0, fin := v.beg + succ last }

/-- `left_n_view`, l.418-424; `*view.begin()` of a null view is undefined. -/
def vLeftN (v : View) (n : Nat) : Res View :=
  if v.null then .error .nullDeref else .ok { v with fin := v.beg + (if n > View.size v then View.size v else n) }

/-- `right_n_view`, l.440-446. -/
def vRightN (v : View) (n : Nat) : Res View := .ok { v with beg := v.beg + View.size v - (if n > View.size v then View.size v else n) }

/-- `find_first_of(first, last, delimiters)` on pointers, l.507-530: `n` characters from `i` to `last`. -/
def iterFirst (m : List Nat) (d : List Nat) : Nat → Nat → Res Nat
  | 0, i => .ok i
  | n + 1, i => match m[i]? with
    | none => .error .outOfBounds
    | some x => if oneOf x d then .ok i else iterFirst m d n (i + 1)

/-- The loop of `get_token`, l.722-747. -/
def tokenLoop (m : List Nat) (v : View) (d : List Nat) (ignoreEmpty : Bool) : Nat → View → Nat → Res (Option View)
  | 0, _, _ => .error .diverge
  | fuel + 1, view, position =>
    if !view.null && decide (view.fin + 1 - v.beg > View.size v) then .ok none
    else
      let position := if view.null then position else view.fin + 1 - v.beg
      if v.fin < v.beg + position then .error .outOfBounds
      else do
        let last ← iterFirst m d (v.fin - (v.beg + position)) (v.beg + position)
        if decide (last - (v.beg + position) ≠ 0) || !ignoreEmpty then .ok (some ⟨false, v.beg + position, last⟩)
        else tokenLoop m v d ignoreEmpty fuel ⟨false, v.beg + position, last⟩ position

/-- `get_token`, l.706-750. -/
def getToken (m : List Nat) (v : View) (d : List Nat) (lastView : Option View) (ignoreEmpty : Bool) : Res (Option View) :=
  if v.null then .ok none else tokenLoop m v d ignoreEmpty (View.size v + 2) (lastView.getD View.empty) 0

/-- The loop a user writes: `while (token = get_token(text, delimiters, token, ignore)) …`, at most `n` tokens. -/
def allTokens (m : List Nat) (v : View) (d : List Nat) (ignoreEmpty : Bool) : Nat → Option View → Res (List View)
  | 0, _ => .error .diverge
  | n + 1, last => do
    match ← getToken m v d last ignoreEmpty with
    | none => .ok []
    | some t => do .ok (t :: (← allTokens m v d ignoreEmpty n (some t)))

end Etl.StrUtil
