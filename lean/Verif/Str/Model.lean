import Verif.Common.Res
import Verif.Algo.Range

/-!
# Model of etl::string

Source: `/repo/include/etl/basic_string.h` (`ibasic_string`, l.310-2729) and `/repo/include/etl/string.h` (`substr` and the constructors, l.66-272; `wstring.h`, `u16string.h`, `u32string.h` are the same with another character).

The buffer is a function with the valid indexes `0 … CAPACITY`; a character is a number, the null character is 0.  An iterator is an index.  The checks for truncation and the clearing after use are on (`ETL_HAS_STRING_TRUNCATION_CHECKS`,
`ETL_HAS_STRING_CLEAR_AFTER_USE`, the defaults), `ETL_HAS_ERROR_ON_STRING_TRUNCATION` is off (the default).  A failed `ETL_ASSERT` (exceptions on) is the result `none`; it is raised before anything is changed.
Simplification: `size_t` does not overflow, except in `find_impl`.
-/
namespace Etl.Str

/-- `current_size`, `CAPACITY`, `p_buffer` and the two flags, l.286-293, l.2606 -/
structure St where
  cap : Nat
  size : Nat
  buf : Nat → Nat
  trunc : Bool
  secure : Bool

/-- `p_buffer[i] = v` -/
def put (s : St) (i v : Nat) : Res St := if i ≤ s.cap then .ok { s with buf := upd s.buf i v } else .error .outOfBounds
/-- `p_buffer[i]` -/
def get (s : St) (i : Nat) : Res Nat := if i ≤ s.cap then .ok (s.buf i) else .error .outOfBounds
/-- the source of a range: characters elsewhere, or the characters of the string itself from an index on -/
inductive Src where
  | ext (l : List Nat) | own (first : Nat)
/-- `*(first + i)` -/
def Src.get (s : St) (i : Nat) : Src → Res Nat
  | .ext l => match l[i]? with
    | none => .error .outOfBounds
    | some v => .ok v
  | .own f => Str.get s (f + i)

/-- `etl::fill` of `n` characters from `p` on -/
def fillLoop (v : Nat) : Nat → Nat → St → Res St
  | 0, _, s => .ok s
  | n + 1, p, s => match put s p v with
    | .error u => .error u
    | .ok s => fillLoop v n (p + 1) s
/-- `etl::copy` of `n` characters inside the buffer, forwards -/
def copyLoop : Nat → Nat → Nat → St → Res St
  | 0, _, _, s => .ok s
  | n + 1, src, dst, s => match get s src with
    | .error u => .error u
    | .ok v => match put s dst v with
      | .error u => .error u
      | .ok s => copyLoop n (src + 1) (dst + 1) s
/-- `etl::copy_backward` of `n` characters inside the buffer; `src` and `dst` are where the ranges begin -/
def backLoop : Nat → Nat → Nat → St → Res St
  | 0, _, _, s => .ok s
  | n + 1, src, dst, s => match get s (src + n) with
    | .error u => .error u
    | .ok v => match put s (dst + n) v with
      | .error u => .error u
      | .ok s => backLoop n src dst s
/-- the loops `*position_++ = *first++`, l.1082-1085, l.1116-1119: `n` characters of the source from number `i` on -/
def readLoop (src : Src) : Nat → Nat → Nat → St → Res St
  | 0, _, _, s => .ok s
  | n + 1, i, p, s => match src.get s i with
    | .error u => .error u
    | .ok v => match put s p v with
      | .error u => .error u
      | .ok s => readLoop src n (i + 1) (p + 1) s

/-- `cleanup`, l.2588-2596 -/
def cleanup (s : St) : Res St := if s.secure then fillLoop 0 (s.cap - s.size) s.size s else .ok s
/-- `initialise`, l.2525-2533 -/
def initialise (s : St) : Res St := match cleanup { s with size := 0 } with
  | .error u => .error u
  | .ok s => match put s 0 0 with
    | .error u => .error u
    | .ok s => .ok { s with trunc := false }
/-- the constructor of `string<N>`, string.h l.82-86: whatever is in the buffer -/
def make (cap : Nat) (garbage : Nat → Nat) : Res St := initialise { cap, size := 0, buf := garbage, trunc := false, secure := false }

/-- the loop of `assign_impl`, l.2652-2655; the rest of the source is returned -/
def assignLoop : List Nat → St → Res (List Nat × St)
  | [], s => .ok ([], s)
  | v :: l, s => if s.size ≠ s.cap then (match put s s.size v with
    | .error u => .error u
    | .ok s => assignLoop l { s with size := s.size + 1 }) else .ok (v :: l, s)
/-- the end of `assign_impl`, l.2657-2674 -/
def assignEnd (rest : List Nat) (t sec : Bool) (s : St) : Res St := match put s s.size 0 with
  | .error u => .error u
  | .ok s => cleanup { s with trunc := !rest.isEmpty || t, secure := s.secure || sec }
/-- `assign_impl`, l.2643-2675; `assign` of a range, a pointer, a view, l.701-734 (`t`, `sec` false), of a string, l.668-674 (`t`, `sec` are its flags) -/
def assign (s : St) (l : List Nat) (t sec : Bool) : Res St := match initialise s with
  | .error u => .error u
  | .ok s => match assignLoop l s with
    | .error u => .error u
    | .ok (rest, s) => assignEnd rest t sec s
/-- `assign(other, subposition, sublength)`, l.682-695; `mem` is the memory from the begin of the other string on, `osize` its size; `none` is `npos` -/
def assignSub (s : St) (mem : List Nat) (osize sub : Nat) (len : Option Nat) (t sec : Bool) : Res (Option St) :=
  if sub ≤ osize then (if sub + (len.getD (osize - sub)) ≤ mem.length then (match assign s ((mem.drop sub).take (len.getD (osize - sub))) t sec with
      | .error u => .error u
      | .ok s => .ok (some s)) else .error .outOfBounds)
  else .ok none
/-- `assign(n, value)`, l.742-759 -/
def assignN (s : St) (n c : Nat) : Res St := match initialise s with
  | .error u => .error u
  | .ok s => match fillLoop c (min n s.cap) 0 { s with trunc := decide (n > s.cap) } with
    | .error u => .error u
    | .ok s => put { s with size := min n s.cap } (min n s.cap) 0
/-- `clear`, l.764-767 -/
def clear (s : St) : Res St := initialise s
/-- `resize`, l.477-503 -/
def resize (s : St) (n c : Nat) : Res St :=
  match (if min n s.cap > s.size then fillLoop c (min n s.cap - s.size) s.size { s with trunc := s.trunc || decide (n > s.cap) } else .ok { s with trunc := s.trunc || decide (n > s.cap) }) with
  | .error u => .error u
  | .ok s => match put { s with size := min n s.cap } (min n s.cap) 0 with
    | .error u => .error u
    | .ok s => cleanup s
/-- `uninitialized_resize`, l.524-530 -/
def uninitializedResize (s : St) (n : Nat) : Res St := put { s with size := min n s.cap } (min n s.cap) 0

/-- `resize_and_overwrite`, l.508-518: the operation is given the buffer and the number, changes the buffer and returns the new size; `none` is the error raised -/
def resizeAndOverwrite (s : St) (n : Nat) (op : (Nat → Nat) → Nat → (Nat → Nat) × Nat) : Res (Option St) :=
  if n > s.cap then .ok none
  else match put { s with buf := (op s.buf n).1, size := (op s.buf n).2 } (op s.buf n).2 0 with
    | .error u => .error u
    | .ok s => match cleanup s with
      | .error u => .error u
      | .ok s => .ok (some s)
/-- `fill`, l.537-540 -/
def fillAll (s : St) (c : Nat) : Res St := fillLoop c s.size 0 s

/-- `push_back`, l.774-791 -/
def pushBack (s : St) (c : Nat) : Res St :=
  if s.size ≠ s.cap then (match put s s.size c with
    | .error u => .error u
    | .ok s => put { s with size := s.size + 1 } (s.size + 1) 0)
  else .ok { s with trunc := true }
/-- `pop_back`, l.797-803 -/
def popBack (s : St) : Res St := if s.size ≠ 0 then put { s with size := s.size - 1 } (s.size - 1) 0 else .ok s

/-- `insert(position, value)`, l.902-946, before the terminator -/
def insertOneBody (s : St) (p c : Nat) : Res St :=
  if s.size < s.cap then (if p ≠ s.size then (match backLoop (s.size - p) p (p + 1) { s with size := s.size + 1 } with
      | .error u => .error u
      | .ok s => put s p c)
    else (match put s p c with
      | .error u => .error u
      | .ok s => .ok { s with size := s.size + 1 }))
  else (if p ≠ s.size then (match backLoop (s.size - 1 - p) p (p + 1) s with
      | .error u => .error u
      | .ok s => match put s p c with
        | .error u => .error u
        | .ok s => .ok { s with trunc := true })
    else .ok { s with trunc := true })
def insertOne (s : St) (p c : Nat) : Res St := match insertOneBody s p c with
  | .error u => .error u
  | .ok s => put s s.size 0

/-- the shifting of both inserts, l.999-1024, l.1089-1114: the flag, the new size and the move of the characters behind the place -/
def shift (s : St) (p n : Nat) : Res St :=
  if p + n + (s.size - p) > s.cap then backLoop (min (s.cap - p - n) (s.size - p)) p (p + n) { s with size := s.cap, trunc := true }
  else backLoop (min (s.cap - p - n) (s.size - p)) p (p + n) { s with size := s.size + n }
/-- `insert(position, n, value)`, l.954-1031 -/
def insertN (s : St) (p n c : Nat) : Res St :=
  if n = 0 then .ok s
  else if p ≥ s.cap then .ok { s with trunc := true }
  else if p + n ≥ s.cap then (match fillLoop c (s.cap - p) p { s with size := s.cap, trunc := s.trunc || decide (s.size + n > s.cap) } with
    | .error u => .error u
    | .ok s => put s s.size 0)
  else (match shift s p n with
    | .error u => .error u
    | .ok s => match fillLoop c n p s with
      | .error u => .error u
      | .ok s => put s s.size 0)
/-- `insert(position, first, last)`, l.1041-1125; `n` is `etl::distance(first, last)` -/
def insertRange (s : St) (p n : Nat) (src : Src) : Res St :=
  if n = 0 then .ok s
  else if p ≥ s.cap then .ok { s with trunc := true }
  else if p + n ≥ s.cap then (match readLoop src (s.cap - p) 0 p { s with size := s.cap, trunc := s.trunc || decide (s.size + n > s.cap) } with
    | .error u => .error u
    | .ok s => put s s.size 0)
  else (match shift s p n with
    | .error u => .error u
    | .ok s => match readLoop src n 0 p s with
      | .error u => .error u
      | .ok s => put s s.size 0)
/-- `insert(position, str)`, `insert(position, view)`, `insert(position, pointer)` and with a length, l.1144-1177, l.1240-1260; `append`, l.809-825, l.846-861, l.879-895, is this at `size()`.  `t` is the flag of a string as source. -/
def insertAt (s : St) (p : Nat) (l : List Nat) (t : Bool) : Res (Option St) :=
  if p ≤ s.size then (match insertRange s p l.length (.ext l) with
    | .error u => .error u
    | .ok s => .ok (some { s with trunc := s.trunc || t }))
  else .ok none
/-- the length of the part of a source, l.1191-1194, l.1225-1228; `none` is `npos` -/
def subLen (size sub : Nat) (len : Option Nat) : Nat := match len with
  | none => size - sub
  | some n => if sub + n > size then size - sub else n
/-- `insert(position, str, subposition, sublength)`, l.1186-1233; `append` of a part, l.833-840 -/
def insertSub (s : St) (p : Nat) (l : List Nat) (sub : Nat) (len : Option Nat) (t : Bool) : Res (Option St) :=
  if p ≤ s.size ∧ sub ≤ l.length then (match insertRange s p (subLen l.length sub len) (.ext (l.drop sub)) with
    | .error u => .error u
    | .ok s => .ok (some { s with trunc := s.trunc || t }))
  else .ok none
/-- `insert(position, n, c)`, l.1268-1274; `append(n, c)`, l.868-872, is this at `size()` -/
def insertAtN (s : St) (p n c : Nat) : Res (Option St) :=
  if p ≤ s.size then (match insertN s p n c with
    | .error u => .error u
    | .ok s => .ok (some s))
  else .ok none

/-- `erase(iterator)`, l.1297-1318 -/
def eraseOne (s : St) (p : Nat) : Res St :=
  if p < s.size then (match copyLoop (s.size - (p + 1)) (p + 1) p s with
    | .error u => .error u
    | .ok s => put { s with size := s.size - 1 } (s.size - 1) 0)
  else .error .outOfBounds
/-- `erase(first, last)`, l.1328-1346; `etl::copy` runs off when `last` is behind `end()` -/
def eraseRange (s : St) (a b : Nat) : Res St :=
  if a = b then .ok s
  else if b < a ∨ s.size < b then .error .outOfBounds
  else match copyLoop (s.size - b) b a s with
    | .error u => .error u
    | .ok s => match put { s with size := s.size - (b - a) } (s.size - (b - a)) 0 with
      | .error u => .error u
      | .ok s => cleanup s
/-- `size() - position` in `size_t`, l.1285 -/
def lim (s : St) (p : Nat) (len : Option Nat) : Nat := if p ≤ s.size then min (len.getD (s.size - p)) (s.size - p) else len.getD (2 ^ 64 + s.size - p)
/-- `erase(position, length)`, l.1282-1290; `none` is `npos` -/
def erase (s : St) (p : Nat) (len : Option Nat) : Res St := eraseRange s p (p + lim s p len)

/-- `replace(position, length, str)` and the same for a view and a pointer, l.1649-1686, l.1799-1850; the iterator versions, l.1694-1740, l.1818-1868, l.1911-1924, are `eraseRange` and `insertRange` -/
def replace (s : St) (p : Nat) (len : Option Nat) (l : List Nat) (t : Bool) : Res (Option St) :=
  if p ≤ s.size then (match erase s p (some (lim s p len)) with
    | .error u => .error u
    | .ok s => insertAt s p l t)
  else .ok none
/-- `replace(position, length, str, subposition, sublength)`, l.1745-1794 -/
def replaceSub (s : St) (p : Nat) (len : Option Nat) (l : List Nat) (sub : Nat) (sublen : Option Nat) (t : Bool) : Res (Option St) :=
  if p ≤ s.size ∧ sub ≤ l.length then (match erase s p (some (lim s p len)) with
    | .error u => .error u
    | .ok s => insertSub s p l sub (some (min (sublen.getD (l.length - sub)) (l.length - sub))) t)
  else .ok none
/-- `replace(position, length, n, c)`, l.1873-1887 -/
def replaceN (s : St) (p : Nat) (len : Option Nat) (n c : Nat) : Res (Option St) :=
  if p ≤ s.size then (match erase s p (some (lim s p len)) with
    | .error u => .error u
    | .ok s => insertAtN s p n c)
  else .ok none

/-- `strlen(p_buffer)` from `i` on -/
def strlenFrom (s : St) : Nat → Nat → Res Nat
  | 0, _ => .error .outOfBounds
  | fuel + 1, i => match get s i with
    | .error u => .error u
    | .ok v => if v = 0 then .ok i else strlenFrom s fuel (i + 1)
/-- `trim_to_terminator`, l.2501-2509 -/
def trimToTerminator (s : St) : Res St := match get s s.cap with
  | .error u => .error u
  | .ok v => match put { s with trunc := v != 0 } s.cap 0 with
    | .error u => .error u
    | .ok s => match strlenFrom s (s.cap + 1) 0 with
      | .error u => .error u
      | .ok n => .ok { s with size := n }
/-- `initialize_free_space`, l.2488-2494 -/
def initializeFreeSpace (s : St) : Res St := fillLoop 0 (s.cap + 1 - s.size) s.size { s with trunc := false }

/-- the characters `[first, first + n)`, as the algorithms read them -/
def slice (s : St) (first n : Nat) : List Nat := (List.range n).map (fun i => s.buf (first + i))
/-- `[begin(), end())` -/
def chars (s : St) : List Nat := slice s 0 s.size
/-- the buffer as a C string, `c_str()`, l.1351-1354: up to the first null -/
def cstr (s : St) : Res Nat := strlenFrom s (s.cap + 1) 0

/-- `substr`, string.h l.194-208; `other` is the new string -/
def substr (s : St) (p : Nat) (len : Option Nat) (garbage : Nat → Nat) : Res (Option St) := match make s.cap garbage with
  | .error u => .error u
  | .ok new => if p ≠ s.size then (if p < s.size then (match assign new (slice s p (min (len.getD (s.size - p)) (s.size - p))) false false with
      | .error u => .error u
      | .ok r => .ok (some r)) else .ok none)
    else .ok (some new)
/-- `copy`, l.1362-1383: what is written to the destination -/
def copy (s : St) (count : Option Nat) (pos : Nat) : List Nat := if pos < s.size then slice s pos (min (count.getD (s.size - pos)) (s.size - pos)) else []

/-- the loop of `compare`, l.2548-2583 -/
def cmp : List Nat → List Nat → Int
  | [], [] => 0
  | [], _ :: _ => -1
  | _ :: _, [] => 1
  | x :: xs, y :: ys => if x < y then -1 else if x > y then 1 else cmp xs ys
/-- `compare(str)`, l.1929-1947 -/
def compare (s : St) (l : List Nat) : Int := cmp (chars s) l
/-- `compare(position, length, str)`, l.1952-1963 -/
def compareSub (s : St) (p len : Nat) (l : List Nat) : Res (Option Int) := if p ≤ s.size then .ok (some (cmp (slice s p (min len (s.size - p))) l)) else .ok none
/-- `compare(position, length, view)`, l.1968-1975: the length is not limited -/
def compareView (s : St) (p len : Nat) (l : List Nat) : Res Int := if p + len ≤ s.cap + 1 then .ok (cmp (slice s p len) l) else .error .outOfBounds

/-- `find_impl`, l.2681-2698: `pos + sz` in `size_t`; the search begins at `begin() + pos` -/
def find (s : St) (l : List Nat) (sz pos : Nat) : Res (Option Nat) :=
  if (pos + sz) % 2 ^ 64 > s.size then .ok none
  else if pos ≤ s.size then .ok (if pos + Algo.search (fun x y => x == y) l (slice s pos (s.size - pos)) = s.size then none else some (pos + Algo.search (fun x y => x == y) l (slice s pos (s.size - pos))))
  else .error .outOfBounds
/-- `rfind_impl`, l.2704-2728 (with reverse iterators: the reversed characters); `none` is `npos` -/
def rfind (s : St) (l : List Nat) (pos : Option Nat) : Option Nat :=
  if l.length > s.size then none
  else if s.size - min (pos.getD s.size) s.size + Algo.search (fun x y => x == y) l.reverse ((chars s).reverse.drop (s.size - min (pos.getD s.size) s.size)) = s.size then none
  else some (s.size - l.length - (s.size - min (pos.getD s.size) s.size + Algo.search (fun x y => x == y) l.reverse ((chars s).reverse.drop (s.size - min (pos.getD s.size) s.size))))

end Etl.Str
