import Verif.Common.Rng
/-!
# The one-pass algorithms of include/etl/algorithm.h, over one memory

Every iterator is a position in one memory (a list), so source and destination may be the same or overlap; an access outside the memory is
undefined.  A user function carries a state (what it has been called with, or whatever it captured): `op s x` is the new state and the result.
Loops that test `first != last` take as fuel the size of the memory plus one: every turn accesses the cell of an advancing iterator, so a loop that
would go on longer leaves the memory first.  `TSize` is an integer: signed sizes may be negative, unsigned ones are never.
-/
namespace Etl.Algo.Loops
open Etl.Rng

variable {α σ : Type}

/-- `swap_ranges`, algorithm.h:159-171; `iter_swap` 127-146. -/
def swapRanges : Nat → List α → Nat → Nat → Nat → Res (List α × Nat)
  | 0, _, _, _, _ => .error .diverge
  | k + 1, m, first1, last1, first2 =>
    if first1 = last1 then .ok (m, first2) else do
      let m ← swp m first1 first2
      swapRanges k m (first1 + 1) last1 (first2 + 1)

/-- `generate`, algorithm.h:177-184. -/
def generate (gen : σ → σ × α) : Nat → σ → List α → Nat → Nat → Res (σ × List α)
  | 0, _, _, _, _ => .error .diverge
  | k + 1, s, m, db, de =>
    if db = de then .ok (s, m) else do
      let m ← wr m db (gen s).2
      generate gen k (gen s).1 m (db + 1) de

/-- `reverse_copy`, algorithm.h:219-230. -/
def reverseCopy : Nat → List α → Nat → Nat → Nat → Res (List α × Nat)
  | 0, _, _, _, _ => .error .diverge
  | k + 1, m, sb, se, db =>
    if sb = se then .ok (m, db)
    else if se = 0 then .error .outOfBounds
    else do
      let x ← rd m (se - 1)
      let m ← wr m db x
      reverseCopy k m sb (se - 1) (db + 1)

/-- `fill_n`, algorithm.h:572-582: `while (count != 0)`. -/
def fillN : Nat → List α → Nat → Int → α → Res (List α × Nat)
  | 0, _, _, _, _ => .error .diverge
  | k + 1, m, first, count, v =>
    if count = 0 then .ok (m, first) else do
      let m ← wr m first v
      fillN k m (first + 1) (count - 1) v

/-- `copy_n`, algorithm.h:245-257: `while (count != 0)`. -/
def copyN : Nat → List α → Nat → Int → Nat → Res (List α × Nat)
  | 0, _, _, _, _ => .error .diverge
  | k + 1, m, sb, count, db =>
    if count = 0 then .ok (m, db) else do
      let x ← rd m sb
      let m ← wr m db x
      copyN k m (sb + 1) (count - 1) (db + 1)

/-- `for_each`, algorithm.h:838-849; the function may change the element it is given. -/
def forEach (op : σ → α → σ × α) : Nat → σ → List α → Nat → Nat → Res (σ × List α)
  | 0, _, _, _, _ => .error .diverge
  | k + 1, s, m, first, last =>
    if first = last then .ok (s, m) else do
      let x ← rd m first
      let m ← wr m first (op s x).2
      forEach op k (op s x).1 m (first + 1) last

/-- `for_each_if`, algorithm.h:2549-2568. -/
def forEachIf (op : σ → α → σ × α) (p : α → Bool) : Nat → σ → List α → Nat → Nat → Res (σ × List α)
  | 0, _, _, _, _ => .error .diverge
  | k + 1, s, m, first, last =>
    if first = last then .ok (s, m) else do
      let x ← rd m first
      if p x then do
        let m ← wr m first (op s x).2
        forEachIf op p k (op s x).1 m (first + 1) last
      else forEachIf op p k s m (first + 1) last

/-- `for_each_n`, algorithm.h:2574-2590: `while (n-- > 0)`, the number of turns is the fuel `n.toNat`. -/
def forEachNLoop (op : σ → α → σ × α) : Nat → σ → List α → Nat → Res (σ × List α × Nat)
  | 0, s, m, first => .ok (s, m, first)
  | n + 1, s, m, first => do
      let x ← rd m first
      let m ← wr m first (op s x).2
      forEachNLoop op n (op s x).1 m (first + 1)
def forEachN (op : σ → α → σ × α) (s : σ) (m : List α) (first : Nat) (n : Int) : Res (σ × List α × Nat) := forEachNLoop op n.toNat s m first

/-- `for_each_n_if`, algorithm.h:2596-2618. -/
def forEachNIfLoop (op : σ → α → σ × α) (p : α → Bool) : Nat → σ → List α → Nat → Res (σ × List α × Nat)
  | 0, s, m, first => .ok (s, m, first)
  | n + 1, s, m, first => do
      let x ← rd m first
      if p x then do
        let m ← wr m first (op s x).2
        forEachNIfLoop op p n (op s x).1 m (first + 1)
      else forEachNIfLoop op p n s m (first + 1)
def forEachNIf (op : σ → α → σ × α) (p : α → Bool) (s : σ) (m : List α) (first : Nat) (n : Int) : Res (σ × List α × Nat) :=
  forEachNIfLoop op p n.toNat s m first

/-- `transform` of one range, algorithm.h:854-868. -/
def transform (op : σ → α → σ × α) : Nat → σ → List α → Nat → Nat → Nat → Res (σ × List α × Nat)
  | 0, _, _, _, _, _ => .error .diverge
  | k + 1, s, m, first1, last1, d =>
    if first1 = last1 then .ok (s, m, d) else do
      let x ← rd m first1
      let m ← wr m d (op s x).2
      transform op k (op s x).1 m (first1 + 1) last1 (d + 1)

/-- `transform` of two ranges, algorithm.h:870-885. -/
def transform2 (op : σ → α → α → σ × α) : Nat → σ → List α → Nat → Nat → Nat → Nat → Res (σ × List α × Nat)
  | 0, _, _, _, _, _, _ => .error .diverge
  | k + 1, s, m, first1, last1, first2, d =>
    if first1 = last1 then .ok (s, m, d) else do
      let x ← rd m first1
      let y ← rd m first2
      let m ← wr m d (op s x y).2
      transform2 op k (op s x y).1 m (first1 + 1) last1 (first2 + 1) (d + 1)

/-- `etl::advance` on a random access iterator (iterator.h): out of the memory is undefined. -/
def adv (m : List α) (p : Nat) (n : Int) : Res Nat := if 0 ≤ (p : Int) + n ∧ (p : Int) + n ≤ m.length then .ok ((p : Int) + n).toNat else .error .outOfBounds

/-- `transform_n`, algorithm.h:2650-2659 and 2673-2683. -/
def transformN (op : σ → α → σ × α) (s : σ) (m : List α) (first : Nat) (n : Int) (d : Nat) : Res (σ × List α) := do
  let last ← adv m first n
  let r ← transform op (m.length + 1) s m first last d
  .ok (r.1, r.2.1)
def transformN2 (op : σ → α → α → σ × α) (s : σ) (m : List α) (first1 first2 : Nat) (n : Int) (d : Nat) : Res (σ × List α) := do
  let last ← adv m first1 n
  let r ← transform2 op (m.length + 1) s m first1 last first2 d
  .ok (r.1, r.2.1)

/-- `transform_s`, algorithm.h:2623-2642. -/
def transformS (op : σ → α → σ × α) : Nat → σ → List α → Nat → Nat → Nat → Nat → Res (σ × List α × Nat)
  | 0, _, _, _, _, _, _ => .error .diverge
  | k + 1, s, m, ib, ie, ob, oe =>
    if ib ≠ ie ∧ ob ≠ oe then do
      let x ← rd m ib
      let m ← wr m ob (op s x).2
      transformS op k (op s x).1 m (ib + 1) ie (ob + 1) oe
    else .ok (s, m, ob)

/-- `transform_if` of one range, algorithm.h:2694-2712. -/
def transformIf (op : σ → α → σ × α) (p : α → Bool) : Nat → σ → List α → Nat → Nat → Nat → Res (σ × List α × Nat)
  | 0, _, _, _, _, _ => .error .diverge
  | k + 1, s, m, ib, ie, ob =>
    if ib = ie then .ok (s, m, ob) else do
      let x ← rd m ib
      if p x then do
        let m ← wr m ob (op s x).2
        transformIf op p k (op s x).1 m (ib + 1) ie (ob + 1)
      else transformIf op p k s m (ib + 1) ie ob

/-- `transform_if` of two ranges, algorithm.h:2724-2744. -/
def transformIf2 (op : σ → α → α → σ × α) (p : α → α → Bool) : Nat → σ → List α → Nat → Nat → Nat → Nat → Res (σ × List α × Nat)
  | 0, _, _, _, _, _, _ => .error .diverge
  | k + 1, s, m, ib1, ie1, ib2, ob =>
    if ib1 = ie1 then .ok (s, m, ob) else do
      let x ← rd m ib1
      let y ← rd m ib2
      if p x y then do
        let m ← wr m ob (op s x y).2
        transformIf2 op p k (op s x y).1 m (ib1 + 1) ie1 (ib2 + 1) (ob + 1)
      else transformIf2 op p k s m (ib1 + 1) ie1 (ib2 + 1) ob

/-- `transform_n_if` of one range, algorithm.h:2756-2774. -/
def transformNIfLoop (op : σ → α → σ × α) (p : α → Bool) : Nat → σ → List α → Nat → Nat → Res (σ × List α × Nat)
  | 0, s, m, _, ob => .ok (s, m, ob)
  | n + 1, s, m, ib, ob => do
      let x ← rd m ib
      if p x then do
        let m ← wr m ob (op s x).2
        transformNIfLoop op p n (op s x).1 m (ib + 1) (ob + 1)
      else transformNIfLoop op p n s m (ib + 1) ob
def transformNIf (op : σ → α → σ × α) (p : α → Bool) (s : σ) (m : List α) (ib : Nat) (n : Int) (ob : Nat) : Res (σ × List α × Nat) :=
  transformNIfLoop op p n.toNat s m ib ob

/-- `transform_n_if` of two ranges, algorithm.h:2787-2806. -/
def transformNIf2Loop (op : σ → α → α → σ × α) (p : α → α → Bool) : Nat → σ → List α → Nat → Nat → Nat → Res (σ × List α × Nat)
  | 0, s, m, _, _, ob => .ok (s, m, ob)
  | n + 1, s, m, ib1, ib2, ob => do
      let x ← rd m ib1
      let y ← rd m ib2
      if p x y then do
        let m ← wr m ob (op s x y).2
        transformNIf2Loop op p n (op s x y).1 m (ib1 + 1) (ib2 + 1) (ob + 1)
      else transformNIf2Loop op p n s m (ib1 + 1) (ib2 + 1) ob
def transformNIf2 (op : σ → α → α → σ × α) (p : α → α → Bool) (s : σ) (m : List α) (ib1 ib2 : Nat) (n : Int) (ob : Nat) : Res (σ × List α × Nat) :=
  transformNIf2Loop op p n.toNat s m ib1 ib2 ob

/-- `replace_if`, algorithm.h:905-917; `replace`, 889-901, tests `*first == old_value`. -/
def replaceIf (p : α → Bool) (v : α) : Nat → List α → Nat → Nat → Res (List α)
  | 0, _, _, _ => .error .diverge
  | k + 1, m, first, last =>
    if first = last then .ok m else do
      let x ← rd m first
      if p x then do
        let m ← wr m first v
        replaceIf p v k m (first + 1) last
      else replaceIf p v k m (first + 1) last
/-- `replace` takes `old_value` and `new_value` by reference: `*first == old_value` reads the cell `old` refers to on every turn, 889-901. -/
def replaceRef [DecidableEq α] : Nat → List α → Nat → Nat → Nat → Nat → Res (List α)
  | 0, _, _, _, _, _ => .error .diverge
  | k + 1, m, first, last, old, new =>
    if first = last then .ok m else do
      let x ← rd m first
      let o ← rd m old
      if x = o then do
        let v ← rd m new
        let m ← wr m first v
        replaceRef k m (first + 1) last old new
      else replaceRef k m (first + 1) last old new

/-- `partition_copy`, algorithm.h:1934-1958. -/
def partitionCopy (p : α → Bool) : Nat → List α → Nat → Nat → Nat → Nat → Res (List α × Nat × Nat)
  | 0, _, _, _, _, _ => .error .diverge
  | k + 1, m, b, e, dt, df =>
    if b = e then .ok (m, dt, df) else do
      let x ← rd m b
      if p x then do
        let m ← wr m dt x
        partitionCopy p k m (b + 1) e (dt + 1) df
      else do
        let m ← wr m df x
        partitionCopy p k m (b + 1) e dt (df + 1)

/-- `partition_point`, algorithm.h:1909-1925. -/
def partitionPoint (p : α → Bool) : Nat → List α → Nat → Nat → Res Nat
  | 0, _, _, _ => .error .diverge
  | k + 1, m, b, e =>
    if b = e then .ok b else do
      let x ← rd m b
      if !p x then .ok b else partitionPoint p k m (b + 1) e

/-- `copy_n_s` with an end of the destination, algorithm.h:2312-2329: the argument is the number of turns `n-- > 0` allows. -/
def copyNSEnd : Nat → List α → Nat → Nat → Nat → Res (List α × Nat)
  | 0, m, _, ob, _ => .ok (m, ob)
  | n + 1, m, ib, ob, oe =>
    if ob ≠ oe then do
      let x ← rd m ib
      let m ← wr m ob x
      copyNSEnd n m (ib + 1) (ob + 1) oe
    else .ok (m, ob)
/-- `copy_n_s` with the size of the destination, algorithm.h:2336-2354: `while ((n1-- > 0) && (n2-- > 0))`. -/
def copyNSSize : Nat → Nat → List α → Nat → Nat → Res (List α × Nat)
  | n1 + 1, n2 + 1, m, ib, ob => do
      let x ← rd m ib
      let m ← wr m ob x
      copyNSSize n1 n2 m (ib + 1) (ob + 1)
  | _, _, m, _, ob => .ok (m, ob)

/-- `copy_n_if`, algorithm.h:2392-2410. -/
def copyNIf (p : α → Bool) : Nat → List α → Nat → Nat → Res (List α × Nat)
  | 0, m, _, ob => .ok (m, ob)
  | n + 1, m, ib, ob => do
      let x ← rd m ib
      if p x then do
        let m ← wr m ob x
        copyNIf p n m (ib + 1) (ob + 1)
      else copyNIf p n m (ib + 1) ob

/-- `move_s` for iterators that are not random access, algorithm.h:2454-2473; `mv x` is what moving from an element holding `x` leaves there. -/
def moveS (mv : α → α) : Nat → List α → Nat → Nat → Nat → Nat → Res (List α × Nat)
  | 0, _, _, _, _, _ => .error .diverge
  | k + 1, m, ib, ie, ob, oe =>
    if ib ≠ ie ∧ ob ≠ oe then do
      let x ← rd m ib
      let m ← wr m ib (mv x)
      let m ← wr m ob x
      moveS mv k m (ib + 1) ie (ob + 1) oe
    else .ok (m, ob)
/-- `etl::move` of a range, algorithm.h:290-301. -/
def moveRange (mv : α → α) : Nat → List α → Nat → Nat → Nat → Res (List α × Nat)
  | 0, _, _, _, _ => .error .diverge
  | k + 1, m, sb, se, db =>
    if sb = se then .ok (m, db) else do
      let x ← rd m sb
      let m ← wr m sb (mv x)
      let m ← wr m db x
      moveRange mv k m (sb + 1) se (db + 1)
/-- `move_s` for random access iterators, algorithm.h:2427-2441. -/
def moveSRandom (mv : α → α) (m : List α) (ib ie ob oe : Nat) : Res (List α × Nat) :=
  let sSize := ie - ib
  let dSize := oe - ob
  let size := if sSize < dSize then sSize else dSize
  moveRange mv (m.length + 1) m ib (ib + size) ob

/-- `multimax(t, tx...)`, algorithm.h:3094-3104, and `multimax_compare`, 3114-3124, `multimax_iter`, 3172-3182, `multimax_iter_compare`, 3192-3202 (`lt` on the
elements the iterators point to): a function of the first argument and the list of the others; at least two arguments. -/
def multimax (lt : α → α → Bool) : α → α → List α → α
  | a, b, [] => if lt a b then b else a
  | t, a, b :: l => let r := multimax lt a b l; if lt t r then r else t
/-- `multimin`, algorithm.h:3133-3143, `multimin_compare`, 3153-3163, `multimin_iter`, 3211-3221, `multimin_iter_compare`, 3231-3241. -/
def multimin (lt : α → α → Bool) : α → α → List α → α
  | a, b, [] => if lt a b then a else b
  | t, a, b :: l => let r := multimin lt a b l; if lt t r then t else r

end Etl.Algo.Loops
