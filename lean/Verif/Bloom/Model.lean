import Verif.Bitset.Model

/-!
# Model of bloom_filter

Source: `/repo/include/etl/bloom_filter.h`.  `flags` is an `etl::bitset<WIDTH>` with the default 8 bit elements, modelled by `Verif.Bitset.Model`; `fold_bits` is modelled in `Verif.Binary.Model`.
-/
namespace Etl.Bloom
open Bitset

/-- Template arguments: the desired width, and the hash functions (64 bit results); `none` is the null hash. -/
structure Cfg (K : Type) where
  desired : Nat
  h1 : K → Nat
  h2 : Option (K → Nat)
  h3 : Option (K → Nat)

/-- `bitset<Desired_Width>`, whose `Allocated_Bits` is the width (`bitset_new.h` l.1856). -/
def Cfg.base {K : Type} (c : Cfg K) : Bitset.Cfg := ⟨c.desired, 3⟩
/-- `WIDTH`, bloom_filter.h l.83-87. -/
def Cfg.width {K : Type} (c : Cfg K) : Nat := c.base.ne * c.base.w
/-- the type of `flags`, l.183. -/
def Cfg.flags {K : Type} (c : Cfg K) : Bitset.Cfg := ⟨c.width, 3⟩

/-- `get_hash`, l.171-180. -/
def getHash {K : Type} (c : Cfg K) (h : K → Nat) (k : K) : Res Nat := Binary.foldBits 64 c.width.log2 (h k)

/-- `flags.set(position)`, raising nothing that the caller sees if it is outside. -/
def setFlag {K : Type} (c : Cfg K) (b : Buf) (h : K → Nat) (k : K) : Res Buf := match getHash c h k with
  | .error u => .error u
  | .ok p => match Bitset.set c.flags b p true with
    | .error u => .error u
    | .ok r => .ok (r.getD b)
/-- a hash that may be the null hash -/
def setOpt {K : Type} (c : Cfg K) (b : Buf) (h : Option (K → Nat)) (k : K) : Res Buf := match h with
  | .none => .ok b
  | some h => setFlag c b h k
/-- `add`, l.101-114. -/
def add {K : Type} (c : Cfg K) (b : Buf) (k : K) : Res Buf := do
  let b ← setFlag c b c.h1 k
  let b ← setOpt c b c.h2 k
  setOpt c b c.h3 k

/-- `flags[position]`: `operator []` does not check the position (`bitset_new.h` l.2523). -/
def flag {K : Type} (c : Cfg K) (b : Buf) (h : K → Nat) (k : K) : Res Bool := match getHash c h k with
  | .error u => .error u
  | .ok p => if c.flags.ne = 1 then sTest c.flags (b 0) p else mTest c.flags b p
def flagOpt {K : Type} (c : Cfg K) (b : Buf) (h : Option (K → Nat)) (k : K) : Res Bool := match h with
  | .none => .ok true
  | some h => flag c b h k
/-- `exists`, l.121-141. -/
def present {K : Type} (c : Cfg K) (b : Buf) (k : K) : Res Bool := do
  let e1 ← flag c b c.h1 k
  let e2 ← flagOpt c b c.h2 k
  let e3 ← flagOpt c b c.h3 k
  .ok (e1 && e2 && e3)
/-- `clear`, l.92-95. -/
def clear {K : Type} (c : Cfg K) (b : Buf) : Buf := resetAll c.flags b
/-- `count`, l.161-164. -/
def count {K : Type} (c : Cfg K) (b : Buf) : Nat := Bitset.count c.flags b
/-- `usage`, l.153-156. -/
def usage {K : Type} (c : Cfg K) (b : Buf) : Nat := 100 * count c b / c.width

end Etl.Bloom
