/-!
# Model of the random number generators

Source: `/repo/include/etl/random.h`.

`uint32_t` and `uint64_t` are `BitVec 32` and `BitVec 64`, with their arithmetic (it wraps).  A generator is its state, `initialise` (the constructors with a seed call it) and `operator()`.
Not modelled: the seeds of the default constructors (the address of the object).
-/
namespace Etl.Random

abbrev U32 := BitVec 32
abbrev U64 := BitVec 64

/-- A generator: `initialise(seed)` and `operator()`. -/
structure Gen (S : Type) where
  init : U32 → S
  next : S → U32 × S

/-- `range(low, high)`, the same in all classes: l.140-148, l.209-217, l.285-293, l.368-376, l.437-445, l.507-515, l.576-584.  `none`: division by zero. -/
def range {S : Type} (g : Gen S) (s : S) (low high : U32) : Option (U32 × S) :=
  let r : U32 := high - low + 1
  if r = 0 then none else some ((g.next s).1 % r + low, (g.next s).2)

/-- The state of `random_xorshift`, l.152. -/
structure Xs where
  s0 : U32
  s1 : U32
  s2 : U32
  s3 : U32
  deriving DecidableEq

/-- `random_xorshift::initialise`, l.110-117 -/
def xsInit (seed : U32) : Xs := ⟨seed + 3, seed + 5, seed + 7, seed + 11⟩
/-- `random_xorshift::operator()`, l.122-135 -/
def xsNext (s : Xs) : U32 × Xs :=
  let n := s.s3
  let n := n ^^^ (n <<< 11)
  let n := n ^^^ (n >>> 8)
  let n := n ^^^ s.s0
  let n := n ^^^ (s.s0 >>> 19)
  (n, ⟨n, s.s0, s.s1, s.s2⟩)
def xorshift : Gen Xs := ⟨xsInit, xsNext⟩

/-- `random_lcg`, l.190-204, l.221-224: `a * value` is a product of `uint32_t` -/
def lcgInit (seed : U32) : U32 :=
  let seed := if seed = 0 then 1 else seed
  if seed > 2147483563 then 2147483563 else seed
def lcgNext (v : U32) : U32 × U32 := ((40014 * v) % 2147483563, (40014 * v) % 2147483563)
def lcg : Gen U32 := ⟨lcgInit, lcgNext⟩

/-- `random_clcg`, l.262-280, l.297-304 -/
def clcgInit (seed : U32) : U32 × U32 :=
  let seed := if seed = 0 then 1 else seed
  (if seed > 2147483563 then 2147483563 else seed, if seed > 2147483563 then 2147483563 else seed)
def clcgNext (s : U32 × U32) : U32 × (U32 × U32) :=
  let v1 := (40014 * s.1) % 2147483563
  let v2 := (40692 * s.2) % 2147483399
  ((v1 + v2) % 2147483563, (v1, v2))
def clcg : Gen (U32 × U32) := ⟨clcgInit, clcgNext⟩

/-- `random_lsfr`, l.343-363: the bit is tested after the shift -/
def lsfrNext (v : U32) : U32 × U32 :=
  let v := v >>> 1
  let v := if v &&& 1 = 1 then v ^^^ 0x80200003 else v
  (v, v)
def lsfr : Gen U32 := ⟨id, lsfrNext⟩

/-- `random_mwc`, l.417-432 -/
def mwcNext (s : U32 × U32) : U32 × (U32 × U32) :=
  let v1 := 36969 * (s.1 &&& 0xFFFF) + (s.1 >>> 16)
  let v2 := 18000 * (s.2 &&& 0xFFFF) + (s.2 >>> 16)
  ((v1 <<< 16) + v2, (v1, v2))
def mwc : Gen (U32 × U32) := ⟨fun seed => (seed, seed), mwcNext⟩

/-- `random_pcg`, l.486-502, l.519-522 -/
def pcgInit (seed : U32) : U64 := seed.setWidth 64 ||| (seed.setWidth 64 <<< 32)
def pcgStep (v : U64) : U64 := v * 6364136223846793005 + 1
def pcgNext (v : U64) : U32 × U64 :=
  let x := v ^^^ (v >>> 18)
  (((x >>> 27).setWidth 32).rotateRight (v >>> 59).toNat, pcgStep v)
def pcg : Gen U64 := ⟨pcgInit, pcgNext⟩

/-- `random_hash<THash>`, l.558-571: the counter is a `uint8_t`; the hash is any object with `add` and `value`. -/
def hashGen (H : Type) (new : H) (add : H → BitVec 8 → H) (value : H → U32) : Gen (H × BitVec 8) :=
  ⟨fun seed => (new, seed.setWidth 8), fun s => (value (add s.1 (s.2 + 1)), (add s.1 (s.2 + 1), s.2 + 1))⟩

/-- `random_hash<THash>::initialise` of an object that has been used, l.558-561: the hash is left as it is. -/
def hashReseed {H : Type} (s : H × BitVec 8) (seed : U32) : H × BitVec 8 := (s.1, seed.setWidth 8)

/-- The first `n` numbers after state `s`. -/
def take {S : Type} (g : Gen S) : Nat → S → List U32
  | 0, _ => []
  | n + 1, s => (g.next s).1 :: take g n (g.next s).2
/-- The state after `n` numbers. -/
def after {S : Type} (g : Gen S) : Nat → S → S
  | 0, s => s
  | n + 1, s => after g n (g.next s).2

end Etl.Random
