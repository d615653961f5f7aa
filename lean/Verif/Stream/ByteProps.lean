import Verif.Stream.ByteModel
import Mathlib.Tactic.ByContra
import Mathlib.Tactic.SplitIfs
import Mathlib.Tactic.Set

/-!
# C25: what is written to a byte_stream_writer is read back by a byte_stream_reader

An `Item` is one call: a value of a type of `k` bytes, a bool, a range of values, or a skip.
-/
namespace Etl.ByteStream
open Etl.BitStream (Endian)

inductive Item where
  | val (k v : Nat) | flag (b : Bool) | range (k : Nat) (vs : List Nat) | skip (k n : Nat)
  deriving Repr
/-- What a reader gives for an item: the value, the bool, the range; for a skip nothing. -/
inductive Out where
  | val (v : Nat) | flag (b : Bool) | range (vs : List Nat) | none
  deriving DecidableEq, Repr

/-! ### Specification -/

/-- the types have at least one byte and the values are values of the type -/
def Item.Legal : Item → Prop
  | .val k v => 1 ≤ k ∧ v < 256 ^ k
  | .flag _ => True
  | .range k vs => 1 ≤ k ∧ ∀ v ∈ vs, v < 256 ^ k
  | .skip k _ => 1 ≤ k
def Item.bytes : Item → Nat
  | .val k _ => k
  | .flag _ => 1
  | .range k vs => vs.length * k
  | .skip k n => n * k
def Item.value : Item → Out
  | .val _ v => .val v
  | .flag b => .flag b
  | .range _ vs => .range vs
  | .skip _ _ => .none
/-- byte `i` of a value of `k` bytes on the wire: big endian streams begin with the most significant byte, little endian streams with the least significant one -/
def wireByte (se : Endian) (k v i : Nat) : Nat := match se with
  | .big => v / 256 ^ (k - 1 - i) % 256
  | .little => v / 256 ^ i % 256
/-- Which of the items fit, when `room` bytes are left: an item that does not fit is left out. -/
def fits (room : Nat) : List Item → List Bool
  | [] => []
  | f :: fs => if f.bytes ≤ room then true :: fits (room - f.bytes) fs else false :: fits room fs
def accepted : List Item → List Bool → List Item
  | f :: fs, b :: bs => if b then f :: accepted fs bs else accepted fs bs
  | _, _ => []

/-! ### The calls on the model -/

def writeItem (se host : Endian) (s : St) : Item → Res (St × Bool)
  | .val k v => write se host s k v
  | .flag b => writeBool s b
  | .range k vs => writeRange se host s k vs
  | .skip k n => skipW s k n
def writeAll (se host : Endian) (s : St) : List Item → Res (St × List Bool)
  | [] => .ok (s, [])
  | f :: fs => match writeItem se host s f with
    | .error u => .error u
    | .ok (s, b) => match writeAll se host s fs with
      | .error u => .error u
      | .ok (s, bs) => .ok (s, b :: bs)
/-- `read<T>()`, `read<bool>()` (a bool is a type of one byte), `read(span)`, `skip`: the values of the item are not looked at -/
def readItem (se host : Endian) (s : St) : Item → Res (St × Option Out)
  | .val k _ => (match read se host s k with
    | .error u => .error u
    | .ok (s, o) => .ok (s, o.map .val))
  | .flag _ => (match read se host s 1 with
    | .error u => .error u
    | .ok (s, o) => .ok (s, o.map (fun v => .flag (v != 0))))
  | .range k vs => (match readRange se host s k vs.length with
    | .error u => .error u
    | .ok (s, o) => .ok (s, o.map .range))
  | .skip k n => (match skipR s k n with
    | .error u => .error u
    | .ok (s, b) => .ok (s, if b then some .none else Option.none))
def readAll (se host : Endian) (s : St) : List Item → Res (St × List (Option Out))
  | [] => .ok (s, [])
  | f :: fs => match readItem se host s f with
    | .error u => .error u
    | .ok (s, b) => match readAll se host s fs with
      | .error u => .error u
      | .ok (s, bs) => .ok (s, b :: bs)

/-! ### Proofs -/

theorem lsb_length (k v : Nat) : (lsb k v).length = k := by
  induction k generalizing v with
  | zero => rfl
  | succ k ih => simp [lsb, ih]
theorem number_lsb (k v : Nat) (h : v < 256 ^ k) : number (lsb k v) = v := by
  induction k generalizing v with
  | zero => simp at h; simp [lsb, number, h]
  | succ k ih =>
    have : v / 256 < 256 ^ k := by rw [Nat.pow_succ] at h; omega
    simp only [lsb, number, ih _ this]
    omega
theorem lsb_get (k v i : Nat) (h : i < k) : (lsb k v)[i]'(by rw [lsb_length]; exact h) = v / 256 ^ i % 256 := by
  induction k generalizing v i with
  | zero => omega
  | succ k ih =>
    cases i with
    | zero => simp [lsb]
    | succ i =>
      simp only [lsb, List.getElem_cons_succ]
      rw [ih _ _ (by omega), Nat.div_div_eq_div_mul, Nat.pow_succ, Nat.mul_comm 256]

/-- the bytes of a value as they are in the stream -/
def wire (se : Endian) (k v : Nat) : List Nat := match se with
  | .little => lsb k v
  | .big => (lsb k v).reverse
theorem copy_wire (se host : Endian) (k v : Nat) : copyValue se host (memory host k v) = wire se k v := by
  cases se <;> cases host <;> simp [copyValue, memory, wire]
theorem value_wire (se host : Endian) {k v : Nat} (h : v < 256 ^ k) : valueOf host (copyValue se host (wire se k v)) = v := by
  cases se <;> cases host <;> simp [copyValue, valueOf, wire, number_lsb k v h]
theorem wire_length (se : Endian) (k v : Nat) : (wire se k v).length = k := by cases se <;> simp [wire, lsb_length]
theorem wire_get (se : Endian) (k v i : Nat) (h : i < k) : (wire se k v)[i]'(by rw [wire_length]; exact h) = wireByte se k v i := by
  cases se with
  | little => exact lsb_get k v i h
  | big =>
    simp only [wire, wireByte]
    rw [List.getElem_reverse]
    have := lsb_get k v (k - 1 - i) (by omega)
    simp only [lsb_length]
    exact this

/-- the bytes from `p` on are `l` -/
def At (buf : Nat → Nat) (p : Nat) (l : List Nat) : Prop := ∀ i, (h : i < l.length) → buf (p + i) = l[i]

theorem store_ok (len : Nat) (l : List Nat) : ∀ (buf : Nat → Nat) (p : Nat), p + l.length ≤ len → ∃ buf', store len buf p l = .ok buf' ∧ At buf' p l ∧ (∀ q, q < p ∨ p + l.length ≤ q → buf' q = buf q) := by
  induction l with
  | nil => intro buf p _; exact ⟨buf, rfl, fun i h => absurd h (by simp), fun _ _ => rfl⟩
  | cons b l ih =>
    intro buf p h
    rw [List.length_cons] at h
    obtain ⟨buf', h1, h2, h3⟩ := ih (upd buf p b) (p + 1) (by omega)
    refine ⟨buf', by simp only [store]; rw [if_pos (by omega)]; exact h1, ?_, ?_⟩
    · intro i hi
      cases i with
      | zero => show buf' p = b; rw [h3 p (Or.inl (by omega)), upd_same]
      | succ i =>
        have := h2 i (by simpa using hi)
        rw [show p + (i + 1) = p + 1 + i by omega, this]; rfl
    · intro q hq
      rw [List.length_cons] at hq
      rw [h3 q (by omega), upd_other _ _ (by omega)]
theorem load_ok (len : Nat) (buf : Nat → Nat) (n : Nat) : ∀ p, p + n ≤ len → ∃ l, load len buf p n = .ok l ∧ l.length = n ∧ At buf p l := by
  induction n with
  | zero => intro p _; exact ⟨[], rfl, rfl, fun i h => absurd h (by simp)⟩
  | succ n ih =>
    intro p h
    obtain ⟨l, h1, h2, h3⟩ := ih (p + 1) (by omega)
    refine ⟨buf p :: l, by simp only [load, h1]; rw [if_pos (by omega)], by simp [h2], ?_⟩
    intro i hi
    cases i with
    | zero => rfl
    | succ i => have := h3 i (by simpa using hi); rw [show p + (i + 1) = p + 1 + i by omega, this]; rfl
theorem at_unique {buf : Nat → Nat} {p : Nat} {l l' : List Nat} (h1 : At buf p l) (h2 : At buf p l') (h : l.length = l'.length) : l = l' := by
  refine List.ext_getElem h ?_
  intro i a b
  rw [← h1 i a, ← h2 i b]
theorem at_append {buf : Nat → Nat} {p : Nat} {l l' : List Nat} : At buf p (l ++ l') ↔ At buf p l ∧ At buf (p + l.length) l' := by
  constructor
  · intro h
    refine ⟨fun i hi => ?_, fun i hi => ?_⟩
    · rw [h i (by rw [List.length_append]; omega), List.getElem_append_left hi]
    · rw [show p + l.length + i = p + (l.length + i) by omega, h (l.length + i) (by rw [List.length_append]; omega), List.getElem_append_right (by omega)]
      congr 1; omega
  · rintro ⟨h1, h2⟩ i hi
    rw [List.length_append] at hi
    by_cases hl : i < l.length
    · rw [h1 i hl, List.getElem_append_left hl]
    · rw [List.getElem_append_right (by omega), ← h2 (i - l.length) (by omega)]
      congr 1; omega
theorem at_frame {buf buf' : Nat → Nat} {p : Nat} {l : List Nat} (h : At buf p l) (hf : ∀ q, p ≤ q → q < p + l.length → buf' q = buf q) : At buf' p l := by
  intro i hi; rw [hf _ (by omega) (by omega)]; exact h i hi

theorem step_ok {s : St} {n : Nat} (h : s.cur + n ≤ s.len) : ∃ l, step s n = .ok { s with calls := s.calls ++ [l], cur := s.cur + n } ∧ l.length = n ∧ At s.buf s.cur l := by
  obtain ⟨l, h1, h2, h3⟩ := load_ok s.len s.buf n s.cur h
  exact ⟨l, by simp only [step, h1], h2, h3⟩

theorem toBytes_ok (se host : Endian) {s : St} {k : Nat} (v : Nat) (h : s.cur + k ≤ s.len) :
    ∃ buf', toBytes se host s k v = .ok { s with buf := buf', calls := s.calls ++ [wire se k v], cur := s.cur + k } ∧ At buf' s.cur (wire se k v) ∧ (∀ q, q < s.cur ∨ s.cur + k ≤ q → buf' q = s.buf q) := by
  obtain ⟨buf', h1, h2, h3⟩ := store_ok s.len (wire se k v) s.buf s.cur (by rw [wire_length]; exact h)
  obtain ⟨l, g1, g2, g3⟩ := step_ok (s := { s with buf := buf' }) (n := k) h
  have hl : l = wire se k v := at_unique g3 h2 (by rw [g2, wire_length])
  rw [wire_length] at h3
  rw [hl] at g1
  exact ⟨buf', by simp only [toBytes, copy_wire, h1]; exact g1, h2, h3⟩

theorem writeLoop_ok (se host : Endian) (k : Nat) (vs : List Nat) : ∀ (s : St), s.cur + vs.length * k ≤ s.len →
    ∃ buf', writeLoop se host k vs s = .ok { s with buf := buf', calls := s.calls ++ vs.map (wire se k), cur := s.cur + vs.length * k } ∧ At buf' s.cur (vs.map (wire se k)).flatten ∧ (∀ q, q < s.cur ∨ s.cur + vs.length * k ≤ q → buf' q = s.buf q) := by
  induction vs with
  | nil => intro s _; exact ⟨s.buf, by simp [writeLoop], fun i h => absurd h (by simp), fun _ _ => rfl⟩
  | cons v vs ih =>
    intro s h
    have hk : (vs.length + 1) * k = k + vs.length * k := by rw [Nat.add_mul]; omega
    rw [List.length_cons, hk] at h ⊢
    obtain ⟨b1, h1, h2, h3⟩ := toBytes_ok se host (s := s) (k := k) v (by omega)
    obtain ⟨b2, g1, g2, g3⟩ := ih { s with buf := b1, calls := s.calls ++ [wire se k v], cur := s.cur + k } (by show s.cur + k + _ ≤ s.len; omega)
    refine ⟨b2, ?_, ?_, ?_⟩
    · simp only [writeLoop, h1, g1]
      simp [Nat.add_assoc]
    · rw [List.map_cons, List.flatten_cons]
      refine at_append.mpr ⟨at_frame h2 ?_, ?_⟩
      · intro q hq1 hq2; rw [wire_length] at hq2; exact g3 q (Or.inl hq2)
      · rw [wire_length]; exact g2
    · intro q hq; rw [g3 q (by show q < s.cur + k ∨ s.cur + k + _ ≤ q; omega)]; exact h3 q (by omega)

/-- the bytes of an item in the stream (for a skip they are what they were) -/
def Item.wire (se : Endian) : Item → List Nat
  | .val k v => ByteStream.wire se k v
  | .flag b => [if b then 1 else 0]
  | .range k vs => (vs.map (ByteStream.wire se k)).flatten
  | .skip _ _ => []
def Item.Holds (se : Endian) (buf : Nat → Nat) (p : Nat) (f : Item) : Prop := At buf p (f.wire se)

theorem flatten_length (se : Endian) (k : Nat) (vs : List Nat) : (vs.map (wire se k)).flatten.length = vs.length * k := by
  induction vs with
  | nil => simp
  | cons v vs ih => rw [List.map_cons, List.flatten_cons, List.length_append, wire_length, ih, List.length_cons, Nat.add_mul]; omega
theorem item_wire_le (se : Endian) (f : Item) : (f.wire se).length ≤ f.bytes := by
  cases f with
  | val k v => simp [Item.wire, Item.bytes, wire_length]
  | flag b => simp [Item.wire, Item.bytes]
  | range k vs => simp only [Item.wire, Item.bytes, flatten_length]; exact Nat.le_refl _
  | skip k n => simp [Item.wire]

theorem avail_gt {k room : Nat} (hk : 1 ≤ k) : room / k > 0 ↔ k ≤ room := by
  show 0 < room / k ↔ _
  rw [Nat.div_pos_iff]; omega
theorem avail_ge {k room n : Nat} (hk : 1 ≤ k) : room / k ≥ n ↔ n * k ≤ room := by
  show n ≤ room / k ↔ _
  rw [Nat.le_div_iff_mul_le (by omega)]

theorem available_ok (s : St) {k : Nat} (hk : 1 ≤ k) : available s k = .ok ((s.len - s.cur) / k) := by
  unfold available; rw [if_neg (by omega)]

theorem write_refused (se host : Endian) (s : St) (f : Item) (hf : f.Legal) (h : s.len - s.cur < f.bytes) : writeItem se host s f = .ok (s, false) := by
  cases f with
  | val k v =>
    have hk : 1 ≤ k := hf.1
    simp only [writeItem, write, available_ok s hk]
    rw [if_neg (by rw [avail_gt hk]; simp only [Item.bytes] at h; omega)]
  | flag b =>
    simp only [writeItem, writeBool, available_ok s (Nat.le_refl 1)]
    rw [if_neg (by rw [avail_gt (Nat.le_refl 1)]; simp only [Item.bytes] at h; omega)]
  | range k vs =>
    have hk : 1 ≤ k := hf.1
    simp only [writeItem, writeRange, available_ok s hk]
    rw [if_neg (by rw [avail_ge hk]; simp only [Item.bytes] at h; omega)]
  | skip k n =>
    have hk : 1 ≤ k := hf
    simp only [writeItem, skipW, available_ok s hk]
    rw [if_neg (by rw [avail_ge hk]; simp only [Item.bytes] at h; omega)]

theorem write_ok (se host : Endian) (s : St) (f : Item) (hf : f.Legal) (hle : s.cur ≤ s.len) (h : f.bytes ≤ s.len - s.cur) :
    ∃ s', writeItem se host s f = .ok (s', true) ∧ s'.len = s.len ∧ s'.cur = s.cur + f.bytes ∧ f.Holds se s'.buf s.cur ∧ (∀ q, q < s.cur ∨ s.cur + f.bytes ≤ q → s'.buf q = s.buf q) ∧
      ((∀ b, f ≠ .flag b) → ∃ l, s'.calls.flatten = s.calls.flatten ++ l ∧ l.length = f.bytes ∧ At s'.buf s.cur l) := by
  cases f with
  | val k v =>
    have hk : 1 ≤ k := hf.1
    simp only [Item.bytes] at h
    obtain ⟨b1, h1, h2, h3⟩ := toBytes_ok se host (s := s) (k := k) v (by omega)
    refine ⟨{ s with buf := b1, calls := s.calls ++ [wire se k v], cur := s.cur + k }, ?_, rfl, rfl, h2, h3, ?_⟩
    · simp only [writeItem, write, available_ok s hk]
      rw [if_pos ((avail_gt hk).mpr h)]
      simp only [h1]
    · intro _; exact ⟨wire se k v, by simp, wire_length _ _ _, h2⟩
  | flag b =>
    simp only [Item.bytes] at h
    obtain ⟨b1, h1, h2, h3⟩ := store_ok s.len [if b then 1 else 0] s.buf s.cur (by simp; omega)
    refine ⟨{ s with buf := b1, cur := s.cur + 1 }, ?_, rfl, rfl, h2, h3, fun hb => absurd rfl (hb b)⟩
    simp only [writeItem, writeBool, available_ok s (Nat.le_refl 1)]
    rw [if_pos ((avail_gt (Nat.le_refl 1)).mpr h)]
    simp only [h1]
  | range k vs =>
    have hk : 1 ≤ k := hf.1
    simp only [Item.bytes] at h
    obtain ⟨b1, h1, h2, h3⟩ := writeLoop_ok se host k vs s (by omega)
    refine ⟨{ s with buf := b1, calls := s.calls ++ vs.map (wire se k), cur := s.cur + vs.length * k }, ?_, rfl, rfl, h2, h3, ?_⟩
    · simp only [writeItem, writeRange, available_ok s hk]
      rw [if_pos ((avail_ge hk).mpr h)]
      simp only [h1]
    · intro _; exact ⟨(vs.map (wire se k)).flatten, by simp, flatten_length _ _ _, h2⟩
  | skip k n =>
    have hk : 1 ≤ k := hf
    simp only [Item.bytes] at h
    obtain ⟨l, h1, h2, h3⟩ := step_ok (s := s) (n := n * k) (by omega)
    refine ⟨{ s with calls := s.calls ++ [l], cur := s.cur + n * k }, ?_, rfl, rfl, fun i hi => absurd hi (by simp [Item.wire]), fun _ _ => rfl, ?_⟩
    · simp only [writeItem, skipW, available_ok s hk]
      rw [if_pos ((avail_ge hk).mpr h)]
      simp only [h1]
    · intro _; exact ⟨l, by simp, h2, h3⟩

theorem fromBytes_ok (se host : Endian) {s : St} {k v : Nat} (h : s.cur + k ≤ s.len) (hv : v < 256 ^ k) (hh : At s.buf s.cur (wire se k v)) : fromBytes se host s k = .ok ({ s with cur := s.cur + k }, v) := by
  obtain ⟨l, h1, h2, h3⟩ := load_ok s.len s.buf k s.cur h
  have hl : l = wire se k v := at_unique h3 hh (by rw [h2, wire_length])
  simp only [fromBytes, h1, hl, value_wire se host hv]
theorem readLoop_ok (se host : Endian) (k : Nat) (vs : List Nat) : ∀ (s : St), (∀ v ∈ vs, v < 256 ^ k) → s.cur + vs.length * k ≤ s.len → At s.buf s.cur (vs.map (wire se k)).flatten → readLoop se host k vs.length s = .ok ({ s with cur := s.cur + vs.length * k }, vs) := by
  induction vs with
  | nil => intro s _ _ _; simp [readLoop]
  | cons v vs ih =>
    intro s hv h hh
    have hk : (vs.length + 1) * k = k + vs.length * k := by rw [Nat.add_mul]; omega
    rw [List.length_cons, hk] at h ⊢
    rw [List.map_cons, List.flatten_cons] at hh
    obtain ⟨a1, a2⟩ := at_append.mp hh
    rw [wire_length] at a2
    have h1 := fromBytes_ok se host (s := s) (by omega) (hv v List.mem_cons_self) a1
    have h2 := ih { s with cur := s.cur + k } (fun x hx => hv x (List.mem_cons_of_mem _ hx)) (by show s.cur + k + _ ≤ s.len; omega) a2
    simp only [readLoop, h1, h2, Nat.add_assoc]

theorem read_ok (se host : Endian) (s : St) (f : Item) (hf : f.Legal) (hle : s.cur ≤ s.len) (h : f.bytes ≤ s.len - s.cur) (hh : f.Holds se s.buf s.cur) :
    readItem se host s f = .ok ({ s with cur := s.cur + f.bytes }, some f.value) := by
  cases f with
  | val k v =>
    have hk : 1 ≤ k := hf.1
    simp only [Item.bytes] at h
    have h1 := fromBytes_ok se host (s := s) (k := k) (v := v) (by omega) hf.2 hh
    simp only [readItem, read, available_ok s hk]
    rw [if_pos ((avail_gt hk).mpr h)]
    simp only [h1]
    rfl
  | flag b =>
    simp only [Item.bytes] at h
    have hw : At s.buf s.cur (wire se 1 (if b then 1 else 0)) := by
      have : wire se 1 (if b then 1 else 0) = [if b then 1 else 0] := by cases se <;> cases b <;> rfl
      rw [this]; exact hh
    have h1 := fromBytes_ok se host (s := s) (k := 1) (v := if b then 1 else 0) (by omega) (by cases b <;> decide) hw
    simp only [readItem, read, available_ok s (Nat.le_refl 1)]
    rw [if_pos ((avail_gt (Nat.le_refl 1)).mpr h)]
    simp only [h1]
    cases b <;> rfl
  | range k vs =>
    have hk : 1 ≤ k := hf.1
    simp only [Item.bytes] at h
    have h1 := readLoop_ok se host k vs s hf.2 (by omega) hh
    simp only [readItem, readRange, available_ok s hk]
    rw [if_pos ((avail_ge hk).mpr h)]
    simp only [h1]
    rfl
  | skip k n =>
    have hk : 1 ≤ k := hf
    simp only [Item.bytes] at h
    simp only [readItem, skipR, available_ok s hk]
    rw [if_pos ((avail_ge hk).mpr h)]
    rfl

def total : List Item → Nat
  | [] => 0
  | f :: fs => f.bytes + total fs
def HoldsAll (se : Endian) (buf : Nat → Nat) : Nat → List Item → Prop
  | _, [] => True
  | p, f :: fs => f.Holds se buf p ∧ HoldsAll se buf (p + f.bytes) fs

theorem writeAll_ok (se host : Endian) (fs : List Item) : ∀ (s : St), (∀ f ∈ fs, f.Legal) → s.cur ≤ s.len →
    ∃ s', writeAll se host s fs = .ok (s', fits (s.len - s.cur) fs) ∧ s'.len = s.len ∧ s'.cur ≤ s.len ∧ s'.cur = s.cur + total (accepted fs (fits (s.len - s.cur) fs)) ∧ (∀ q, q < s.cur ∨ s'.cur ≤ q → s'.buf q = s.buf q) ∧
      HoldsAll se s'.buf s.cur (accepted fs (fits (s.len - s.cur) fs)) ∧
      ((∀ b, Item.flag b ∉ fs) → ∃ l, s'.calls.flatten = s.calls.flatten ++ l ∧ l.length = s'.cur - s.cur ∧ At s'.buf s.cur l) := by
  induction fs with
  | nil => intro s _ hle; exact ⟨s, rfl, rfl, hle, rfl, fun _ _ => rfl, trivial, fun _ => ⟨[], by simp, by simp, fun i h => absurd h (by simp)⟩⟩
  | cons f fs ih =>
    intro s hl hle
    have hl' : ∀ x ∈ fs, x.Legal := fun x hx => hl x (List.mem_cons_of_mem _ hx)
    by_cases hfit : f.bytes ≤ s.len - s.cur
    · obtain ⟨s1, g1, g2, g3, g4, g5, g6⟩ := write_ok se host s f (hl f List.mem_cons_self) hle hfit
      obtain ⟨s2, f1, f2, f3, f4, f5, f6, f7⟩ := ih s1 hl' (by omega)
      have e0 : s1.len - s1.cur = s.len - s.cur - f.bytes := by omega
      rw [e0] at f1 f4 f6
      have e1 : fits (s.len - s.cur) (f :: fs) = true :: fits (s.len - s.cur - f.bytes) fs := by simp [fits, hfit]
      have e2 : accepted (f :: fs) (true :: fits (s.len - s.cur - f.bytes) fs) = f :: accepted fs (fits (s.len - s.cur - f.bytes) fs) := by simp [accepted]
      have hw := item_wire_le se f
      refine ⟨s2, by simp only [writeAll, g1, f1, e1], by omega, by omega, by rw [e1, e2, total]; omega, ?_, ?_, ?_⟩
      · intro q hq; rw [f5 q (by omega)]; exact g5 q (by omega)
      · rw [e1, e2]
        refine ⟨at_frame g4 (fun q h1 h2 => f5 q (Or.inl (by omega))), ?_⟩
        rw [← g3]; exact f6
      · intro hb
        obtain ⟨l1, a1, a2, a3⟩ := g6 (fun b e => hb b (e ▸ List.mem_cons_self))
        obtain ⟨l2, b1, b2, b3⟩ := f7 (fun b hx => hb b (List.mem_cons_of_mem _ hx))
        refine ⟨l1 ++ l2, by rw [b1, a1, List.append_assoc], by rw [List.length_append]; omega, at_append.mpr ⟨at_frame a3 (fun q h1 h2 => f5 q (Or.inl (by omega))), ?_⟩⟩
        rw [a2, ← g3]; exact b3
    · obtain ⟨s2, f1, f2, f3, f4, f5, f6, f7⟩ := ih s hl' hle
      have e1 : fits (s.len - s.cur) (f :: fs) = false :: fits (s.len - s.cur) fs := by simp [fits, hfit]
      have e2 : accepted (f :: fs) (false :: fits (s.len - s.cur) fs) = accepted fs (fits (s.len - s.cur) fs) := by simp [accepted]
      have g1 := write_refused se host s f (hl f List.mem_cons_self) (by omega)
      exact ⟨s2, by simp only [writeAll, g1, f1, e1], f2, f3, by rw [e1, e2]; exact f4, f5, by rw [e1, e2]; exact f6, fun hb => f7 (fun b hx => hb b (List.mem_cons_of_mem _ hx))⟩

theorem readAll_ok (se host : Endian) (fs : List Item) : ∀ (s : St), (∀ f ∈ fs, f.Legal) → s.cur + total fs ≤ s.len → HoldsAll se s.buf s.cur fs → readAll se host s fs = .ok ({ s with cur := s.cur + total fs }, fs.map (fun f => some f.value)) := by
  induction fs with
  | nil => intro s _ _ _; rfl
  | cons f fs ih =>
    intro s hl h hh
    simp only [total] at h
    have h1 := read_ok se host s f (hl f List.mem_cons_self) (by omega) (by omega) hh.1
    have h2 := ih { s with cur := s.cur + f.bytes } (fun x hx => hl x (List.mem_cons_of_mem _ hx)) (by show s.cur + f.bytes + _ ≤ s.len; omega) hh.2
    simp only [readAll, h1, h2, List.map_cons, total, Nat.add_assoc]

theorem accepted_mem {fs : List Item} {bs : List Bool} {f : Item} (h : f ∈ accepted fs bs) : f ∈ fs := by
  induction fs generalizing bs with
  | nil => simp [accepted] at h
  | cons x fs ih =>
    cases bs with
    | nil => simp [accepted] at h
    | cons b bs =>
      simp only [accepted] at h
      split_ifs at h
      · rcases List.mem_cons.mp h with e | e
        · exact e ▸ List.mem_cons_self
        · exact List.mem_cons_of_mem _ (ih e)
      · exact List.mem_cons_of_mem _ (ih h)

/-! ### Theorems -/

/-- C25: on a buffer of `len` bytes, write any sequence of items: exactly those are refused that do not fit, and a reader reads the accepted ones back, for both endiannesses of the stream - also when the writer runs on a platform of
another endianness than the reader. -/
theorem C25_round_trip (se host host' : Endian) (buf : Nat → Nat) (len : Nat) (fs : List Item) (hl : ∀ f ∈ fs, f.Legal) :
    ∃ w r, writeAll se host (start buf len) fs = .ok (w, fits len fs) ∧
      readAll se host' (start w.buf len) (accepted fs (fits len fs)) = .ok (r, (accepted fs (fits len fs)).map (fun f => some f.value)) := by
  obtain ⟨w, g1, g2, g3, g4, g5, g6, g7⟩ := writeAll_ok se host fs (start buf len) hl (Nat.zero_le _)
  have hlen : w.len = len := g2
  have h0 : (start buf len).len - (start buf len).cur = len := rfl
  rw [h0] at g1 g4 g6
  have hc : (start buf len).cur = 0 := rfl
  refine ⟨w, _, g1, readAll_ok se host' _ (start w.buf len) (fun f hf => hl f (accepted_mem hf)) ?_ g6⟩
  show 0 + total _ ≤ len
  rw [hc] at g4
  have : w.cur ≤ len := g3
  omega

/-- C25: a write that does not fit answers `false` and changes nothing; a read that does not fit gives nothing and changes nothing; in any state. -/
theorem C25_refused (se host : Endian) (s : St) (f : Item) (hf : f.Legal) (h : s.len - s.cur < f.bytes) : writeItem se host s f = .ok (s, false) ∧ readItem se host s f = .ok (s, none) := by
  refine ⟨write_refused se host s f hf h, ?_⟩
  cases f with
  | val k v =>
    have hk : 1 ≤ k := hf.1
    simp only [readItem, read, available_ok s hk]
    rw [if_neg (by rw [avail_gt hk]; simp only [Item.bytes] at h; omega)]; rfl
  | flag b =>
    simp only [readItem, read, available_ok s (Nat.le_refl 1)]
    rw [if_neg (by rw [avail_gt (Nat.le_refl 1)]; simp only [Item.bytes] at h; omega)]; rfl
  | range k vs =>
    have hk : 1 ≤ k := hf.1
    simp only [readItem, readRange, available_ok s hk]
    rw [if_neg (by rw [avail_ge hk]; simp only [Item.bytes] at h; omega)]; rfl
  | skip k n =>
    have hk : 1 ≤ k := hf
    simp only [readItem, skipR, available_ok s hk]
    rw [if_neg (by show ¬ (_ ≥ n); rw [avail_ge hk]; simp only [Item.bytes] at h; omega)]; rfl

/-- C25, the wire format: after any accepted sequence a value of `k` bytes takes the next `k` bytes, in the order of the endianness of the stream and independent of the platform; nothing else changes. -/
theorem C25_layout (se host : Endian) (buf : Nat → Nat) (len : Nat) (fs : List Item) (hl : ∀ f ∈ fs, f.Legal) (k v : Nat) (hk : 1 ≤ k) (hv : v < 256 ^ k) (hfit : total (accepted fs (fits len fs)) + k ≤ len) :
    ∃ w w', writeAll se host (start buf len) fs = .ok (w, fits len fs) ∧ writeItem se host w (.val k v) = .ok (w', true) ∧
      (∀ i, i < k → w'.buf (total (accepted fs (fits len fs)) + i) = wireByte se k v i) ∧
      (∀ q, q < total (accepted fs (fits len fs)) ∨ total (accepted fs (fits len fs)) + k ≤ q → w'.buf q = w.buf q) := by
  obtain ⟨w, g1, g2, g3, g4, g5, g6, g7⟩ := writeAll_ok se host fs (start buf len) hl (Nat.zero_le _)
  have hlen : w.len = len := g2
  have h0 : (start buf len).len - (start buf len).cur = len := rfl
  have hc : (start buf len).cur = 0 := rfl
  rw [h0] at g1 g4
  rw [hc, Nat.zero_add] at g4
  obtain ⟨w', f1, f2, f3, f4, f5, f6⟩ := write_ok se host w (.val k v) ⟨hk, hv⟩ (by rw [hlen]; exact g3) (by simp only [Item.bytes]; omega)
  refine ⟨w, w', g1, f1, ?_, ?_⟩
  · intro i hi
    rw [← g4, f4 i (by simp only [Item.wire, wire_length]; exact hi)]
    exact wire_get se k v i hi
  · intro q hq; exact f5 q (by simp only [Item.bytes]; rw [g4]; exact hq)

/-- C25, the callback: as long as no bool is written (see `bool_without_callback`), the callback has been given exactly the used part of the buffer. -/
theorem C25_callback_partial (se host : Endian) (buf : Nat → Nat) (len : Nat) (fs : List Item) (hl : ∀ f ∈ fs, f.Legal) (hb : ∀ b, Item.flag b ∉ fs) :
    ∃ w, writeAll se host (start buf len) fs = .ok (w, fits len fs) ∧ w.calls.flatten = (List.range w.cur).map w.buf := by
  obtain ⟨w, g1, g2, g3, g4, g5, g6, g7⟩ := writeAll_ok se host fs (start buf len) hl (Nat.zero_le _)
  obtain ⟨l, a1, a2, a3⟩ := g7 hb
  have h0 : (start buf len).len - (start buf len).cur = len := rfl
  have hc : (start buf len).cur = 0 := rfl
  rw [h0] at g1
  rw [hc] at a2 a3
  refine ⟨w, g1, ?_⟩
  rw [a1]
  show [] ++ l = _
  rw [List.nil_append]
  refine List.ext_getElem (by simp [a2]) ?_
  intro i h1 h2
  have := a3 i h1
  rw [Nat.zero_add] at this
  simp [this]

/-! ### Examples and findings -/

/-- write, then read back on the model -/
def roundTrip (se host host' : Endian) (buf : Nat → Nat) (len : Nat) (fs : List Item) : Res (List Bool × List Nat × List (Option Out)) := match writeAll se host (start buf len) fs with
  | .error u => .error u
  | .ok (w, bs) => match readAll se host' (start w.buf len) (accepted fs bs) with
    | .error u => .error u
    | .ok (_, vs) => .ok (bs, (List.range len).map w.buf, vs)
example : (match roundTrip .big .little .big (fun _ => 9) 10 [.val 2 0x1234, .flag true, .skip 1 1, .range 2 [1, 2], .val 4 5, .val 1 255] with | .ok x => decide (x = ([true, true, true, true, false, true], [0x12, 0x34, 1, 9, 0, 1, 0, 2, 255, 9], [some (.val 0x1234), some (.flag true), some .none, some (.range [1, 2]), some (.val 255)])) | _ => false) = true := by decide +kernel
example : (match roundTrip .little .little .big (fun _ => 9) 10 [.val 2 0x1234, .flag true, .skip 1 1, .range 2 [1, 2], .val 4 5, .val 1 255] with | .ok x => decide (x = ([true, true, true, true, false, true], [0x34, 0x12, 1, 9, 1, 0, 2, 0, 255, 9], [some (.val 0x1234), some (.flag true), some .none, some (.range [1, 2]), some (.val 255)])) | _ => false) = true := by decide +kernel

/-- FINDING: the callback "called after every write" is not called for a bool. -/
theorem bool_without_callback : (match writeItem .big .little (start (fun _ => 0) 4) (.flag true) with | .ok (s, true) => s.cur == 1 && s.calls == [] | _ => false) = true := by decide +kernel

end Etl.ByteStream
