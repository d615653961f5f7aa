import Verif.UMap.Props

/-!
# Walking through the buckets of the unordered containers (C17, C57, C58)

Sources: `/repo/include/etl/unordered_map.h` l.518-539, l.572-593 (`begin(i)`, `end(i)` of a bucket), l.601-616 (`get_bucket_index`), `/repo/include/etl/intrusive_forward_list.h` l.485-490 (`++`); the functions of the other three containers are the same.
`bucket_size`, l.620-637, calls a function `bucket` that does not exist: it does not compile, and is not modelled.
-/
namespace Etl.UMap

variable {κ ε : Type}

/-- `for (it = begin(i); it != end(i); ++it)`: the elements met; `end(i)` is the common terminator, which compares equal to the end of every bucket. -/
def walkLocal (s : St ε) (ch : List Nat) : Nat → LI → Res (List ε)
  | 0, _ => .error .diverge
  | fuel + 1, p => if p = .term then .ok [] else match p with
    | .node i => match read s i with
      | .error u => .error u
      | .ok v => match LI.step ch p with
        | .error u => .error u
        | .ok q => match walkLocal s ch fuel q with
          | .error u => .error u
          | .ok l => .ok (v :: l)
    | _ => .error .deadAccess

/-- The elements of bucket `b`, l.518-539, l.572-593. -/
def bucketContents (s : St ε) (b : Nat) : Res (List ε) := match bucket s b with
  | .error u => .error u
  | .ok ch => walkLocal s ch (s.cap + 1) (headLI ch)

/-- `get_bucket_index`, l.601-616 -/
def getBucketIndex (c : Cfg κ ε) (s : St ε) (k : κ) : Res Nat := index c s k

/-- The value in a cell. -/
def valueOf : Cell ε → Option ε
  | .live v => some v
  | _ => none

theorem walkLocal_ok (s : St ε) : ∀ (B A : List Nat) (fuel : Nat), (A ++ B).Nodup → (∀ i ∈ B, ∃ v, s.val i = .live v) → B.length < fuel →
    walkLocal s (A ++ B) fuel (headLI B) = .ok (B.filterMap fun i => valueOf (s.val i))
  | [], A, fuel + 1, _, _, _ => by simp [walkLocal, headLI]
  | i :: B, A, fuel + 1, hn, hv, hf => by
    obtain ⟨v, hvi⟩ := hv i (by simp)
    have hi : i ∉ A := fun h => by
      have := List.nodup_append.1 hn
      exact this.2.2 i h i (by simp) rfl
    have ih := walkLocal_ok s B (A ++ [i]) fuel (by simpa using hn) (fun j hj => hv j (by simp [hj])) (by simp at hf; omega)
    rw [List.append_assoc, List.singleton_append] at ih
    have hr : read s i = .ok v := by simp only [read, hvi]
    have hs : LI.step (A ++ i :: B) (.node i) = .ok (headLI B) := after_at A B i hi
    have hx : valueOf (s.val i) = some v := by rw [hvi]; rfl
    show walkLocal s (A ++ i :: B) (fuel + 1) (.node i) = _
    simp only [walkLocal, reduceCtorEq, if_false, hr, hs, ih]
    rw [List.filterMap_cons, hx]

theorem filterMap_view {val : Nat → Cell ε} : ∀ {o : List Nat} {m : List ε}, o.map val = m.map Cell.live → o.filterMap (fun i => valueOf (val i)) = m
  | [], [], _ => rfl
  | [], _ :: _, h => by simp at h
  | _ :: _, [], h => by simp at h
  | i :: o, v :: m, h => by
    simp only [List.map_cons, List.cons.injEq] at h
    have hx : valueOf (val i) = some v := by rw [h.1]; rfl
    rw [List.filterMap_cons, hx, filterMap_view h.2]

/-- Bucket `b` shows exactly the elements whose keys belong in it, in the order of the iteration through the container. -/
theorem buckets_ok {c : Cfg κ ε} {s : St ε} {m : List ε} (h : Sim c s m) {b : Nat} (hb : b < s.nb) :
    bucketContents s b = .ok (m.filter fun v => decide (c.hash (c.key v) % s.nb = b)) := by
  have live : ∀ x < s.nb, ∀ i ∈ s.chain x, ∃ v, s.val i = .live v := by
    intro x hx i hi
    have hio : i ∈ order s := mem_spanN.2 ⟨x, by omega, by omega, hi⟩
    have : s.val i ∈ m.map Cell.live := by rw [← h.view]; exact List.mem_map_of_mem hio
    obtain ⟨v, _, hv⟩ := List.mem_map.1 this
    exact ⟨v, hv.symm⟩
  have hlen : (s.chain b).length < s.cap + 1 := by
    have h1 := h.len
    have h2 := h.total
    have : (order s) = spanN s.chain b 0 ++ (s.chain b ++ spanN s.chain (s.nb - (b + 1)) (b + 1)) := spanN_at _ hb
    rw [this] at h1
    simp only [List.length_append] at h1
    omega
  have hw := walkLocal_ok s (s.chain b) [] (s.cap + 1) (by simpa using h.chainNodup hb) (live b hb) hlen
  simp only [List.nil_append] at hw
  have hbk : bucket s b = .ok (s.chain b) := by simp [bucket, hb]
  simp only [bucketContents, hbk]
  rw [hw]
  congr 1
  have hm : m = (order s).filterMap (fun i => valueOf (s.val i)) := (filterMap_view h.view).symm
  have none_of : ∀ n x, x + n ≤ s.nb → (∀ y, x ≤ y → y < x + n → y ≠ b) →
      ((spanN s.chain n x).filterMap (fun i => valueOf (s.val i))).filter (fun v => decide (c.hash (c.key v) % s.nb = b)) = [] := by
    intro n x hx hne
    rw [List.filter_eq_nil_iff]
    intro v hv
    obtain ⟨i, hi, hiv⟩ := List.mem_filterMap.1 hv
    obtain ⟨y, hy1, hy2, hy3⟩ := mem_spanN.1 hi
    obtain ⟨w, hw⟩ := live y (by omega) i hy3
    have := h.home y (by omega) i hy3 w hw
    rw [hw] at hiv
    simp only [valueOf, Option.some.injEq] at hiv
    subst hiv
    rw [this]
    simpa using hne y hy1 hy2
  have all_of : ((s.chain b).filterMap (fun i => valueOf (s.val i))).filter (fun v => decide (c.hash (c.key v) % s.nb = b)) = (s.chain b).filterMap (fun i => valueOf (s.val i)) := by
    rw [List.filter_eq_self]
    intro v hv
    obtain ⟨i, hi, hiv⟩ := List.mem_filterMap.1 hv
    obtain ⟨w, hw⟩ := live b hb i hi
    rw [hw] at hiv
    simp only [valueOf, Option.some.injEq] at hiv
    subst hiv
    simpa using h.home b hb i hi w hw
  have ho : order s = spanN s.chain b 0 ++ (s.chain b ++ spanN s.chain (s.nb - (b + 1)) (b + 1)) := spanN_at _ hb
  rw [hm, ho]
  simp only [List.filterMap_append, List.filter_append]
  rw [none_of b 0 (by omega) (by intro y _ h2; omega), all_of, none_of (s.nb - (b + 1)) (b + 1) (by omega) (by intro y h1 _; omega)]
  simp

/-- What the bucket interface shows of a container: bucket by bucket, and in the order of the buckets, the elements met by an iteration through the container; an element is in the bucket that `get_bucket_index` names for its key; there are no others. -/
def BucketsShow (c : Cfg κ ε) (nb : Nat) (s : St ε) : Prop :=
  ∃ m, contents s = .ok m ∧ (∀ b, nb ≤ b → bucketContents s b = .error .outOfBounds) ∧
    (∀ b, b < nb → bucketContents s b = .ok (m.filter fun v => decide (c.hash (c.key v) % nb = b))) ∧
    ∀ k, ∃ b < nb, getBucketIndex c s k = .ok b ∧ ∃ l, bucketContents s b = .ok l ∧ ∀ v ∈ m, c.eq k (c.key v) = true → v ∈ l

theorem bucketsShow {kind : Kind} {c : Cfg κ ε} (hc : Ok c) {nb cap : Nat} (hnb : 0 < nb) {s : St ε} (h : Reach kind c nb cap s) : BucketsShow c nb s := by
  obtain ⟨m, h1, _, h3, _⟩ := reach_sim hc hnb h
  refine ⟨m, h1.contents, fun b hb => ?_, fun b hb => ?_, fun k => ⟨c.hash k % nb, Nat.mod_lt _ hnb, ?_, m.filter (fun v => decide (c.hash (c.key v) % s.nb = c.hash k % nb)), ?_, ?_⟩⟩
  · have : ¬ b < s.nb := by omega
    simp only [bucketContents, bucket, this, if_false]
  · have := buckets_ok h1 (b := b) (by omega)
    rw [h3] at this
    exact this
  · have h0 : s.nb ≠ 0 := by omega
    simp only [getBucketIndex, index, h0, if_false]
    rw [h3]
  · have := buckets_ok h1 (b := c.hash k % nb) (by rw [h3]; exact Nat.mod_lt _ hnb)
    exact this
  · intro v hv he
    rw [List.mem_filter]
    exact ⟨hv, by rw [h3, ← hc.hash _ _ he]; simp⟩

/-- C17: the buckets of a map. -/
theorem C17_buckets {κ ν : Type} {hash : κ → Nat} {eq : κ → κ → Bool} (hh : IsHash hash eq) {nb cap : Nat} (hnb : 0 < nb) {s : St (κ × ν)} (h : Reach .map (mapCfg hash eq) nb cap s) : BucketsShow (mapCfg hash eq) nb s := bucketsShow (hh.ok _) hnb h
/-- C57: the buckets of a set. -/
theorem C57_buckets {κ : Type} {hash : κ → Nat} {eq : κ → κ → Bool} (hh : IsHash hash eq) {nb cap : Nat} (hnb : 0 < nb) {s : St κ} (h : Reach .set (setCfg hash eq) nb cap s) : BucketsShow (setCfg hash eq) nb s := bucketsShow (hh.ok _) hnb h
/-- C58: the buckets of a multimap. -/
theorem C58_multimap_buckets {κ ν : Type} {hash : κ → Nat} {eq : κ → κ → Bool} (hh : IsHash hash eq) {nb cap : Nat} (hnb : 0 < nb) {s : St (κ × ν)} (h : Reach .multi (mapCfg hash eq) nb cap s) : BucketsShow (mapCfg hash eq) nb s := bucketsShow (hh.ok _) hnb h
/-- C58: the buckets of a multiset. -/
theorem C58_multiset_buckets {κ : Type} {hash : κ → Nat} {eq : κ → κ → Bool} (hh : IsHash hash eq) {nb cap : Nat} (hnb : 0 < nb) {s : St κ} (h : Reach .multi (setCfg hash eq) nb cap s) : BucketsShow (setCfg hash eq) nb s := bucketsShow (hh.ok _) hnb h

/-- A set of six numbers in three buckets: a reachable state with two elements in bucket 1 and three in bucket 2. -/
example : (match run .set (setCfg (fun n : Nat => n) (· == ·)) (init 3 8) [.insert 7, .insert 2, .insert 6, .insert 5, .insert 1, .erase 6, .insert 11] with
    | .ok s => (bucketContents s 0, bucketContents s 1, bucketContents s 2, bucketContents s 3)
    | .error u => (.error u, .error u, .error u, .error u)) = (.ok [], .ok [7, 1], .ok [2, 5, 11], .error .outOfBounds) := by decide +kernel

end Etl.UMap
