import Verif.Bip.Model
import Mathlib.Tactic.ByContra
import Mathlib.Tactic.SplitIfs
import Mathlib.Tactic.Tauto

/-!
# C04: `bip_buffer_spsc_atomic` is FIFO and its regions never overlap

The specification is in terms of the trace: the list of (slot, value) of all committed write regions, and of all committed read regions.
-/
namespace Etl.Bip
variable {α : Type}

/-! ## Specification -/

/-- the slots of a committed region with their values -/
def places (i : Nat) (vs : List α) : List (Nat × α) := (List.range' i vs.length).zip vs
/-- everything that was committed by the writer, in order -/
def written : List (Ev α) → List (Nat × α)
  | [] => []
  | .wrote i vs :: t => places i vs ++ written t
  | _ :: t => written t
/-- everything that was committed by the reader, in order -/
def taken : List (Ev α) → List (Nat × α)
  | [] => []
  | .took i vs :: t => places i vs ++ taken t
  | _ :: t => taken t
/-- the requested sizes do not overflow `write_index + size` -/
def sized (s : St α) : Act α → Prop
  | .wReserve n _ => s.cap + n < s.M
  | _ => True
/-- what a user relies on in a state: the values taken are a prefix of those written; the rest is in its slots; the reserve of the writer is inside of the buffer and apart from the rest;
the reserve of the reader is the beginning of the rest; no commit was refused; and whatever comes next is neither a data race nor out of bounds -/
structure Good (s : St α) : Prop where
  fifo : ∃ rest, written s.trace = taken s.trace ++ rest ∧ (∀ p ∈ rest, s.slot p.1 = p.2 ∧ p.1 < s.cap) ∧ (rest.map Prod.fst).Nodup ∧
    (∀ i n, s.wpc = .holding i n → i + n ≤ s.cap ∧ ∀ p ∈ rest, ¬ (i ≤ p.1 ∧ p.1 < i + n)) ∧
    (∀ i n, s.rpc = .holding i n → places i (region s.slot i n) <+: rest)
  noRefusal : Ev.refused ∉ s.trace
  defined : ∀ a, ∃ s', step s a = .ok s'

/-! ## Lists -/

theorem places_region (f : Nat → α) (i n : Nat) : places i (region f i n) = (List.range' i n).map (fun a => (a, f a)) := by
  unfold places region
  rw [List.length_map, List.length_range']
  generalize List.range' i n = l
  induction l with
  | nil => rfl
  | cons a t ih => simp [ih]
theorem written_append (t u : List (Ev α)) : written (t ++ u) = written t ++ written u := by
  induction t with
  | nil => rfl
  | cons e t ih => cases e <;> simp [written, ih]
theorem taken_append (t u : List (Ev α)) : taken (t ++ u) = taken t ++ taken u := by
  induction t with
  | nil => rfl
  | cons e t ih => cases e <;> simp [taken, ih]

/-! ## The invariant -/

/-- the addresses from `a` up to `b` -/
def iv (a b : Nat) : List Nat := List.range' a (b - a)
theorem mem_iv {a b i : Nat} : i ∈ iv a b ↔ a ≤ i ∧ i < b := by unfold iv; rw [List.mem_range'_1]; omega
theorem iv_split {a b c : Nat} (h1 : a ≤ b) (h2 : b ≤ c) : iv a c = iv a b ++ iv b c := by
  unfold iv
  have := List.range'_append_1 (s := a) (m := b - a) (n := c - b)
  rw [show a + (b - a) = b by omega] at this
  rw [this, show b - a + (c - b) = c - a by omega]
theorem iv_self (a : Nat) : iv a a = [] := by unfold iv; rw [Nat.sub_self]; rfl
theorem iv_add (a n : Nat) : iv a (a + n) = List.range' a n := by unfold iv; rw [show a + n - a = n by omega]

/-- addresses of the committed and unread elements -/
def addrs (s : St α) : List Nat :=
  if s.read.top.lap = s.write.top.lap then iv s.read.top.val s.write.top.val else iv s.read.top.val s.last.top.val ++ iv 0 s.write.top.val

/-- older in the order of the stream -/
def lexle (a b : Msg) : Prop := a.lap < b.lap ∨ (a.lap = b.lap ∧ a.val ≤ b.val)
/-- a value of `read` that the writer may still see -/
def ReadOk (w m : Msg) : Prop := (m.lap = w.lap ∧ m.val ≤ w.val) ∨ (m.lap + 1 = w.lap ∧ w.val < m.val)
/-- slots that are free for a writer that sees `m` -/
def Free (w m : Msg) (i : Nat) : Prop := (m.lap = w.lap ∧ (w.val ≤ i ∨ i < m.val)) ∨ (m.lap + 1 = w.lap ∧ w.val ≤ i ∧ i < m.val)
/-- a value of `write` that the reader may still see -/
def WriteOk (r m : Msg) (ln : Nat) : Prop := (m.lap = r.lap ∧ r.val ≤ m.val) ∨ (m.lap = r.lap + 1 ∧ m.val < r.val ∧ m.aux = ln)
/-- slots with data for a reader that sees `m` -/
def Data (r m : Msg) (L i : Nat) : Prop := (m.lap = r.lap ∧ r.val ≤ i ∧ i < m.val) ∨ (m.lap = r.lap + 1 ∧ ((r.val ≤ i ∧ i < L) ∨ i < m.val))

structure Core (s : St α) : Prop where
  bound : s.cap + 1 < s.M
  wcap : s.write.top.val ≤ s.cap
  lcap : s.last.top.val ≤ s.cap
  rcap : ∀ j ≤ s.read.n, (s.read.m j).val ≤ s.cap
  shape : (s.read.top.lap = s.write.top.lap ∧ s.read.top.val ≤ s.write.top.val) ∨
    (s.read.top.lap + 1 = s.write.top.lap ∧ s.write.top.val < s.read.top.val ∧ s.read.top.val ≤ s.last.top.val ∧ s.write.top.aux = s.last.n)
  ptsle : s.pts ≤ s.read.n
  ctsle : s.cts ≤ s.write.n
  cltsle : s.clts ≤ s.last.n
  rsort : ∀ i j, i ≤ j → j ≤ s.read.n → lexle (s.read.m i) (s.read.m j)
  wsort : ∀ i j, i ≤ j → j ≤ s.write.n → lexle (s.write.m i) (s.write.m j)
  rok : ∀ j, s.pts ≤ j → j ≤ s.read.n → ReadOk s.write.top (s.read.m j)
  rfree : ∀ j, s.pts ≤ j → j ≤ s.read.n → ∀ i, Free s.write.top (s.read.m j) i → s.accC i ≤ (s.read.m j).clk
  pknow : (s.read.m s.pts).clk ≤ s.pknown
  wok : ∀ j, s.cts ≤ j → j ≤ s.write.n → WriteOk s.read.top (s.write.m j) s.last.n
  wlast : ∀ j, s.cts ≤ j → j ≤ s.write.n → (s.write.m j).lap = s.read.top.lap → s.write.top.lap = s.read.top.lap + 1 → (s.write.m j).val ≤ s.last.top.val
  wdata : ∀ j, s.cts ≤ j → j ≤ s.write.n → ∀ i, Data s.read.top (s.write.m j) s.last.top.val i → s.accP i ≤ (s.write.m j).clk
  cknow : (s.write.m s.cts).clk ≤ s.cknown
  clast : (s.write.m s.cts).aux ≤ s.clts
  pclk : ∀ i, s.accP i ≤ s.pclock
  cclk : ∀ i, s.accC i ≤ s.cclock
  waux : ∀ j ≤ s.write.n, (s.write.m j).aux ≤ s.last.n
  hist : written s.trace = taken s.trace ++ (addrs s).map (fun a => (a, s.slot a))
  noref : Ev.refused ∉ s.trace

/-- the reserve of a writer that sees `v` -/
def HoldW (cap : Nat) (w v : Msg) (i n : Nat) : Prop :=
  i + n ≤ cap ∧ ((v.lap = w.lap ∧ i = w.val) ∨ (v.lap = w.lap ∧ i = 0 ∧ n < v.val) ∨ (v.lap + 1 = w.lap ∧ i = w.val ∧ w.val + n < v.val))
def WOk (cap M : Nat) (w v : Msg) (L : Nat) : WPc → Prop
  | .idle => True
  | .reserving n _ => cap + n < M
  | .holding i n => HoldW cap w v i n
  | .committing i n => HoldW cap w v i n ∧ 0 < n
  | .storeLast x i n lap => 0 < n ∧ v.lap = w.lap ∧ x ≤ cap ∧ ((lap = w.lap ∧ i = w.val ∧ i + n ≤ cap) ∨ (lap = w.lap + 1 ∧ i = 0 ∧ n < v.val ∧ x = w.val))
  | .storeWrite i n lap => 0 < n ∧ ((lap = w.lap ∧ i = w.val ∧ i + n ≤ cap ∧ (v.lap = w.lap ∨ (v.lap + 1 = w.lap ∧ w.val + n < v.val))) ∨
      (lap = w.lap + 1 ∧ i = 0 ∧ v.lap = w.lap ∧ n < v.val ∧ L = w.val))
/-- the reserve of a reader that sees `m` -/
def HoldR (r m : Msg) (L i n : Nat) : Prop :=
  (i = r.val ∧ ((m.lap = r.lap ∧ r.val + n ≤ m.val) ∨ (m.lap = r.lap + 1 ∧ r.val + n ≤ L))) ∨ (i = 0 ∧ m.lap = r.lap + 1 ∧ r.val = L ∧ n ≤ m.val)
def WhyOk (r m : Msg) (L : Nat) : Why → Prop
  | .reserve _ => True
  | .commit i n => HoldR r m L i n ∧ 0 < n
def ROk (r m : Msg) (L : Nat) : RPc → Prop
  | .idle => True
  | .loading y => WhyOk r m L y
  | .gotWrite y wv => WhyOk r m L y ∧ wv = m.val
  | .holding i n => HoldR r m L i n
  | .storeRead i n lap => 0 < n ∧ ((lap = r.lap ∧ i = r.val ∧ ((m.lap = r.lap ∧ r.val + n ≤ m.val) ∨ (m.lap = r.lap + 1 ∧ r.val + n ≤ L))) ∨
      (lap = r.lap + 1 ∧ i = 0 ∧ m.lap = r.lap + 1 ∧ r.val = L ∧ n ≤ m.val))
structure Inv (s : St α) : Prop where
  core : Core s
  w : WOk s.cap s.M s.write.top (s.read.m s.pts) s.last.top.val s.wpc
  r : ROk s.read.top (s.write.m s.cts) s.last.top.val s.rpc

theorem inv_init (cap M : Nat) (fixed : Bool) (a : α) (h : cap + 1 < M) : Inv (init cap M fixed a) := by
  refine ⟨?_, trivial, trivial⟩
  constructor <;> simp [init, Atom.top, lexle, ReadOk, Free, WriteOk, Data, addrs, iv, written, taken]
  omega

/-! ## Facts about the addresses -/

theorem mem_addrs (s : St α) (h : Core s) (i : Nat) : i ∈ addrs s ↔
    (s.read.top.lap = s.write.top.lap ∧ s.read.top.val ≤ i ∧ i < s.write.top.val) ∨
    (s.read.top.lap + 1 = s.write.top.lap ∧ ((s.read.top.val ≤ i ∧ i < s.last.top.val) ∨ i < s.write.top.val)) := by
  unfold addrs
  have := h.shape
  split_ifs with e
  · rw [mem_iv]; omega
  · rw [List.mem_append, mem_iv, mem_iv]; omega
theorem not_free (s : St α) (h : Core s) {j i : Nat} (h1 : s.pts ≤ j) (h2 : j ≤ s.read.n) (hi : i ∈ addrs s) : ¬ Free s.write.top (s.read.m j) i := by
  rw [mem_addrs s h] at hi
  have h3 : lexle (s.read.m j) s.read.top := h.rsort j s.read.n h2 (Nat.le_refl _)
  have h4 := h.rok j h1 h2
  have h5 := h.shape
  unfold lexle at h3; unfold ReadOk at h4; unfold Free
  omega
theorem data_mem (s : St α) (h : Core s) {j i : Nat} (h1 : s.cts ≤ j) (h2 : j ≤ s.write.n) (hd : Data s.read.top (s.write.m j) s.last.top.val i) : i ∈ addrs s := by
  rw [mem_addrs s h]
  have h3 : lexle (s.write.m j) s.write.top := h.wsort j s.write.n h2 (Nat.le_refl _)
  have h4 := h.wok j h1 h2
  have h5 := h.shape
  have h6 := h.wlast j h1 h2
  unfold lexle at h3; unfold WriteOk at h4; unfold Data at hd
  omega
theorem holdW_free {s : St α} (h : Core s) {i n j : Nat} (hw : HoldW s.cap s.write.top (s.read.m s.pts) i n) (hj : j < n) : Free s.write.top (s.read.m s.pts) (i + j) := by
  have := h.rok s.pts (Nat.le_refl _) h.ptsle
  unfold HoldW at hw; unfold ReadOk at this; unfold Free
  omega
theorem holdR_data {s : St α} (h : Core s) {i n j : Nat} (hr : HoldR s.read.top (s.write.m s.cts) s.last.top.val i n) (hj : j < n) :
    Data s.read.top (s.write.m s.cts) s.last.top.val (i + j) := by
  unfold HoldR at hr; unfold Data
  omega
theorem addrs_cap {s : St α} (h : Core s) {i : Nat} (hi : i ∈ addrs s) : i < s.cap := by
  rw [mem_addrs s h] at hi
  have := h.wcap; have := h.lcap
  omega
/-- the region of the reader is the beginning of the unread elements -/
theorem holdR_split {s : St α} (h : Core s) {i n : Nat} (hr : HoldR s.read.top (s.write.m s.cts) s.last.top.val i n) : ∃ t, addrs s = List.range' i n ++ t := by
  have h3 : lexle (s.write.m s.cts) s.write.top := h.wsort s.cts s.write.n h.ctsle (Nat.le_refl _)
  have h4 := h.wok s.cts (Nat.le_refl _) h.ctsle
  have h5 := h.shape
  have h6 := h.wlast s.cts (Nat.le_refl _) h.ctsle
  unfold lexle at h3; unfold WriteOk at h4; unfold HoldR at hr
  unfold addrs
  split_ifs with e
  · have : i = s.read.top.val ∧ s.read.top.val + n ≤ s.write.top.val := by omega
    rw [iv_split (b := i + n) (by omega) (by omega), this.1, iv_add]; exact ⟨_, rfl⟩
  · by_cases hz : i = s.read.top.val ∧ s.read.top.val + n ≤ s.last.top.val
    · rw [iv_split (b := i + n) (by omega) (by omega), hz.1, iv_add, List.append_assoc]; exact ⟨_, rfl⟩
    · have : i = 0 ∧ s.read.top.val = s.last.top.val ∧ n ≤ s.write.top.val := by omega
      rw [this.2.1, iv_self, List.nil_append, iv_split (a := 0) (b := 0 + n) (by omega) (by omega), iv_add, this.1]; exact ⟨_, rfl⟩

/-! ## Loads -/

theorem pick_le (a : Atom) (ts k : Nat) : a.pick ts k ≤ a.n := Nat.min_le_right _ _
theorem pick_ge (a : Atom) {ts : Nat} (k : Nat) (h : ts ≤ a.n) : ts ≤ a.pick ts k := by unfold Atom.pick; omega
theorem top_store (a : Atom) (x : Msg) : (a.store x).top = x := upd_same _ _ _
theorem store_old (a : Atom) (x : Msg) {j : Nat} (h : j ≤ a.n) : (a.store x).m j = a.m j := upd_other _ _ (by omega)
theorem store_new (a : Atom) (x : Msg) : (a.store x).m (a.n + 1) = x := upd_same _ _ _

theorem core_seeRead {s : St α} (h : Core s) {j : Nat} (h1 : s.pts ≤ j) (h2 : j ≤ s.read.n) : Core (seeRead s j) :=
  { h with
    ptsle := h2
    rok := fun k hk hn => h.rok k (Nat.le_trans h1 hk) hn
    rfree := fun k hk hn => h.rfree k (Nat.le_trans h1 hk) hn
    pknow := Nat.le_max_right _ _ }
theorem core_seeWrite {s : St α} (h : Core s) {j : Nat} (h1 : s.cts ≤ j) (h2 : j ≤ s.write.n) : Core (seeWrite s j) :=
  { h with
    ctsle := h2
    cltsle := Nat.max_le.mpr ⟨h.cltsle, h.waux j h2⟩
    wok := fun k hk hn => h.wok k (Nat.le_trans h1 hk) hn
    wlast := fun k hk hn => h.wlast k (Nat.le_trans h1 hk) hn
    wdata := fun k hk hn => h.wdata k (Nat.le_trans h1 hk) hn
    cknow := Nat.le_max_right _ _
    clast := Nat.le_max_right _ _ }

theorem holdW_mono {s : St α} (h : Core s) {i n j : Nat} (h1 : s.pts ≤ j) (h2 : j ≤ s.read.n) (hw : HoldW s.cap s.write.top (s.read.m s.pts) i n) :
    HoldW s.cap s.write.top (s.read.m j) i n := by
  have h3 := h.rsort s.pts j h1 h2
  have h4 := h.rok j h1 h2
  have h5 := h.rok s.pts (Nat.le_refl _) h.ptsle
  unfold HoldW at *; unfold lexle at h3; unfold ReadOk at h4 h5
  omega
theorem holdR_mono {s : St α} (h : Core s) {i n j : Nat} (h1 : s.cts ≤ j) (h2 : j ≤ s.write.n) (hr : HoldR s.read.top (s.write.m s.cts) s.last.top.val i n) :
    HoldR s.read.top (s.write.m j) s.last.top.val i n := by
  have h3 := h.wsort s.cts j h1 h2
  have h4 := h.wok j h1 h2
  have h5 := h.wok s.cts (Nat.le_refl _) h.ctsle
  have h6 := h.wlast s.cts (Nat.le_refl _) h.ctsle
  have h7 : lexle (s.write.m j) s.write.top := h.wsort j s.write.n h2 (Nat.le_refl _)
  have h8 := h.shape
  unfold HoldR at *; unfold lexle at h3 h7; unfold WriteOk at h4 h5
  omega

/-! ## The writer -/

theorem core_wput {s : St α} (h : Core s) {i n j : Nat} (hw : HoldW s.cap s.write.top (s.read.m s.pts) i n) (hj : j < n) (v : α) :
    Core { s with slot := upd s.slot (i + j) v, accP := upd s.accP (i + j) (s.pclock + 1), pclock := s.pclock + 1 } := by
  have hf := holdW_free h hw hj
  have hna : i + j ∉ addrs s := fun hm => not_free s h (Nat.le_refl _) h.ptsle hm hf
  exact { h with
    wdata := fun k hk hn a hd => by
      have hm : a ∈ addrs s := data_mem s h hk hn hd
      show upd s.accP (i + j) (s.pclock + 1) a ≤ _
      rw [upd_other _ _ (show a ≠ i + j from fun e => hna (by rw [← e]; exact hm))]; exact h.wdata k hk hn a hd
    pclk := fun a => by
      show upd s.accP (i + j) (s.pclock + 1) a ≤ s.pclock + 1
      by_cases e : a = i + j
      · rw [e, upd_same _ _ _]; exact Nat.le_refl _
      · rw [upd_other _ _ e]; exact Nat.le_succ_of_le (h.pclk a)
    hist := by
      show written s.trace = taken s.trace ++ (addrs s).map (fun a => (a, upd s.slot (i + j) v a))
      rw [h.hist]
      congr 1
      refine List.map_congr_left (fun a ha => ?_)
      rw [upd_other _ _ (show a ≠ i + j from fun e => hna (by rw [← e]; exact ha))] }

theorem holdW_of_reserve {s : St α} (h : Core s) {n fb : Nat} (hn : s.cap + n < s.M) :
    HoldW s.cap s.write.top (s.read.m s.pts) (writeReserve s.cap s.M s.write.top.val (s.read.m s.pts).val n fb).1 (writeReserve s.cap s.M s.write.top.val (s.read.m s.pts).val n fb).2 := by
  have h1 := h.rok s.pts (Nat.le_refl _) h.ptsle
  have h2 := h.wcap
  have h3 := h.rcap s.pts h.ptsle
  have h4 := h.bound
  generalize s.write.top = w at *
  generalize s.read.m s.pts = v at *
  unfold ReadOk at h1
  unfold writeReserve HoldW
  rw [Nat.mod_eq_of_lt (show s.cap - w.val + 1 < s.M by omega), Nat.mod_eq_of_lt (show w.val + n < s.M by omega)]
  split_ifs <;> dsimp only <;> omega

theorem wok_see {s : St α} {j : Nat} {pc : WPc} : WOk s.cap s.M s.write.top (s.read.m j) s.last.top.val pc →
    WOk (seeRead s j).cap (seeRead s j).M (seeRead s j).write.top ((seeRead s j).read.m (seeRead s j).pts) (seeRead s j).last.top.val pc := id

theorem inv_applyWrite {s : St α} (h : Inv s) {i n : Nat} (hw : HoldW s.cap s.write.top (s.read.m s.pts) i n) (hn : 0 < n)
    (hs : (applyWrite s (s.read.m s.pts).val i n).stale = false) : Inv (applyWrite s (s.read.m s.pts).val i n) := by
  have c := h.core
  have h1 := c.rok s.pts (Nat.le_refl _) c.ptsle
  have h2 := c.wcap
  have h3 := c.rcap s.pts c.ptsle
  have h4 := c.bound
  unfold ReadOk at h1; unfold HoldW at hw
  unfold applyWrite at hs ⊢
  rw [Nat.mod_eq_of_lt (show n + 1 < s.M by omega)] at hs ⊢
  split_ifs at hs ⊢ with a1 a2 a3 a4 a5 a6
  · refine ⟨{ c with }, ?_, h.r⟩
    show WOk s.cap s.M s.write.top (s.read.m s.pts) s.last.top.val _
    unfold WOk; dsimp only; omega
  · omega
  · refine ⟨{ c with }, ?_, h.r⟩
    show WOk s.cap s.M s.write.top (s.read.m s.pts) s.last.top.val _
    unfold WOk; dsimp only; omega
  · omega
  · refine ⟨{ c with }, ?_, h.r⟩
    show WOk s.cap s.M s.write.top (s.read.m s.pts) s.last.top.val _
    unfold WOk; dsimp only; omega
  · refine ⟨{ c with }, ?_, h.r⟩
    have : s.last.top.val = s.write.top.val := by
      have : (s.stale || decide (s.last.top.val ≠ s.write.top.val)) = false := hs
      simpa using (Bool.or_eq_false_iff.mp this).2
    show WOk s.cap s.M s.write.top (s.read.m s.pts) s.last.top.val _
    unfold WOk; dsimp only; omega
  · omega

theorem inv_storeLast {s : St α} (h : Inv s) {x i n lap : Nat} (hw : s.wpc = .storeLast x i n lap) :
    Inv { s with last := s.last.store ⟨x, s.pclock, 0, 0⟩, wpc := .storeWrite i n lap } := by
  have c := h.core
  have hw' := h.w
  rw [hw] at hw'
  unfold WOk at hw'; dsimp only at hw'
  have hr : lexle (s.read.m s.pts) s.read.top := c.rsort s.pts s.read.n c.ptsle (Nat.le_refl _)
  have hsh := c.shape
  unfold lexle at hr
  have hlap : s.read.top.lap = s.write.top.lap := by omega
  have key : ∀ j, s.cts ≤ j → j ≤ s.write.n → (s.write.m j).lap = s.read.top.lap := by
    intro j h1 h2
    have h3 : lexle (s.write.m j) s.write.top := c.wsort j s.write.n h2 (Nat.le_refl _)
    have h4 := c.wok j h1 h2
    unfold lexle at h3; unfold WriteOk at h4
    omega
  have ht : (s.last.store ⟨x, s.pclock, 0, 0⟩).top.val = x := by rw [top_store]
  refine ⟨{ c with
    lcap := by show (s.last.store _).top.val ≤ s.cap; rw [ht]; omega
    shape := by left; show s.read.top.lap = s.write.top.lap ∧ s.read.top.val ≤ s.write.top.val; omega
    cltsle := Nat.le_succ_of_le c.cltsle
    wok := ?_
    wlast := ?_
    wdata := ?_
    waux := fun j hj => Nat.le_succ_of_le (c.waux j hj)
    hist := ?_ }, ?_, ?_⟩
  · intro j h1 h2
    have := c.wok j h1 h2
    have := key j h1 h2
    show WriteOk s.read.top (s.write.m j) _
    unfold WriteOk at *; omega
  · intro j h1 h2 h3 h4
    replace h4 : s.write.top.lap = s.read.top.lap + 1 := h4
    omega
  · intro j h1 h2 a hd
    refine c.wdata j h1 h2 a ?_
    have := key j h1 h2
    replace hd : Data s.read.top (s.write.m j) _ a := hd
    unfold Data at *; omega
  · have := c.hist
    rw [show addrs s = iv s.read.top.val s.write.top.val by unfold addrs; rw [if_pos hlap]] at this
    show written s.trace = taken s.trace ++ (addrs _).map (fun a => (a, s.slot a))
    rw [this]
    congr 2
    unfold addrs; rw [if_pos (show s.read.top.lap = s.write.top.lap from hlap)]
  · show WOk s.cap s.M s.write.top (s.read.m s.pts) (s.last.store ⟨x, s.pclock, 0, 0⟩).top.val (.storeWrite i n lap)
    rw [ht]
    unfold WOk; dsimp only; omega
  · have hr' := h.r
    have := key s.cts (Nat.le_refl _) c.ctsle
    show ROk s.read.top (s.write.m s.cts) (s.last.store ⟨x, s.pclock, 0, 0⟩).top.val s.rpc
    cases hp : s.rpc with
    | idle => trivial
    | loading y => rw [hp] at hr'; cases y with
      | reserve m => trivial
      | commit i n => unfold ROk WhyOk HoldR at hr' ⊢; dsimp only at hr' ⊢; omega
    | gotWrite y wv => rw [hp] at hr'; cases y with
      | reserve m => exact ⟨trivial, hr'.2⟩
      | commit i n => unfold ROk WhyOk HoldR at hr' ⊢; dsimp only at hr' ⊢; omega
    | holding i n => rw [hp] at hr'; unfold ROk HoldR at hr' ⊢; dsimp only at hr' ⊢; omega
    | storeRead i n lap => rw [hp] at hr'; unfold ROk at hr' ⊢; dsimp only at hr' ⊢; omega

theorem inv_storeWrite {s : St α} (h : Inv s) {i n lap : Nat} (hw : s.wpc = .storeWrite i n lap) :
    Inv { s with write := s.write.store ⟨i + n, s.pclock, s.last.n, lap⟩, wpc := .idle, trace := s.trace ++ [.wrote i (region s.slot i n)] } := by
  have c := h.core
  have hw' := h.w
  rw [hw] at hw'
  unfold WOk at hw'; dsimp only at hw'
  have hvr : lexle (s.read.m s.pts) s.read.top := c.rsort s.pts s.read.n c.ptsle (Nat.le_refl _)
  have hvo := c.rok s.pts (Nat.le_refl _) c.ptsle
  have hrc := c.rcap s.pts c.ptsle
  have hsh := c.shape
  have hwc := c.wcap
  unfold lexle at hvr; unfold ReadOk at hvo
  have ht : (s.write.store ⟨i + n, s.pclock, s.last.n, lap⟩).top = ⟨i + n, s.pclock, s.last.n, lap⟩ := top_store _ _
  have shape' : (s.read.top.lap = lap ∧ s.read.top.val ≤ i + n) ∨
      (s.read.top.lap + 1 = lap ∧ i + n < s.read.top.val ∧ s.read.top.val ≤ s.last.top.val ∧ s.last.n = s.last.n) := by omega
  refine ⟨{ c with
    wcap := by show (s.write.store _).top.val ≤ s.cap; rw [ht]; dsimp only; omega
    shape := by
      show (s.read.top.lap = (s.write.store _).top.lap ∧ s.read.top.val ≤ (s.write.store _).top.val) ∨
        (s.read.top.lap + 1 = (s.write.store _).top.lap ∧ (s.write.store _).top.val < s.read.top.val ∧ s.read.top.val ≤ s.last.top.val ∧ (s.write.store _).top.aux = s.last.n)
      rw [ht]; exact shape'
    ctsle := Nat.le_succ_of_le c.ctsle
    wsort := ?_
    rok := ?_
    rfree := ?_
    wok := ?_
    wlast := ?_
    wdata := ?_
    cknow := by show ((s.write.store _).m s.cts).clk ≤ _; rw [store_old _ _ c.ctsle]; exact c.cknow
    clast := by show ((s.write.store _).m s.cts).aux ≤ _; rw [store_old _ _ c.ctsle]; exact c.clast
    waux := ?_
    hist := ?_
    noref := ?_ }, trivial, ?_⟩
  · intro a b hab hb
    replace hb : b ≤ s.write.n + 1 := hb
    show lexle ((s.write.store _).m a) ((s.write.store _).m b)
    by_cases e : b = s.write.n + 1
    · subst e
      by_cases e2 : a = s.write.n + 1
      · subst e2; right; exact ⟨rfl, Nat.le_refl _⟩
      · rw [store_new, store_old _ _ (by omega)]
        have : lexle (s.write.m a) s.write.top := c.wsort a s.write.n (by omega) (Nat.le_refl _)
        unfold lexle at *; dsimp only; omega
    · rw [store_old _ _ (by omega), store_old _ _ (by omega)]; exact c.wsort a b hab (by omega)
  · intro j h1 h2
    have h3 := c.rsort s.pts j h1 h2
    have h4 := c.rok j h1 h2
    show ReadOk (s.write.store _).top (s.read.m j)
    rw [ht]
    unfold ReadOk at *; unfold lexle at h3; dsimp only; omega
  · intro j h1 h2 a hf
    have h3 := c.rsort s.pts j h1 h2
    have h4 := c.rok j h1 h2
    replace hf : Free (s.write.store _).top (s.read.m j) a := hf
    rw [ht] at hf
    refine c.rfree j h1 h2 a ?_
    unfold ReadOk at h4; unfold Free at *; unfold lexle at h3; dsimp only at hf; omega
  · intro j h1 h2
    replace h2 : j ≤ s.write.n + 1 := h2
    show WriteOk s.read.top ((s.write.store _).m j) s.last.n
    by_cases e : j = s.write.n + 1
    · subst e; rw [store_new]; unfold WriteOk; dsimp only; omega
    · rw [store_old _ _ (by omega)]; exact c.wok j h1 (by omega)
  · intro j h1 h2 h3 h4
    replace h2 : j ≤ s.write.n + 1 := h2
    replace h3 : ((s.write.store _).m j).lap = s.read.top.lap := h3
    replace h4 : (s.write.store _).top.lap = s.read.top.lap + 1 := h4
    show ((s.write.store _).m j).val ≤ s.last.top.val
    rw [ht] at h4
    by_cases e : j = s.write.n + 1
    · subst e; rw [store_new] at h3; dsimp only at h3 h4; omega
    · rw [store_old _ _ (by omega)] at h3 ⊢
      have h5 := c.wlast j h1 (by omega) h3
      have h6 : lexle (s.write.m j) s.write.top := c.wsort j s.write.n (by omega) (Nat.le_refl _)
      unfold lexle at h6; dsimp only at h4
      omega
  · intro j h1 h2 a hd
    replace h2 : j ≤ s.write.n + 1 := h2
    replace hd : Data s.read.top ((s.write.store _).m j) s.last.top.val a := hd
    show s.accP a ≤ ((s.write.store _).m j).clk
    by_cases e : j = s.write.n + 1
    · subst e; rw [store_new]; exact c.pclk a
    · rw [store_old _ _ (by omega)] at hd ⊢; exact c.wdata j h1 (by omega) a hd
  · intro j hj
    replace hj : j ≤ s.write.n + 1 := hj
    show ((s.write.store _).m j).aux ≤ s.last.n
    by_cases e : j = s.write.n + 1
    · subst e; rw [store_new]; exact Nat.le_refl _
    · rw [store_old _ _ (by omega)]; exact c.waux j (by omega)
  · show written (s.trace ++ _) = taken (s.trace ++ _) ++ (addrs _).map (fun a => (a, s.slot a))
    rw [written_append, taken_append, c.hist]
    show taken s.trace ++ (addrs s).map _ ++ (places i (region s.slot i n) ++ []) = taken s.trace ++ [] ++ _
    rw [List.append_nil, List.append_nil, places_region, List.append_assoc, ← List.map_append]
    congr 2
    unfold addrs
    show (if s.read.top.lap = s.write.top.lap then _ else _) ++ _ = (if s.read.top.lap = (s.write.store _).top.lap then iv s.read.top.val (s.write.store _).top.val
      else iv s.read.top.val s.last.top.val ++ iv 0 (s.write.store _).top.val)
    rw [ht]; dsimp only
    by_cases e : lap = s.write.top.lap
    · have hi : i = s.write.top.val := by omega
      rw [e]
      split_ifs with e2
      · rw [iv_split (b := i) (c := i + n) (by omega) (by omega), iv_add, hi]
      · rw [iv_split (a := 0) (b := i) (c := i + n) (by omega) (by omega), iv_add, hi, List.append_assoc]
    · have : lap = s.write.top.lap + 1 ∧ i = 0 ∧ s.read.top.lap = s.write.top.lap ∧ s.last.top.val = s.write.top.val := by omega
      rw [if_pos this.2.2.1, if_neg (show ¬ s.read.top.lap = lap by omega), this.2.2.2, this.2.1, iv_add]
  · show Ev.refused ∉ s.trace ++ _
    intro hm
    rcases List.mem_append.mp hm with hm | hm
    · exact c.noref hm
    · simp at hm
  · show ROk s.read.top ((s.write.store _).m s.cts) s.last.top.val s.rpc
    rw [store_old _ _ c.ctsle]; exact h.r

/-! ## The reader -/

theorem core_rlook {s : St α} (h : Core s) {i n j : Nat} (hr : HoldR s.read.top (s.write.m s.cts) s.last.top.val i n) (hj : j < n) :
    Core { s with accC := upd s.accC (i + j) (s.cclock + 1), cclock := s.cclock + 1 } := by
  have hm : i + j ∈ addrs s := data_mem s h (Nat.le_refl _) h.ctsle (holdR_data h hr hj)
  exact { h with
    rfree := fun k hk hn a hf => by
      have : a ≠ i + j := fun e => not_free s h hk hn (by rw [e]; exact hm) hf
      show upd s.accC (i + j) (s.cclock + 1) a ≤ _
      rw [upd_other _ _ this]; exact h.rfree k hk hn a hf
    cclk := fun a => by
      show upd s.accC (i + j) (s.cclock + 1) a ≤ s.cclock + 1
      by_cases e : a = i + j
      · rw [e, upd_same _ _ _]; exact Nat.le_refl _
      · rw [upd_other _ _ e]; exact Nat.le_succ_of_le (h.cclk a) }

theorem core_clts {s : St α} (h : Core s) {j : Nat} (h1 : s.clts ≤ j) (h2 : j ≤ s.last.n) : Core { s with clts := j } :=
  { h with cltsle := h2, clast := Nat.le_trans h.clast h1 }

/-- the decision of the reader -/
theorem inv_applyRead {s : St α} (h : Inv s) {y : Why} (hy : WhyOk s.read.top (s.write.m s.cts) s.last.top.val y) {l : Nat}
    (hl : s.read.top.val > (s.write.m s.cts).val → l = s.last.top.val) : Inv (applyRead s (s.write.m s.cts).val l y) := by
  have c := h.core
  have h1 := c.wok s.cts (Nat.le_refl _) c.ctsle
  have h2 := c.wcap
  have h3 : s.read.top.val ≤ s.cap := c.rcap s.read.n (Nat.le_refl _)
  have h4 := c.bound
  have h5 : lexle (s.write.m s.cts) s.write.top := c.wsort s.cts s.write.n c.ctsle (Nat.le_refl _)
  have h6 := c.shape
  have h7 := c.lcap
  have h8 := c.wlast s.cts (Nat.le_refl _) c.ctsle
  unfold WriteOk at h1; unfold lexle at h5
  have hwl : (s.write.m s.cts).val ≤ s.cap := by omega
  have mod1 : ∀ a b, a ≤ b → b ≤ s.cap → (b + s.M - a) % s.M = b - a := by
    intro a b hab hb
    rw [show b + s.M - a = (b - a) + s.M by omega, Nat.add_mod_right, Nat.mod_eq_of_lt (by omega)]
  cases y with
  | reserve mx =>
    refine ⟨{ c with }, h.w, ?_⟩
    show HoldR s.read.top (s.write.m s.cts) s.last.top.val _ _
    unfold readReserve
    by_cases a1 : s.read.top.val > (s.write.m s.cts).val
    · rw [hl a1, if_pos a1]
      by_cases a2 : s.read.top.val = s.last.top.val
      · rw [if_pos a2]; unfold HoldR; dsimp only; split_ifs <;> omega
      · rw [if_neg a2]; unfold HoldR; dsimp only; rw [mod1 _ _ (by omega) h7]; split_ifs <;> omega
    · rw [if_neg a1]; unfold HoldR; dsimp only; rw [mod1 _ _ (by omega) hwl]; split_ifs <;> omega
  | commit i n =>
    unfold WhyOk HoldR at hy; dsimp only at hy
    unfold applyRead readReserve
    by_cases a1 : s.read.top.val > (s.write.m s.cts).val
    · rw [hl a1, if_pos a1]
      by_cases a2 : s.read.top.val = s.last.top.val
      · rw [if_pos a2]; dsimp only
        rw [if_pos (show i = 0 ∧ n = (if (s.write.m s.cts).val < n then (s.write.m s.cts).val else n) by split_ifs <;> omega), if_pos ⟨a1, a2⟩]
        refine ⟨{ c with }, h.w, ?_⟩
        show ROk s.read.top (s.write.m s.cts) s.last.top.val (.storeRead i n _)
        unfold ROk; dsimp only; omega
      · rw [if_neg a2]; dsimp only; rw [mod1 _ _ (by omega) h7]
        rw [if_pos (show i = s.read.top.val ∧ n = (if s.last.top.val - s.read.top.val < n then s.last.top.val - s.read.top.val else n) by split_ifs <;> omega), if_neg (by tauto)]
        refine ⟨{ c with }, h.w, ?_⟩
        show ROk s.read.top (s.write.m s.cts) s.last.top.val (.storeRead i n _)
        unfold ROk; dsimp only; omega
    · rw [if_neg a1]; dsimp only; rw [mod1 _ _ (by omega) hwl]
      rw [if_pos (show i = s.read.top.val ∧ n = (if (s.write.m s.cts).val - s.read.top.val < n then (s.write.m s.cts).val - s.read.top.val else n) by split_ifs <;> omega), if_neg (by tauto)]
      refine ⟨{ c with }, h.w, ?_⟩
      show ROk s.read.top (s.write.m s.cts) s.last.top.val (.storeRead i n _)
      unfold ROk; dsimp only; omega

theorem inv_storeRead {s : St α} (h : Inv s) {i n lap : Nat} (hp : s.rpc = .storeRead i n lap) :
    Inv { s with read := s.read.store ⟨i + n, s.cclock, 0, lap⟩, rpc := .idle, trace := s.trace ++ [.took i (region s.slot i n)] } := by
  have c := h.core
  have hr := h.r
  rw [hp] at hr
  unfold ROk at hr; dsimp only at hr
  have hmw : lexle (s.write.m s.cts) s.write.top := c.wsort s.cts s.write.n c.ctsle (Nat.le_refl _)
  have hmo := c.wok s.cts (Nat.le_refl _) c.ctsle
  have hml := c.wlast s.cts (Nat.le_refl _) c.ctsle
  have hsh := c.shape
  have hwc := c.wcap
  have hlc := c.lcap
  have hH : HoldR s.read.top (s.write.m s.cts) s.last.top.val i n := by unfold HoldR; omega
  unfold lexle at hmw; unfold WriteOk at hmo
  have ht : (s.read.store ⟨i + n, s.cclock, 0, lap⟩).top = ⟨i + n, s.cclock, 0, lap⟩ := top_store _ _
  have shape' : (lap = s.write.top.lap ∧ i + n ≤ s.write.top.val) ∨
      (lap + 1 = s.write.top.lap ∧ s.write.top.val < i + n ∧ i + n ≤ s.last.top.val ∧ s.write.top.aux = s.last.n) := by omega
  refine ⟨{ c with
    rcap := ?_
    shape := by
      show ((s.read.store _).top.lap = s.write.top.lap ∧ (s.read.store _).top.val ≤ s.write.top.val) ∨
        ((s.read.store _).top.lap + 1 = s.write.top.lap ∧ s.write.top.val < (s.read.store _).top.val ∧ (s.read.store _).top.val ≤ s.last.top.val ∧ s.write.top.aux = s.last.n)
      rw [ht]; exact shape'
    ptsle := Nat.le_succ_of_le c.ptsle
    rsort := ?_
    rok := ?_
    rfree := ?_
    pknow := by show ((s.read.store _).m s.pts).clk ≤ _; rw [store_old _ _ c.ptsle]; exact c.pknow
    wok := ?_
    wlast := ?_
    wdata := ?_
    hist := ?_
    noref := ?_ }, ?_, trivial⟩
  · intro j hj
    replace hj : j ≤ s.read.n + 1 := hj
    show ((s.read.store _).m j).val ≤ s.cap
    by_cases e : j = s.read.n + 1
    · subst e; rw [store_new]; dsimp only; omega
    · rw [store_old _ _ (by omega)]; exact c.rcap j (by omega)
  · intro a b hab hb
    replace hb : b ≤ s.read.n + 1 := hb
    show lexle ((s.read.store _).m a) ((s.read.store _).m b)
    by_cases e : b = s.read.n + 1
    · subst e
      by_cases e2 : a = s.read.n + 1
      · subst e2; right; exact ⟨rfl, Nat.le_refl _⟩
      · rw [store_new, store_old _ _ (by omega)]
        have : lexle (s.read.m a) s.read.top := c.rsort a s.read.n (by omega) (Nat.le_refl _)
        unfold lexle at *; dsimp only; omega
    · rw [store_old _ _ (by omega), store_old _ _ (by omega)]; exact c.rsort a b hab (by omega)
  · intro j h1 h2
    replace h2 : j ≤ s.read.n + 1 := h2
    show ReadOk s.write.top ((s.read.store _).m j)
    by_cases e : j = s.read.n + 1
    · subst e; rw [store_new]; unfold ReadOk; dsimp only; omega
    · rw [store_old _ _ (by omega)]; exact c.rok j h1 (by omega)
  · intro j h1 h2 a hf
    replace h2 : j ≤ s.read.n + 1 := h2
    replace hf : Free s.write.top ((s.read.store _).m j) a := hf
    show s.accC a ≤ ((s.read.store _).m j).clk
    by_cases e : j = s.read.n + 1
    · subst e; rw [store_new]; exact c.cclk a
    · rw [store_old _ _ (by omega)] at hf ⊢; exact c.rfree j h1 (by omega) a hf
  · intro j h1 h2
    have h3 := c.wsort s.cts j h1 h2
    have h4 := c.wok j h1 h2
    have h5 : lexle (s.write.m j) s.write.top := c.wsort j s.write.n h2 (Nat.le_refl _)
    show WriteOk (s.read.store _).top (s.write.m j) s.last.n
    rw [ht]
    unfold WriteOk at *; unfold lexle at h3 h5; dsimp only; omega
  · intro j h1 h2 h3 h4
    replace h3 : (s.write.m j).lap = (s.read.store _).top.lap := h3
    replace h4 : s.write.top.lap = (s.read.store _).top.lap + 1 := h4
    rw [ht] at h3 h4
    dsimp only at h3 h4
    exact c.wlast j h1 h2 (by omega) (by omega)
  · intro j h1 h2 a hd
    have h3 := c.wsort s.cts j h1 h2
    have h4 := c.wok j h1 h2
    have h5 : lexle (s.write.m j) s.write.top := c.wsort j s.write.n h2 (Nat.le_refl _)
    replace hd : Data (s.read.store _).top (s.write.m j) s.last.top.val a := hd
    rw [ht] at hd
    refine c.wdata j h1 h2 a ?_
    unfold WriteOk at h4; unfold Data at *; unfold lexle at h3 h5; dsimp only at hd; omega
  · show written (s.trace ++ _) = taken (s.trace ++ _) ++ (addrs _).map (fun a => (a, s.slot a))
    rw [written_append, taken_append, c.hist]
    show taken s.trace ++ (addrs s).map _ ++ [] = taken s.trace ++ (places i (region s.slot i n) ++ []) ++ _
    rw [List.append_nil, List.append_nil, places_region, List.append_assoc, ← List.map_append]
    congr 2
    unfold addrs
    show (if s.read.top.lap = s.write.top.lap then _ else _) = _ ++ (if (s.read.store _).top.lap = s.write.top.lap then iv (s.read.store _).top.val s.write.top.val
      else iv (s.read.store _).top.val s.last.top.val ++ iv 0 s.write.top.val)
    rw [ht]; dsimp only
    by_cases e : lap = s.read.top.lap
    · have hi : i = s.read.top.val := by omega
      rw [e]
      split_ifs with e2
      · rw [iv_split (b := i + n) (by omega) (by omega), ← hi, iv_add]
      · rw [iv_split (b := i + n) (by omega) (by omega), ← hi, iv_add, List.append_assoc]
    · have : lap = s.read.top.lap + 1 ∧ i = 0 ∧ lap = s.write.top.lap ∧ s.read.top.val = s.last.top.val := by omega
      rw [if_neg (show ¬ s.read.top.lap = s.write.top.lap by omega), if_pos this.2.2.1, this.2.2.2, iv_self, List.nil_append, this.2.1,
        iv_split (a := 0) (b := 0 + n) (by omega) (by omega), iv_add]
  · show Ev.refused ∉ s.trace ++ _
    intro hm
    rcases List.mem_append.mp hm with hm | hm
    · exact c.noref hm
    · simp at hm
  · show WOk s.cap s.M s.write.top ((s.read.store _).m s.pts) s.last.top.val s.wpc
    rw [store_old _ _ c.ptsle]; exact h.w

/-! ## Every step -/

theorem stale_applyWrite (s : St α) (r i n : Nat) (h : s.stale = true) : (applyWrite s r i n).stale = true := by
  unfold applyWrite
  split_ifs <;> simp [h]
theorem stale_mono {s s' : St α} {a : Act α} (h : step s a = .ok s') (hs : s.stale = true) : s'.stale = true := by
  cases a with
  | wStep k =>
    simp only [step, Except.ok.injEq] at h; subst h
    unfold stepW
    split
    all_goals first | exact hs | exact stale_applyWrite _ _ _ _ hs
  | rStep k =>
    simp only [step, Except.ok.injEq] at h; subst h
    unfold stepR
    split
    · exact hs
    · exact hs
    · exact hs
    · dsimp only
      split_ifs
      · rename_i y wv _ _; cases y <;> (unfold applyRead; dsimp only; try split_ifs) <;> exact hs
      · rename_i y wv _ _; cases y <;> (unfold applyRead; dsimp only; try split_ifs) <;> exact hs
    · exact hs
  | _ =>
    simp only [step] at h
    (repeat' split at h) <;> first | (simp only [Except.ok.injEq] at h; subst h; exact hs) | cases h

theorem inv_step {s s' : St α} {a : Act α} (h : Inv s) (hz : sized s a) (hr : step s a = .ok s') (hs : s'.stale = false) : Inv s' := by
  have c := h.core
  have hw := h.w
  have hrr := h.r
  cases a with
  | wReserve n fb =>
    simp only [step] at hr
    split at hr <;> (simp only [Except.ok.injEq] at hr; subst hr)
    · exact ⟨{ c with }, hz, h.r⟩
    · exact ⟨{ c with }, hz, h.r⟩
    · exact h
  | wPut j v =>
    simp only [step] at hr
    split at hr
    · rename_i i n hp
      rw [hp] at hw
      split_ifs at hr with h1 h2 h3
      · simp only [Except.ok.injEq] at hr; subst hr
        refine ⟨core_wput c hw h1 v, ?_, h.r⟩
        show WOk s.cap s.M s.write.top (s.read.m s.pts) s.last.top.val s.wpc
        rw [hp]; exact hw
      · simp only [Except.ok.injEq] at hr; subst hr; exact h
    · simp only [Except.ok.injEq] at hr; subst hr; exact h
  | wCommit n =>
    simp only [step] at hr
    split at hr
    · rename_i i m hp
      rw [hp] at hw
      split_ifs at hr with h1 h2 <;> (simp only [Except.ok.injEq] at hr; subst hr)
      · refine ⟨{ c with }, ⟨?_, h2⟩, h.r⟩
        unfold WOk HoldW at hw
        show HoldW s.cap s.write.top (s.read.m s.pts) i n
        unfold HoldW; omega
      · exact ⟨{ c with }, trivial, h.r⟩
      · exact h
    · simp only [Except.ok.injEq] at hr; subst hr; exact h
  | wStep k =>
    simp only [step, Except.ok.injEq] at hr; subst hr
    have h1 := pick_ge s.read k c.ptsle
    have h2 := pick_le s.read s.pts k
    unfold stepW at hs ⊢
    split at hs
    · exact h
    · exact h
    · rename_i n fb hp
      rw [hp] at hw
      have c' := core_seeRead c h1 h2
      exact ⟨{ c' with }, holdW_of_reserve c' (n := n) (fb := fb) hw, h.r⟩
    · rename_i i n hp
      rw [hp] at hw
      have c' := core_seeRead c h1 h2
      have hm := holdW_mono c h1 h2 hw.1
      have hinv : Inv (seeRead s (s.read.pick s.pts k)) := by
        refine ⟨c', ?_, h.r⟩
        show WOk s.cap s.M s.write.top (s.read.m (s.read.pick s.pts k)) s.last.top.val s.wpc
        rw [hp]; exact ⟨hm, hw.2⟩
      exact inv_applyWrite hinv hm hw.2 hs
    · rename_i x i n lap hp; exact inv_storeLast h hp
    · rename_i i n lap hp; exact inv_storeWrite h hp
  | rReserve mx =>
    simp only [step] at hr
    split at hr <;> (simp only [Except.ok.injEq] at hr; subst hr)
    · exact ⟨{ c with }, h.w, trivial⟩
    · exact ⟨{ c with }, h.w, trivial⟩
    · exact h
  | rLook j =>
    simp only [step] at hr
    split at hr
    · rename_i i n hp
      rw [hp] at hrr
      split_ifs at hr with h1 h2 h3
      · simp only [Except.ok.injEq] at hr; subst hr
        refine ⟨core_rlook c hrr h1, h.w, ?_⟩
        show ROk s.read.top (s.write.m s.cts) s.last.top.val s.rpc
        rw [hp]; exact hrr
      · simp only [Except.ok.injEq] at hr; subst hr; exact h
    · simp only [Except.ok.injEq] at hr; subst hr; exact h
  | rCommit n =>
    simp only [step] at hr
    split at hr
    · rename_i i m hp
      rw [hp] at hrr
      split_ifs at hr with h1 h2 <;> (simp only [Except.ok.injEq] at hr; subst hr)
      · refine ⟨{ c with }, h.w, ?_, h2⟩
        unfold ROk HoldR at hrr
        show HoldR s.read.top (s.write.m s.cts) s.last.top.val i n
        unfold HoldR; dsimp only at hrr; omega
      · exact ⟨{ c with }, h.w, trivial⟩
      · exact h
    · simp only [Except.ok.injEq] at hr; subst hr; exact h
  | rStep k =>
    simp only [step, Except.ok.injEq] at hr; subst hr
    have h1 := pick_ge s.write k c.ctsle
    have h2 := pick_le s.write s.cts k
    unfold stepR at hs ⊢
    split at hs
    · exact h
    · exact h
    · rename_i y hp
      rw [hp] at hrr
      have c' := core_seeWrite c h1 h2
      refine ⟨{ c' with }, h.w, ?_, rfl⟩
      cases y with
      | reserve m => trivial
      | commit i n => exact ⟨holdR_mono c h1 h2 hrr.1, hrr.2⟩
    · rename_i y wv hp
      rw [hp] at hrr
      have hwv : wv = (s.write.m s.cts).val := hrr.2
      subst hwv
      dsimp only
      by_cases a1 : s.read.top.val > (s.write.m s.cts).val
      · rw [if_pos a1]
        have hm := c.wok s.cts (Nat.le_refl _) c.ctsle
        have ha := c.clast
        have hc := c.cltsle
        unfold WriteOk at hm
        have hj : s.last.pick s.clts k = s.last.n := by unfold Atom.pick; omega
        rw [hj]
        have hinv : Inv { s with clts := s.last.n } := ⟨core_clts c hc (Nat.le_refl _), h.w, h.r⟩
        exact inv_applyRead hinv hrr.1 (fun _ => rfl)
      · rw [if_neg a1]
        exact inv_applyRead h hrr.1 (fun hc => absurd hc a1)
    · rename_i i n lap hp; exact inv_storeRead h hp

theorem inv_defined {s : St α} (h : Inv s) (a : Act α) : ∃ s', step s a = .ok s' := by
  have c := h.core
  have hw := h.w
  have hrr := h.r
  cases a with
  | wReserve n fb => simp only [step]; split <;> exact ⟨_, rfl⟩
  | wPut j v =>
    simp only [step]
    split
    · rename_i i n hp
      rw [hp] at hw
      by_cases h1 : j < n
      · have hf := c.rfree s.pts (Nat.le_refl _) c.ptsle _ (holdW_free c hw h1)
        have hc : i + j < s.cap := by unfold WOk HoldW at hw; omega
        rw [if_pos h1, if_pos hc, if_pos (Nat.le_trans hf c.pknow)]; exact ⟨_, rfl⟩
      · rw [if_neg h1]; exact ⟨_, rfl⟩
    · exact ⟨_, rfl⟩
  | wCommit n => simp only [step]; repeat' split
                 all_goals exact ⟨_, rfl⟩
  | wStep k => exact ⟨_, rfl⟩
  | rReserve n => simp only [step]; split <;> exact ⟨_, rfl⟩
  | rLook j =>
    simp only [step]
    split
    · rename_i i n hp
      rw [hp] at hrr
      by_cases h1 : j < n
      · have hd := holdR_data c hrr h1
        have hf := c.wdata s.cts (Nat.le_refl _) c.ctsle _ hd
        have hc : i + j < s.cap := addrs_cap c (data_mem s c (Nat.le_refl _) c.ctsle hd)
        rw [if_pos h1, if_pos hc, if_pos (Nat.le_trans hf c.cknow)]; exact ⟨_, rfl⟩
      · rw [if_neg h1]; exact ⟨_, rfl⟩
    · exact ⟨_, rfl⟩
  | rCommit n => simp only [step]; repeat' split
                 all_goals exact ⟨_, rfl⟩
  | rStep k => exact ⟨_, rfl⟩

theorem cap_step {s s' : St α} {a : Act α} (h : step s a = .ok s') : s'.cap = s.cap ∧ s'.M = s.M ∧ s'.fixed = s.fixed := by
  cases a with
  | wStep k =>
    simp only [step, Except.ok.injEq] at h; subst h
    unfold stepW
    split
    all_goals first | exact ⟨rfl, rfl, rfl⟩ | (unfold applyWrite; dsimp only; split_ifs <;> exact ⟨rfl, rfl, rfl⟩)
  | rStep k =>
    simp only [step, Except.ok.injEq] at h; subst h
    unfold stepR
    split
    · exact ⟨rfl, rfl, rfl⟩
    · exact ⟨rfl, rfl, rfl⟩
    · exact ⟨rfl, rfl, rfl⟩
    · dsimp only
      split_ifs
      · rename_i y wv _ _; cases y <;> (unfold applyRead; dsimp only; try split_ifs) <;> exact ⟨rfl, rfl, rfl⟩
      · rename_i y wv _ _; cases y <;> (unfold applyRead; dsimp only; try split_ifs) <;> exact ⟨rfl, rfl, rfl⟩
    · exact ⟨rfl, rfl, rfl⟩
  | _ =>
    simp only [step] at h
    (repeat' split at h) <;> first | (simp only [Except.ok.injEq] at h; subst h; exact ⟨rfl, rfl, rfl⟩) | cases h

theorem good_of_inv {s : St α} (h : Inv s) : Good s := by
  have c := h.core
  refine ⟨⟨(addrs s).map (fun a => (a, s.slot a)), c.hist, ?_, ?_, ?_, ?_⟩, c.noref, inv_defined h⟩
  · intro p hp
    obtain ⟨a, ha, rfl⟩ := List.mem_map.mp hp
    exact ⟨rfl, addrs_cap c ha⟩
  · rw [List.map_map]
    show ((addrs s).map id).Nodup
    rw [List.map_id]
    have h1 := c.shape
    unfold addrs
    split_ifs with e
    · exact List.nodup_range'
    · rw [List.nodup_append]
      refine ⟨List.nodup_range', List.nodup_range', ?_⟩
      intro a ha b hb
      rw [mem_iv] at ha hb
      omega
  · intro i n hp
    have hw := h.w
    rw [hp] at hw
    refine ⟨hw.1, fun p hm hc => ?_⟩
    obtain ⟨a, ha, rfl⟩ := List.mem_map.mp hm
    dsimp only at hc
    have := holdW_free c hw (j := a - i) (by omega)
    rw [show i + (a - i) = a by omega] at this
    exact not_free s c (Nat.le_refl _) c.ptsle ha this
  · intro i n hp
    have hr := h.r
    rw [hp] at hr
    obtain ⟨t, ht⟩ := holdR_split c hr
    rw [ht, places_region, List.map_append]
    exact List.prefix_append _ _

theorem inv_run {s s' : St α} (acts : List (Act α)) (h : Inv s) (hz : ∀ a ∈ acts, sized s a) (hr : run s acts = .ok s') (hs : s'.stale = false) : Inv s' := by
  induction acts generalizing s with
  | nil => simp only [run, Except.ok.injEq] at hr; subst hr; exact h
  | cons a as ih =>
    simp only [run] at hr
    cases e : step s a with
    | error x => rw [e] at hr; cases hr
    | ok s1 =>
      rw [e] at hr
      replace hr : run s1 as = .ok s' := hr
      have mono : ∀ (as : List (Act α)) (t : St α), run t as = .ok s' → t.stale = true → s'.stale = true := by
        intro as
        induction as with
        | nil => intro t ht h1; simp only [run, Except.ok.injEq] at ht; subst ht; exact h1
        | cons b bs ih2 =>
          intro t ht h1
          simp only [run] at ht
          cases e2 : step t b with
          | error x => rw [e2] at ht; cases ht
          | ok t1 => rw [e2] at ht; exact ih2 t1 ht (stale_mono e2 h1)
      have h1 : s1.stale = false := by
        cases hb : s1.stale with
        | false => rfl
        | true => rw [mono as s1 hr hb] at hs; cases hs
      have hi := inv_step h (hz a (by simp)) e h1
      refine ih hi (fun b hb => ?_) hr
      have := hz b (by simp [hb])
      obtain ⟨c1, c2, _⟩ := cap_step e
      cases b <;> first | trivial | (unfold sized at *; rw [c1, c2]; exact this)

/-- C04, for the code as it is, and for every history of reserves, trimmed commits and slot accesses, every interleaving, and every stale value that the memory model allows: as long as the writer has never wrapped
while `last` was not the end of the data, the state is `Good`.  What is missing: the code does not keep that condition, see `stale_wrap_reads_old_data`. -/
theorem C04_partial (cap M : Nat) (fixed : Bool) (a : α) (acts : List (Act α)) (s : St α) (hM : cap + 1 < M) (hz : ∀ n fb, Act.wReserve n fb ∈ acts → cap + n < M)
    (hr : run (init cap M fixed a) acts = .ok s) (hs : s.stale = false) : Good s := by
  refine good_of_inv (inv_run acts (inv_init cap M fixed a hM) (fun b hb => ?_) hr hs)
  cases b <;> first | trivial | exact hz _ _ hb

/-- with the missing store of `last` the writer never wraps while `last` is not the end of the data -/
theorem fixed_never_stale {s s' : St α} (acts : List (Act α)) (hf : s.fixed = true) (h : s.stale = false) (hr : run s acts = .ok s') : s'.stale = false := by
  induction acts generalizing s with
  | nil => simp only [run, Except.ok.injEq] at hr; subst hr; exact h
  | cons a as ih =>
    simp only [run] at hr
    cases e : step s a with
    | error x => rw [e] at hr; cases hr
    | ok s1 =>
      rw [e] at hr
      refine ih ((cap_step e).2.2.trans hf) ?_ hr
      cases a with
      | wStep k =>
        simp only [step, Except.ok.injEq] at e; subst e
        unfold stepW
        split
        all_goals first | exact h | skip
        show (applyWrite (seeRead s _) _ _ _).stale = false
        unfold applyWrite
        rw [if_pos (show (seeRead s _).fixed = true from hf)]
        split_ifs <;> exact h
      | rStep k =>
        simp only [step, Except.ok.injEq] at e; subst e
        unfold stepR
        split
        · exact h
        · exact h
        · exact h
        · dsimp only
          split_ifs
          · rename_i y wv _ _; cases y <;> (unfold applyRead; dsimp only; try split_ifs) <;> exact h
          · rename_i y wv _ _; cases y <;> (unfold applyRead; dsimp only; try split_ifs) <;> exact h
        · exact h
      | _ =>
        simp only [step] at e
        (repeat' split at e) <;> first | (simp only [Except.ok.injEq] at e; subst e; exact h) | cases e
/-- C04 without condition, for the code with the missing store: the wrap first stores the end of the data to `last`. -/
theorem C04_corrected (cap M : Nat) (a : α) (acts : List (Act α)) (hM : cap + 1 < M) (hz : ∀ n fb, Act.wReserve n fb ∈ acts → cap + n < M) :
    ∃ s, run (init cap M true a) acts = .ok s ∧ Good s := by
  have : ∀ (as : List (Act α)) (s : St α), Inv s → s.cap = cap → s.M = M → s.fixed = true → s.stale = false → (∀ n fb, Act.wReserve n fb ∈ as → cap + n < M) → ∃ s', run s as = .ok s' ∧ Inv s' := by
    intro as
    induction as with
    | nil => intro s h _ _ _ _ _; exact ⟨s, rfl, h⟩
    | cons b bs ih =>
      intro s h h1 h2 h3 h4 h5
      obtain ⟨s1, e⟩ := inv_defined h b
      have hst : s1.stale = false := fixed_never_stale [b] h3 h4 (by simp only [run, e])
      have hi := inv_step h (by cases b <;> first | trivial | (unfold sized; rw [h1, h2]; exact h5 _ _ List.mem_cons_self)) e hst
      obtain ⟨c1, c2, c3⟩ := cap_step e
      obtain ⟨s', hr, hv⟩ := ih s1 hi (c1.trans h1) (c2.trans h2) (c3.trans h3) hst (fun n fb hm => h5 n fb (by simp [hm]))
      exact ⟨s', by simp only [run, e]; exact hr, hv⟩
  obtain ⟨s, h1, h2⟩ := this acts (init cap M true a) (inv_init cap M true a hM) rfl rfl rfl rfl hz
  exact ⟨s, h1, good_of_inv h2⟩

/-! ## A discipline under which the code as it is is correct -/

/-- records of `k` elements: every reserve is for `k` elements, and a commit is for `k` elements or for none -/
def Records (k : Nat) : Act α → Prop
  | .wReserve n _ => n = k
  | .wCommit n => n = k ∨ n = 0
  | _ => True
structure Disc (k : Nat) (s : St α) : Prop where
  cap : k ∣ s.cap
  w : k ∣ s.write.top.val
  full : s.write.top.val = s.cap → s.last.top.val = s.cap
  pc : match s.wpc with
    | .idle => True
    | .reserving n _ => n = k
    | .holding i _ => i = s.write.top.val ∨ s.write.top.val = s.cap
    | .committing i n => n = k ∧ (i = s.write.top.val ∨ s.write.top.val = s.cap)
    | .storeLast x i n lap => n = k ∧ x = i + n ∧ i = s.write.top.val
    | .storeWrite i n _ => n = k ∧ k ∣ i ∧ (i + n = s.cap → s.last.top.val = s.cap)

theorem disc_same {k : Nat} {s s' : St α} (h : Disc k s) (h1 : s'.cap = s.cap) (h2 : s'.write = s.write) (h3 : s'.last = s.last) (h4 : s'.wpc = s.wpc) : Disc k s' := by
  obtain ⟨a, b, c, d⟩ := h
  refine ⟨by rw [h1]; exact a, by rw [h2]; exact b, by rw [h1, h2, h3]; exact c, ?_⟩
  rw [h1, h2, h3, h4]; exact d
theorem multiple_end {k w cap : Nat} (h1 : k ∣ cap) (h2 : k ∣ w) (h3 : w ≤ cap) (h4 : ¬ k ≤ cap - w) : w = cap := by
  have h5 := Nat.dvd_sub h1 h2
  by_contra hne
  exact h4 (Nat.le_of_dvd (by omega) h5)

theorem disc_step {k : Nat} {s s' : St α} {a : Act α} (hk : 0 < k) (h : Inv s) (hd : Disc k s) (hf : s.fixed = false) (hs : s.stale = false) (ha : Records k a)
    (hr : step s a = .ok s') : s'.stale = false ∧ Disc k s' := by
  have c := h.core
  have hw := h.w
  obtain ⟨d1, d2, d3, d4⟩ := hd
  cases a with
  | wReserve n fb =>
    simp only [step] at hr
    split at hr <;> (simp only [Except.ok.injEq] at hr; subst hr)
    · exact ⟨hs, d1, d2, d3, ha⟩
    · exact ⟨hs, d1, d2, d3, ha⟩
    · exact ⟨hs, d1, d2, d3, d4⟩
  | wCommit n =>
    simp only [step] at hr
    split at hr
    · rename_i i m hp
      rw [hp] at d4
      split_ifs at hr with h1 h2 <;> (simp only [Except.ok.injEq] at hr; subst hr)
      · refine ⟨hs, d1, d2, d3, ?_, d4⟩
        have : n = k ∨ n = 0 := ha
        omega
      · exact ⟨hs, d1, d2, d3, trivial⟩
      · refine ⟨hs, d1, d2, d3, ?_⟩
        rw [hp]; exact d4
    · simp only [Except.ok.injEq] at hr; subst hr; exact ⟨hs, d1, d2, d3, d4⟩
  | wStep j =>
    simp only [step, Except.ok.injEq] at hr; subst hr
    have p1 := pick_ge s.read j c.ptsle
    have p2 := pick_le s.read s.pts j
    unfold stepW
    split
    · exact ⟨hs, d1, d2, d3, d4⟩
    · exact ⟨hs, d1, d2, d3, d4⟩
    · rename_i n fb hp
      rw [hp] at d4 hw
      refine ⟨hs, d1, d2, d3, ?_⟩
      show (writeReserve s.cap s.M s.write.top.val _ n fb).1 = s.write.top.val ∨ s.write.top.val = s.cap
      have d4' : n = k := d4
      subst d4'
      have hwc := c.wcap
      unfold writeReserve
      split_ifs with a1 a2 a3
      · exact Or.inl rfl
      · exact Or.inl rfl
      · exact Or.inr (multiple_end d1 d2 hwc a2)
      · exact Or.inr (multiple_end d1 d2 hwc a2)
      · exact Or.inr (multiple_end d1 d2 hwc a2)
      all_goals exact Or.inl rfl
    · rename_i i n hp
      rw [hp] at d4 hw
      have hm := holdW_mono c p1 p2 hw.1
      have ho := c.rok _ p1 p2
      have hrc := c.rcap _ p2
      obtain ⟨rfl, d5⟩ : n = k ∧ (i = s.write.top.val ∨ s.write.top.val = s.cap) := d4
      unfold HoldW at hm; unfold ReadOk at ho
      have hb := c.bound
      show (applyWrite (seeRead s (s.read.pick s.pts j)) (s.read.m (s.read.pick s.pts j)).val i n).stale = false ∧ Disc n (applyWrite (seeRead s (s.read.pick s.pts j)) (s.read.m (s.read.pick s.pts j)).val i n)
      generalize s.read.pick s.pts j = q at *
      unfold applyWrite
      split_ifs with a1 a2 a3 a4 a5 a6
      · refine ⟨hs, d1, d2, d3, rfl, ?_, ?_⟩
        · have : i = s.write.top.val := a2.1
          rw [this]; exact d2
        · intro e
          replace e : i + n = s.cap := e
          replace a1 : s.write.top.val < _ := a1
          omega
      · exact ⟨hs, d1, d2, d3, trivial⟩
      · exact ⟨hs, d1, d2, d3, rfl, rfl, a3⟩
      · exact ⟨hs, d1, d2, d3, trivial⟩
      · replace a6 : s.fixed = true := a6
        rw [hf] at a6; cases a6
      · have hc : s.write.top.val = s.cap := by
          rcases d5 with d5 | d5
          · exact absurd d5 a3
          · exact d5
        refine ⟨?_, d1, d2, d3, rfl, ?_, ?_⟩
        · show (s.stale || decide (s.last.top.val ≠ s.write.top.val)) = false
          rw [hs, d3 hc, hc]; simp
        · rw [a5.1]; exact Nat.dvd_zero _
        · intro e
          replace e : i + n = s.cap := e
          exact d3 hc
      · exact ⟨hs, d1, d2, d3, trivial⟩
    · rename_i x i n lap hp
      rw [hp] at d4 hw
      obtain ⟨rfl, rfl, d6⟩ : n = k ∧ x = i + n ∧ i = s.write.top.val := d4
      have ho := c.rok s.pts (Nat.le_refl _) c.ptsle
      unfold WOk at hw; unfold ReadOk at ho; dsimp only at hw
      refine ⟨hs, d1, d2, ?_, rfl, ?_, ?_⟩
      · intro e
        replace e : s.write.top.val = s.cap := e
        omega
      · rw [d6]; exact d2
      · intro e
        replace e : i + n = s.cap := e
        show (s.last.store _).top.val = s.cap
        rw [top_store]; exact e
    · rename_i i n lap hp
      rw [hp] at d4
      obtain ⟨rfl, d5, d6⟩ : n = k ∧ k ∣ i ∧ (i + n = s.cap → s.last.top.val = s.cap) := d4
      refine ⟨hs, d1, ?_, ?_, trivial⟩
      · show n ∣ (s.write.store _).top.val
        rw [top_store]; exact Nat.dvd_add d5 (Nat.dvd_refl _)
      · show (s.write.store _).top.val = s.cap → _
        rw [top_store]; exact d6
  | rStep j =>
    simp only [step, Except.ok.injEq] at hr; subst hr
    unfold stepR
    split
    · exact ⟨hs, d1, d2, d3, d4⟩
    · exact ⟨hs, d1, d2, d3, d4⟩
    · exact ⟨hs, d1, d2, d3, d4⟩
    · dsimp only
      split_ifs
      · rename_i y wv _ _; cases y <;> (unfold applyRead; dsimp only; try split_ifs) <;> exact ⟨hs, d1, d2, d3, d4⟩
      · rename_i y wv _ _; cases y <;> (unfold applyRead; dsimp only; try split_ifs) <;> exact ⟨hs, d1, d2, d3, d4⟩
    · exact ⟨hs, d1, d2, d3, d4⟩
  | _ =>
    simp only [step] at hr
    (repeat' split at hr) <;> first | (simp only [Except.ok.injEq] at hr; subst hr; exact ⟨hs, d1, d2, d3, d4⟩) | cases hr

/-- C04 for the code as it is and a writer with records of a fixed size that divides the capacity: no condition on the state.  The reader is not restricted. -/
theorem C04_records (cap M k : Nat) (a : α) (acts : List (Act α)) (hM : cap + 1 < M) (hkM : cap + k < M) (hk : 0 < k) (hdiv : k ∣ cap) (hz : ∀ b ∈ acts, Records k b) :
    ∃ s, run (init cap M false a) acts = .ok s ∧ Good s := by
  have : ∀ (as : List (Act α)) (s : St α), Inv s → Disc k s → s.cap = cap → s.M = M → s.fixed = false → s.stale = false → (∀ b ∈ as, Records k b) → ∃ s', run s as = .ok s' ∧ Inv s' := by
    intro as
    induction as with
    | nil => intro s h _ _ _ _ _ _; exact ⟨s, rfl, h⟩
    | cons b bs ih =>
      intro s h hd h1 h2 h3 h4 h5
      obtain ⟨s1, e⟩ := inv_defined h b
      have hb := h5 b List.mem_cons_self
      obtain ⟨hst, hd1⟩ := disc_step hk h hd h3 h4 hb e
      have hi := inv_step h (by cases b <;> first | trivial | (unfold sized; rw [h1, h2]; unfold Records at hb; rw [hb]; exact hkM)) e hst
      obtain ⟨c1, c2, c3⟩ := cap_step e
      obtain ⟨s', hr, hv⟩ := ih s1 hi hd1 (c1.trans h1) (c2.trans h2) (c3.trans h3) hst (fun x hm => h5 x (List.mem_cons_of_mem _ hm))
      exact ⟨s', by simp only [run, e]; exact hr, hv⟩
  obtain ⟨s, h1, h2⟩ := this acts (init cap M false a) (inv_init cap M false a hM) ⟨hdiv, Nat.dvd_zero _, fun h => h, trivial⟩ rfl rfl rfl rfl hz
  exact ⟨s, h1, good_of_inv h2⟩

/-! ## The reserve is as large as promised -/

/-- a writer alone with an empty buffer gets what it asks for, if the buffer is large enough -/
theorem reserve_from_empty (cap M n fb : Nat) (h : n ≤ cap) : writeReserve cap M 0 0 n fb = (0, n) := by
  unfold writeReserve; rw [if_pos (Nat.le_refl 0), if_pos (by omega)]

/-! ## Examples and findings -/

/-- write `vs` with one reserve: reserve, load, fill, commit, load, store, store -/
def put (n : Nat) (vs : List Nat) : List (Act Nat) :=
  [.wReserve n 1000, .wStep 99] ++ vs.zipIdx.map (fun p => .wPut p.2 p.1) ++ [.wCommit vs.length, .wStep 99, .wStep 99, .wStep 99]
/-- read up to `n` elements -/
def get (n : Nat) : List (Act Nat) :=
  [.rReserve 1000, .rStep 99, .rStep 99] ++ (List.range n).map .rLook ++ [.rCommit n, .rStep 99, .rStep 99, .rStep 99]

/-- the hypotheses of `C04_partial` are met by a history with a wrap, with both threads, and with a trimmed commit -/
example : (match run (init 10 256 false 0) (put 8 [1,2,3,4,5,6,7,8] ++ get 7 ++ put 5 [9, 10, 11] ++ get 1 ++ [.rReserve 9, .rStep 0, .wReserve 4 9, .wStep 0, .rStep 7]) with
    | .ok s => !s.stale && written s.trace == [(0,1),(1,2),(2,3),(3,4),(4,5),(5,6),(6,7),(7,8),(0,9),(1,10),(2,11)] && (taken s.trace).length == 8 && (match s.rpc with | .holding 0 3 => true | _ => false)
        && (match s.wpc with | .holding 3 3 => true | _ => false)
    | .error _ => false) = true := by decide +kernel
/-- the hypotheses of `C04_records`, with several wraps -/
example : (match run (init 6 256 false 0) (put 2 [1,2] ++ put 2 [3,4] ++ get 3 ++ put 2 [5,6] ++ put 2 [7,8] ++ get 3 ++ get 2 ++ put 2 [9,10]) with
    | .ok s => !s.stale && written s.trace == [(0,1),(1,2),(2,3),(3,4),(4,5),(5,6),(0,7),(1,8),(2,9),(3,10)] && (taken s.trace).length == 8
    | .error _ => false) = true := by decide +kernel

/-- Finding.  The branch of `apply_write_reserve` that wraps does not store `last`.  If the previous data was also written after a wrap, `last` is the end of older data, and the reader is given elements that were already read: here 2 elements with the
values 7 and 8, instead of the 5 elements of the last commit. -/
theorem stale_wrap_reads_old_data :
    (match run (init 10 256 false 0) (put 8 [1,2,3,4,5,6,7,8] ++ get 8 ++ put 6 [11,12,13,14,15,16] ++ get 6 ++ put 5 [21,22,23,24,25] ++ [.rReserve 9, .rStep 99, .rStep 99]) with
    | .ok s => match s.rpc with
      | .holding i n => some (i, n, region s.slot i n)
      | _ => none
    | .error _ => none) = some (6, 2, [7, 8]) := by decide +kernel
/-- ... and the same history with the missing store -/
theorem stale_wrap_corrected :
    (match run (init 10 256 true 0) (put 8 [1,2,3,4,5,6,7,8] ++ get 8 ++ put 6 [11,12,13,14,15,16] ++ get 6 ++ put 5 [21,22,23,24,25] ++ [.rReserve 9, .rStep 99, .rStep 99]) with
    | .ok s => match s.rpc with
      | .holding i n => some (i, n, region s.slot i n)
      | _ => none
    | .error _ => none) = some (0, 5, [21, 22, 23, 24, 25]) := by decide +kernel
/-- So the property does not hold without condition: there is a run of the code as it is that ends in a state that is not `Good`. -/
theorem C04_false_without_condition : ∃ (acts : List (Act Nat)) (s : St Nat), run (init 10 256 false 0) acts = .ok s ∧ ¬ Good s := by
  have h := stale_wrap_reads_old_data
  cases e : run (init 10 256 false 0) (put 8 [1,2,3,4,5,6,7,8] ++ get 8 ++ put 6 [11,12,13,14,15,16] ++ get 6 ++ put 5 [21,22,23,24,25] ++ [.rReserve 9, .rStep 99, .rStep 99]) with
  | error x => rw [e] at h; cases h
  | ok s =>
    rw [e] at h
    refine ⟨_, s, e, fun g => ?_⟩
    obtain ⟨rest, g1, _, _, _, g5⟩ := g.fifo
    have h2 : (match run (init 10 256 false 0) (put 8 [1,2,3,4,5,6,7,8] ++ get 8 ++ put 6 [11,12,13,14,15,16] ++ get 6 ++ put 5 [21,22,23,24,25] ++ [.rReserve 9, .rStep 99, .rStep 99]) with
      | .ok s => (written s.trace).drop (taken s.trace).length
      | .error _ => []) = [(0, 21), (1, 22), (2, 23), (3, 24), (4, 25)] := by decide +kernel
    rw [e] at h2
    replace h2 : (written s.trace).drop (taken s.trace).length = _ := h2
    rw [g1, List.drop_left] at h2
    replace h : (match s.rpc with | .holding i n => some (i, n, region s.slot i n) | _ => none) = some (6, 2, [7, 8]) := h
    cases hp : s.rpc with
    | holding i n =>
      rw [hp] at h
      simp only [Option.some.injEq, Prod.mk.injEq] at h
      have := g5 i n hp
      rw [h.2.2, h.1, h2] at this
      revert this
      decide
    | _ => rw [hp] at h; cases h
/-- Finding.  `write_reserve_optimal` asks for the largest number.  If the buffer has wrapped and the write index is not 0, `write_index + *psize` wraps (for a `size_type` that is not promoted) and the reserve keeps the largest number: far outside of the buffer. -/
theorem optimal_reserve_overflows : writeReserve 10 (2 ^ 32) 3 7 (2 ^ 32 - 1) 0 = (3, 2 ^ 32 - 1) := by decide +kernel
end Etl.Bip
