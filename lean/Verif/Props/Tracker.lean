import Verif.Model.Tracker

/-! # C42 (I/O accounting) and C43 (virtio config space) -/

set_option maxRecDepth 8000

namespace Verif.Tracker
open Verif

/-! ## C42 -/

/-- Totals of a sequence of calls: bytes read, bytes written, reads, writes, flushes. -/
def totalBytesRead (cs : List Call) : Nat := (cs.map fun c => match c with | .read _ _ l => l * 512 | _ => 0).sum
def totalBytesWritten (cs : List Call) : Nat := (cs.map fun c => match c with | .write _ _ l => l * 512 | _ => 0).sum
def totalReads (cs : List Call) : Nat := cs.countP fun c => match c with | .read .. => true | _ => false
def totalWrites (cs : List Call) : Nat := cs.countP fun c => match c with | .write .. => true | _ => false
def totalFlushes (cs : List Call) : Nat := cs.countP fun c => match c with | .flush .. => true | _ => false

/-- The operation last added to a slot and not cleared since. -/
def current (cs : List Call) (slot : Nat) : Option Call :=
  cs.foldl (fun cur c =>
    match c with
    | .read s _ _ | .write s _ _ | .flush s => if s = slot then some c else cur
    | .clear s => if s = slot then none else cur) none

/-- How an operation is described: kind, and for reads and writes offset and length. -/
def describe : Call → Option (Kind × Option (Nat × Nat))
  | .read _ o l => some (.read, some (o, l))
  | .write _ o l => some (.write, some (o, l))
  | .flush _ => some (.flush, none)
  | .clear _ => none

/-- A snapshot entry described the same way. -/
def describeEntry : Kind × Nat × Nat → Kind × Option (Nat × Nat)
  | (.flush, _, _) => (.flush, none)
  | (k, o, l) => (k, some (o, l))

theorem mod_add_step (a x : Nat) : (a % 2 ^ 64 + x % 2 ^ 64) % 2 ^ 64 = (a + x) % 2 ^ 64 := by omega

theorem after_append (size : Nat) (cs : List Call) (c : Call) : Trk.after size (cs ++ [c]) = (Trk.after size cs).call c := by
  simp [Trk.after]

/-- Induction on the last call. -/
theorem snoc_ind {P : List Call → Prop} (h0 : P []) (h1 : ∀ cs c, P cs → P (cs ++ [c])) (cs : List Call) : P cs := by
  have key : ∀ n, ∀ cs : List Call, cs.length = n → P cs := by
    intro n
    induction n with
    | zero => intro cs h; rw [List.length_eq_zero_iff.mp h]; exact h0
    | succ n ih =>
      intro cs h
      rcases List.eq_nil_or_concat cs with rfl | ⟨l, c, rfl⟩
      · exact h0
      · rw [List.concat_eq_append]
        apply h1
        apply ih
        simpa using h
  exact key _ cs rfl

/-- C42, counters, for every sequence of calls and every size: they are the totals (modulo 2^64, their width). -/
theorem C42_counters (size : Nat) (cs : List Call) :
    (Trk.after size cs).stats = (totalBytesRead cs % 2 ^ 64, totalBytesWritten cs % 2 ^ 64, totalReads cs % 2 ^ 64,
      totalWrites cs % 2 ^ 64, totalFlushes cs % 2 ^ 64) := by
  induction cs using snoc_ind with
  | h0 => rfl
  | h1 cs c ih =>
    simp only [Trk.stats, Prod.mk.injEq] at ih ⊢
    obtain ⟨i1, i2, i3, i4, i5⟩ := ih
    rw [after_append]
    cases c with
    | read s o l =>
      simp only [Trk.call, Trk.addRead, totalBytesRead, totalBytesWritten, totalReads, totalWrites, totalFlushes,
        List.map_append, List.sum_append, List.countP_append, List.map_cons, List.map_nil, List.sum_cons, List.sum_nil] at *
      split <;> simp only [i1, i2, i3, i4, i5] <;> refine ⟨?_, ?_, ?_, ?_, ?_⟩ <;> simp
    | write s o l =>
      simp only [Trk.call, Trk.addWrite, totalBytesRead, totalBytesWritten, totalReads, totalWrites, totalFlushes,
        List.map_append, List.sum_append, List.countP_append, List.map_cons, List.map_nil, List.sum_cons, List.sum_nil] at *
      split <;> simp only [i1, i2, i3, i4, i5] <;> refine ⟨?_, ?_, ?_, ?_, ?_⟩ <;> simp
    | flush s =>
      simp only [Trk.call, Trk.addFlush, totalBytesRead, totalBytesWritten, totalReads, totalWrites, totalFlushes,
        List.map_append, List.sum_append, List.countP_append, List.map_cons, List.map_nil, List.sum_cons, List.sum_nil] at *
      split <;> simp only [i1, i2, i3, i4, i5] <;> refine ⟨?_, ?_, ?_, ?_, ?_⟩ <;> simp
    | clear s =>
      simp only [Trk.call, Trk.clear, totalBytesRead, totalBytesWritten, totalReads, totalWrites, totalFlushes,
        List.map_append, List.sum_append, List.countP_append, List.map_cons, List.map_nil, List.sum_cons, List.sum_nil] at *
      split <;> simp only [i1, i2, i3, i4, i5] <;> refine ⟨?_, ?_, ?_, ?_, ?_⟩ <;> simp

/-- C42: the counters never decrease, as long as the totals fit 64 bits. -/
theorem C42_counters_grow (size : Nat) (cs more : List Call) (hr : totalBytesRead (cs ++ more) < 2 ^ 64)
    (hw : totalBytesWritten (cs ++ more) < 2 ^ 64) (hn : (cs ++ more).length < 2 ^ 64) :
    (Trk.after size cs).bytesRead ≤ (Trk.after size (cs ++ more)).bytesRead ∧
    (Trk.after size cs).bytesWritten ≤ (Trk.after size (cs ++ more)).bytesWritten ∧
    (Trk.after size cs).readOps ≤ (Trk.after size (cs ++ more)).readOps ∧
    (Trk.after size cs).writeOps ≤ (Trk.after size (cs ++ more)).writeOps ∧
    (Trk.after size cs).flushOps ≤ (Trk.after size (cs ++ more)).flushOps := by
  have h1 := C42_counters size cs
  have h2 := C42_counters size (cs ++ more)
  simp only [Trk.stats, Prod.mk.injEq] at h1 h2
  obtain ⟨a1, a2, a3, a4, a5⟩ := h1
  obtain ⟨b1, b2, b3, b4, b5⟩ := h2
  have c1 : totalBytesRead (cs ++ more) = totalBytesRead cs + totalBytesRead more := by simp [totalBytesRead]
  have c2 : totalBytesWritten (cs ++ more) = totalBytesWritten cs + totalBytesWritten more := by simp [totalBytesWritten]
  have c3 : totalReads (cs ++ more) = totalReads cs + totalReads more := by simp [totalReads]
  have c4 : totalWrites (cs ++ more) = totalWrites cs + totalWrites more := by simp [totalWrites]
  have c5 : totalFlushes (cs ++ more) = totalFlushes cs + totalFlushes more := by simp [totalFlushes]
  have d3 : totalReads (cs ++ more) ≤ (cs ++ more).length := List.countP_le_length
  have d4 : totalWrites (cs ++ more) ≤ (cs ++ more).length := List.countP_le_length
  have d5 : totalFlushes (cs ++ more) ≤ (cs ++ more).length := List.countP_le_length
  rw [a1, a2, a3, a4, a5, b1, b2, b3, b4, b5]
  refine ⟨?_, ?_, ?_, ?_, ?_⟩ <;> omega

theorem after_length (size : Nat) (cs : List Call) : (Trk.after size cs).ios.length = size + 8 := by
  induction cs using snoc_ind with
  | h0 => simp [Trk.after, Trk.new, EXTRA]
  | h1 cs c ih =>
    rw [after_append]
    cases c <;> simp only [Trk.call, Trk.addRead, Trk.addWrite, Trk.addFlush, Trk.clear] <;> split <;> simp [ih]

/-- The entry of a record. -/
def entry (r : Rec) : Option (Kind × Nat × Nat) := r.kind.map fun k => (k, r.off, r.len)

theorem current_append (cs : List Call) (c : Call) (i : Nat) :
    current (cs ++ [c]) i = match c with
      | .read s _ _ | .write s _ _ | .flush s => if s = i then some c else current cs i
      | .clear s => if s = i then none else current cs i := by
  simp [current]

theorem slot_entry (size : Nat) (cs : List Call) (i : Nat) (hi : i < size + 8) :
    ∃ r, (Trk.after size cs).ios[i]? = some r ∧ (entry r).map describeEntry = (current cs i).bind describe := by
  induction cs using snoc_ind with
  | h0 => exact ⟨⟨none, 0, 0⟩, by simp [Trk.after, Trk.new, EXTRA, hi], rfl⟩
  | h1 cs c ih =>
    obtain ⟨r, hr, he⟩ := ih
    have hlen := after_length size cs
    rw [after_append, current_append]
    cases c with
    | read s o l =>
      simp only [Trk.call, Trk.addRead]
      by_cases hs : s ≥ (Trk.after size cs).ios.length
      · rw [if_pos hs, if_neg (by omega)]; exact ⟨r, hr, he⟩
      · rw [if_neg hs]
        by_cases e : s = i
        · subst e; rw [if_pos rfl]; exact ⟨⟨some .read, o, l⟩, by simp [List.getElem?_set, hlen, hi], rfl⟩
        · rw [if_neg e]; exact ⟨r, by simp [List.getElem?_set, e, hr], he⟩
    | write s o l =>
      simp only [Trk.call, Trk.addWrite]
      by_cases hs : s ≥ (Trk.after size cs).ios.length
      · rw [if_pos hs, if_neg (by omega)]; exact ⟨r, hr, he⟩
      · rw [if_neg hs]
        by_cases e : s = i
        · subst e; rw [if_pos rfl]; exact ⟨⟨some .write, o, l⟩, by simp [List.getElem?_set, hlen, hi], rfl⟩
        · rw [if_neg e]; exact ⟨r, by simp [List.getElem?_set, e, hr], he⟩
    | flush s =>
      simp only [Trk.call, Trk.addFlush]
      by_cases hs : s ≥ (Trk.after size cs).ios.length
      · rw [if_pos hs, if_neg (by omega)]; exact ⟨r, hr, he⟩
      · rw [if_neg hs]
        by_cases e : s = i
        · subst e; rw [if_pos rfl]; exact ⟨{ r with kind := some .flush }, by simp [List.getElem?_modify, hr], rfl⟩
        · rw [if_neg e]; exact ⟨r, by simp [List.getElem?_modify, e, hr], he⟩
    | clear s =>
      simp only [Trk.call, Trk.clear]
      by_cases hs : s ≥ (Trk.after size cs).ios.length
      · rw [if_pos hs, if_neg (by omega)]; exact ⟨r, hr, he⟩
      · rw [if_neg hs]
        by_cases e : s = i
        · subst e; rw [if_pos rfl]; exact ⟨{ r with kind := none }, by simp [List.getElem?_modify, hr], rfl⟩
        · rw [if_neg e]; exact ⟨r, by simp [List.getElem?_modify, e, hr], he⟩

theorem filterMap_range {α β : Type} (l : List α) (f : α → Option β) (g : Nat → Option β)
    (h : ∀ (i : Nat) (a : α), l[i]? = some a → f a = g i) : l.filterMap f = (List.range l.length).filterMap g := by
  induction l generalizing g with
  | nil => rfl
  | cons a l ih =>
    have h0 := h 0 a rfl
    have ht := ih (fun i => g (i + 1)) (fun i b hb => h (i + 1) b (by simpa using hb))
    rw [List.length_cons, List.range_succ_eq_map, List.filterMap_cons, List.filterMap_cons, h0, List.filterMap_map, ht]
    rfl

/-- C42, snapshot, for every sequence of calls and every queue size: slot by slot, the snapshot lists exactly the
operations last added to the first `size + 8` slots and not cleared since; reads and writes with their offset and
length. Missing: slots from `size + 8` on, and flushes are listed with whatever offset and length the slot had. -/
theorem C42_snapshot_partial (size : Nat) (cs : List Call) :
    (Trk.after size cs).snapshot.map describeEntry = (List.range (size + 8)).filterMap fun i => (current cs i).bind describe := by
  have hlen := after_length size cs
  rw [Trk.snapshot, List.map_filterMap, ← hlen]
  apply filterMap_range
  intro i r hr
  have hi : i < size + 8 := by rw [← hlen]; exact (List.getElem?_eq_some_iff.mp hr).1
  obtain ⟨r', hr', he⟩ := slot_entry size cs i hi
  rw [hr] at hr'; obtain rfl := Option.some.inj hr'
  exact he

example : (Trk.after 2 [.read 0 100 8, .write 1 200 16, .flush 9, .clear 0]).snapshot = [(.write, 200, 16), (.flush, 0, 0)] := by
  decide

/-- C42 is false of slots beyond the tracked ones: an operation in flight there is counted but never listed. -/
theorem C42_large_slot_not_listed (size slot off len : Nat) (h : size + 8 ≤ slot) :
    (Trk.after size [.read slot off len]).snapshot = [] ∧ current [.read slot off len] slot = some (.read slot off len) := by
  refine ⟨?_, by simp [current]⟩
  have hl : (Trk.new size).ios.length = size + 8 := by simp [Trk.new, EXTRA]
  simp only [Trk.after, List.foldl_cons, List.foldl_nil, Trk.call, Trk.addRead]
  rw [if_pos (by simp only [hl]; exact h)]
  simp [Trk.snapshot, Trk.new]

/-- C42: a flush is listed with the offset and length of an earlier operation in the slot. -/
theorem C42_flush_stale_location : (Trk.after 2 [.write 0 100 8, .clear 0, .flush 0]).snapshot = [(.flush, 100, 8)] := by decide

/-! ## C43 -/

theorem bytes_length (c : Cfg) : c.bytes.length = 60 := by simp [Cfg.bytes]

theorem getConfig_eq (c : Cfg) (offset size : Nat) : getConfig c offset size = c.bytes.take size ++ zeros (size - 60) := by
  simp only [getConfig, bytes_length, splice, List.take_zero, List.nil_append, Nat.zero_add]
  by_cases h : size ≤ 60
  · rw [Nat.min_eq_left h, List.length_take, bytes_length, Nat.min_eq_left h]
    simp [zeros, Nat.sub_eq_zero_of_le h]
  · rw [Nat.min_eq_right (by omega), List.length_take, bytes_length, Nat.min_self, List.take_of_length_le (by rw [bytes_length]; omega),
      List.take_of_length_le (by rw [bytes_length]; omega)]
    simp [zeros]

/-- C43 for reads from offset 0, for every configuration and size: exactly `size` bytes, the configuration's and then
zeros. Missing: windows at other offsets (`C43_offset_ignored`). -/
theorem C43_window_partial (c : Cfg) (size : Nat) :
    (getConfig c 0 size).length = size ∧ ∀ i, i < size → (getConfig c 0 size).getD i 0 = c.bytes.getD i 0 := by
  rw [getConfig_eq]
  have hb := bytes_length c
  constructor
  · simp [hb]; omega
  · intro i hi
    by_cases h : i < 60
    · rw [List.getD_eq_getElem?_getD, List.getElem?_append_left (by simp [hb]; omega), List.getElem?_take, if_pos hi,
        List.getD_eq_getElem?_getD]
    · rw [List.getD_eq_getElem?_getD, List.getElem?_append_right (by simp [hb]; omega), List.getD_eq_getElem?_getD,
        List.getElem?_eq_none (l := c.bytes) (by omega)]
      simp only [zeros, List.getElem?_replicate]
      split <;> rfl

/-- C43, contents: at the positions of the virtio specification a guest finds the capacity in sectors, the segment limits,
the block size 512, whether caching is on, and the number of queues. -/
theorem C43_fields (c : Cfg) (h1 : c.sectors < 2 ^ 64) (h2 : c.segSizeMax < 2 ^ 32) (h3 : c.segCountMax < 2 ^ 32)
    (h4 : c.numQueues < 2 ^ 16) (size : Nat) (hs : 60 ≤ size) :
    fromLe (slice (getConfig c 0 size) 0 8) = c.sectors ∧
    fromLe (slice (getConfig c 0 size) 8 4) = c.segSizeMax ∧
    fromLe (slice (getConfig c 0 size) 12 4) = c.segCountMax ∧
    fromLe (slice (getConfig c 0 size) 20 4) = 512 ∧
    fromLe (slice (getConfig c 0 size) 32 1) = (if c.writeThrough then 0 else 1) ∧
    fromLe (slice (getConfig c 0 size) 34 2) = c.numQueues := by
  rw [getConfig_eq, List.take_of_length_le (by rw [bytes_length]; omega)]
  have skip : ∀ (j v : Nat) (b : Bytes) (k n : Nat), j ≤ k → slice (le j v ++ b) k n = slice b (k - j) n := by
    intro j v b k n hk
    simp only [slice]
    rw [List.drop_append, List.drop_of_length_le (by rw [le_length]; exact hk), List.nil_append, le_length]
  have hd : ∀ (n v : Nat) (b : Bytes), slice (le n v ++ b) 0 n = le n v := by
    intro n v b
    simp only [slice, List.drop_zero]
    rw [List.take_left' (le_length n v)]
  generalize hz : zeros (size - 60) = z
  simp only [Cfg.bytes, List.append_assoc]
  refine ⟨?_, ?_, ?_, ?_, ?_, ?_⟩
  · rw [hd, fromLe_le_of_lt (by simpa using h1)]
  · iterate 1 rw [skip _ _ _ _ _ (by decide)]
    rw [hd, fromLe_le_of_lt (by simpa using h2)]
  · iterate 2 rw [skip _ _ _ _ _ (by decide)]
    rw [hd, fromLe_le_of_lt (by simpa using h3)]
  · iterate 6 rw [skip _ _ _ _ _ (by decide)]
    rw [hd, fromLe_le_of_lt (by decide)]
  · iterate 11 rw [skip _ _ _ _ _ (by decide)]
    rw [hd, fromLe_le_of_lt (by split <;> decide)]
  · iterate 13 rw [skip _ _ _ _ _ (by decide)]
    rw [hd, fromLe_le_of_lt (by simpa using h4)]

/-- C43, contents: the recommended sizes of requests are one block; every other field is zero: geometry, physical block size and offset,
discard, write-zeroes. -/
theorem C43_other_fields (c : Cfg) (size : Nat) (hs : 60 ≤ size) :
    fromLe (slice (getConfig c 0 size) 26 2) = 1 ∧ fromLe (slice (getConfig c 0 size) 28 4) = 1 ∧
    fromLe (slice (getConfig c 0 size) 16 4) = 0 ∧ fromLe (slice (getConfig c 0 size) 24 2) = 0 ∧ fromLe (slice (getConfig c 0 size) 33 1) = 0 ∧
    slice (getConfig c 0 size) 36 24 = zeros 24 := by
  rw [getConfig_eq, List.take_of_length_le (by rw [bytes_length]; omega)]
  have skip : ∀ (j v : Nat) (b : Bytes) (k n : Nat), j ≤ k → slice (le j v ++ b) k n = slice b (k - j) n := by
    intro j v b k n hk
    simp only [slice]
    rw [List.drop_append, List.drop_of_length_le (by rw [le_length]; exact hk), List.nil_append, le_length]
  generalize zeros (size - 60) = z
  simp only [Cfg.bytes, List.append_assoc]
  refine ⟨?_, ?_, ?_, ?_, ?_, ?_⟩
  · iterate 9 rw [skip _ _ _ _ _ (by decide)]
    rfl
  · iterate 10 rw [skip _ _ _ _ _ (by decide)]
    rfl
  · iterate 3 rw [skip _ _ _ _ _ (by decide)]
    rfl
  · iterate 7 rw [skip _ _ _ _ _ (by decide)]
    rfl
  · iterate 12 rw [skip _ _ _ _ _ (by decide)]
    rfl
  · iterate 14 rw [skip _ _ _ _ _ (by decide)]
    rfl

/-- C43 is false of other offsets: the offset is ignored (a deliberate choice, for the two hypervisors in use): a window at
offset 8 begins with the capacity's bytes, not those of the segment size. -/
theorem C43_offset_ignored (c : Cfg) (offset size : Nat) : getConfig c offset size = getConfig c 0 size := rfl

theorem C43_offset_wrong : ∃ (c : Cfg) (offset size : Nat), getConfig c offset size ≠ slice (getConfig c 0 60) offset size :=
  ⟨⟨5, 6, 7, 1, false⟩, 8, 4, by decide⟩

end Verif.Tracker
