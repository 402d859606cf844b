import Verif.Proof.Metadata

/-! Further lemmas about the metadata codec: converse of `fromBytes_ok`, burst errors, incremental
updates. -/

set_option maxRecDepth 8000

namespace Verif.Metadata
open Verif Verif.Crc32

theorem slice_of_take {α} {b b' : List α} {n off len : Nat} (h : b.take n = b'.take n) (hle : off + len ≤ n) :
    slice b off len = slice b' off len := by
  have e : ∀ c : List α, slice c off len = slice (c.take n) off len := by
    intro c
    simp only [slice, List.drop_take, List.take_take]
    rw [Nat.min_eq_left (by omega)]
  rw [e b, e b', h]

theorem take_of_take {α} {b b' : List α} {n len : Nat} (h : b.take n = b'.take n) (hle : len ≤ n) :
    b.take len = b'.take len := by
  have := congrArg (List.take len) h
  simpa [List.take_take, Nat.min_eq_left hle] using this

theorem getD_of_take {b b' : Bytes} {n i : Nat} (h : b.take n = b'.take n) (hle : i < n) :
    b.getD i 0 = b'.getD i 0 := by
  have e : ∀ c : Bytes, c.getD i 0 = (c.take n).getD i 0 := by
    intro c
    simp [List.getD_eq_getElem?_getD, List.getElem?_take, hle]
  rw [e b, e b', h]

/-- The loader's result depends only on the sectors in use. -/
theorem fromBytes_prefix {b b' : Bytes} {m : Meta} (h : fromBytes b = .ok m)
    (hmul : b'.length % 512 = 0) (hlen : 512 + divCeil m.headers.length 508 * 512 ≤ b'.length)
    (hpre : b'.take (512 + divCeil m.headers.length 508 * 512) = b.take (512 + divCeil m.headers.length 508 * 512)) :
    fromBytes b' = .ok m := by
  have hok := fromBytes_ok h
  obtain ⟨h1, h2, h3, h4, h5, h6, h7, h8, h9, h10, h11, all, hall, hh⟩ := hok
  generalize hN : 512 + divCeil m.headers.length 508 * 512 = N at *
  have hN512 : 512 ≤ N := by omega
  have et9 : b'.take 9 = b.take 9 := take_of_take hpre (by omega)
  have et512 : b'.take 512 = b.take 512 := take_of_take hpre (by omega)
  have es1 : slice b' 9 2 = slice b 9 2 := slice_of_take hpre (by omega)
  have es2 : slice b' 11 2 = slice b 11 2 := slice_of_take hpre (by omega)
  have es3 : slice b' 14 4 = slice b 14 4 := slice_of_take hpre (by omega)
  have eg : b'.getD 13 0 = b.getD 13 0 := getD_of_take hpre (by omega)
  have hcnt : m.headers.length ≤ (b'.length - 512) / 512 * 508 := by
    rw [← divCeil_le_iff (by decide), Nat.le_div_iff_mul_le (by decide)]
    omega
  have hrg : readGroups b' 0 (divCeil m.headers.length 508) [] = .ok all := by
    rw [← hall]
    apply readGroups_congr
    intro i hi
    have : (i + 1) * 512 ≤ divCeil m.headers.length 508 * 512 := Nat.mul_le_mul_right _ hi
    refine ⟨by omega, by omega, slice_of_take hpre (by omega)⟩
  have hv : slice b 9 2 = versionMajor ∧ slice b 11 2 = versionMinor := by
    unfold fromBytes at h
    simp only at h
    split at h; · exact absurd h (by simp)
    split at h; · exact absurd h (by simp)
    split at h; · exact absurd h (by simp)
    split at h; · exact absurd h (by simp)
    split at h; · exact absurd h (by simp)
    rename_i hx
    simp only [not_or, Decidable.not_not] at hx
    exact hx
  have hml : m.headers.length ≤ all.length := by
    have := congrArg List.length hh
    simp only [List.length_take] at this
    omega
  unfold fromBytes
  simp only
  rw [if_neg (by omega), if_neg (by omega), et512, if_neg (by simp [h3]), et9, if_neg (by rw [← h4, h5]; simp),
    es1, es2, if_neg (by rw [hv.1, hv.2]; simp), eg, ← h8, if_neg (by omega), es3, ← h10,
    if_neg (by omega), hrg]
  simp only
  rw [if_pos hml, ← hh, hv.1, hv.2, ← h4, ← h6, ← h7]

theorem fromBytes_no_panic (b : Bytes) : fromBytes b ≠ .error .panic := by
  unfold fromBytes
  simp only
  split; · simp
  split; · simp
  split; · simp
  split; · simp
  split; · simp
  split; · simp
  split; · simp
  rename_i hc
  have h9 : divCeil (fromLe (slice b 14 4)) 508 ≤ (b.length - 512) / 512 := by
    rw [divCeil_le_iff (by decide)]; omega
  have := Nat.div_mul_le_self (b.length - 512) 512
  have h10 := Nat.mul_le_mul_right 512 h9
  have hnp := readGroups_no_panic (buf := b) (acc := []) (g := 0) (n := divCeil (fromLe (slice b 14 4)) 508) (by simp only [Nat.zero_add]; omega)
  split
  · rename_i e he
    intro h
    simp only [Except.error.injEq] at h
    subst h
    exact hnp he
  · rename_i all hall
    have := (readGroups_ok hall).2
    have h11 := le_divCeil_mul (a := fromLe (slice b 14 4)) (b := 508) (by decide)
    rw [if_pos (by simp at this; omega)]
    simp

/-- Two valid 512-byte sectors that differ only in a run of at most four bytes are equal. -/
theorem sector_burst {S w : Bytes} {i : Nat} (hS : S.length = 512) (hi : i + w.length ≤ 512) (hw : w.length ≤ 4)
    (hv : sectorValid S = true) (hv' : sectorValid (splice S i w) = true) : splice S i w = S := by
  rw [sectorValid_iff hS] at hv
  rw [sectorValid_iff (by rw [splice_length _ _ _ (by omega), hS])] at hv'
  have hsplit : S = S.take i ++ slice S i w.length ++ S.drop (i + w.length) := by
    simp only [slice, List.append_assoc, ← List.drop_drop, List.take_append_drop]
  have hsl : (slice S i w.length).length = w.length := slice_length _ _ _ (by omega)
  have := run_burst 0xFFFFFFFF#32 (S.take i) (slice S i w.length) w (S.drop (i + w.length)) hsl (by omega)
    (by rw [← hsplit, hv]; exact hv'.symm)
  unfold splice
  rw [← this]
  conv => rhs; rw [hsplit]
  rw [hsl]

theorem slice_splice_same {b w : Bytes} {off i : Nat} (h : off + 512 ≤ b.length) (hi : i + w.length ≤ 512) :
    slice (splice b (off + i) w) off 512 = splice (slice b off 512) i w := by
  apply List.ext_getElem?
  intro j
  simp only [slice, splice]
  by_cases hj : j < 512
  · simp only [List.getElem?_take, List.getElem?_drop, List.getElem?_append, List.length_append,
      List.length_take, hj, if_true, List.length_drop]
    by_cases h1 : j < i
    · rw [if_pos (by omega), if_pos (by omega), if_pos (by omega), if_pos (by omega), if_pos (by omega), if_pos (by omega)]
    · by_cases h2 : j < i + w.length
      · rw [if_pos (by omega), if_neg (by omega), if_pos (by omega), if_neg (by omega)]
        congr 1; omega
      · rw [if_neg (by omega), if_neg (by omega), if_pos (by omega)]
        congr 1; omega
  · simp only [List.getElem?_take, List.getElem?_append, List.length_append,
      List.length_take, hj, if_false, List.length_drop, List.getElem?_drop]
    rw [if_neg (by omega), if_neg (by omega)]

theorem splice_noop {b w : Bytes} {off i : Nat} (h : off + 512 ≤ b.length) (hi : i + w.length ≤ 512)
    (he : splice (slice b off 512) i w = slice b off 512) : splice b (off + i) w = b := by
  have hw : slice b (off + i) w.length = w := by
    have h2 := congrArg (fun l => slice l i w.length) he
    have hl : (slice b off 512).length = 512 := slice_length _ _ _ h
    have e1 : slice (splice (slice b off 512) i w) i w.length = w := by
      unfold splice
      apply slice_append_at
      · simp [hl]; omega
      · rfl
    rw [e1] at h2
    conv => rhs; rw [h2]
    simp only [slice, List.drop_take, List.take_take, List.drop_drop]
    rw [Nat.min_eq_left (by omega)]
  unfold splice
  conv => lhs; arg 1; arg 2; rw [← hw]
  simp only [slice, List.append_assoc, ← List.drop_drop (l := b) (i := w.length), List.take_append_drop]

/-- Value of sector `n` in the image of groups. -/
theorem groupsImage_slice (hs : Bytes) (g n i : Nat) (hi : i < n) :
    slice (groupsImage hs g n) (i * 512) 512 = writeSector (groupHeaders hs (g + i)) := by
  induction n generalizing g i with
  | zero => omega
  | succ n ih =>
    cases i with
    | zero =>
      simp only [groupsImage, slice, Nat.zero_mul, List.drop_zero, Nat.add_zero]
      rw [List.take_append_of_le_length (by rw [writeSector_length]; exact Nat.le_refl _), List.take_of_length_le (by rw [writeSector_length]; exact Nat.le_refl _)]
    | succ i =>
      have := ih (g + 1) i (by omega)
      simp only [groupsImage]
      unfold slice at this ⊢
      rw [List.drop_append, List.drop_of_length_le (by rw [writeSector_length]; omega), List.nil_append, writeSector_length]
      rw [show (i + 1) * 512 - 512 = i * 512 by omega, this]
      congr 2; omega

/-- Updating one header rewrites exactly its sector. -/
theorem groupsImage_set (hs : Bytes) (g n k : Nat) (v : UInt8) (hk : g * 508 ≤ k) (hk2 : k < (g + n) * 508) :
    groupsImage (hs.set k v) g n =
      splice (groupsImage hs g n) ((k / 508 - g) * 512) (writeSector (groupHeaders (hs.set k v) (k / 508))) := by
  have key : ∀ (g' : Nat), g' ≠ k / 508 → groupHeaders (hs.set k v) g' = groupHeaders hs g' := by
    intro g' hne
    unfold groupHeaders
    apply List.ext_getElem?
    intro j
    simp only [List.getElem?_take, List.getElem?_drop]
    by_cases hj : j < 508
    · simp only [hj, if_true]
      rw [List.getElem?_set_ne]
      intro he
      apply hne
      omega
    · simp [hj]
  induction n generalizing g with
  | zero => omega
  | succ n ih =>
    by_cases hg : k / 508 = g
    · have h1 : ∀ (n g' : Nat), g < g' → groupsImage (hs.set k v) g' n = groupsImage hs g' n := by
        intro n
        induction n with
        | zero => intro g' _; rfl
        | succ n ih2 =>
          intro g' hg'
          simp only [groupsImage]
          rw [key g' (by omega), ih2 (g' + 1) (by omega)]
      simp only [groupsImage]
      rw [h1 n (g + 1) (by omega), hg, Nat.sub_self, Nat.zero_mul]
      rw [splice_zero_exact _ _ _ (by simp [writeSector_length])]
    · simp only [groupsImage]
      rw [key g (fun h => hg h.symm), ih (g + 1) (by omega) (by omega)]
      rw [splice_append_right _ _ _ _ (by rw [writeSector_length]; omega), writeSector_length]
      congr 2
      omega

theorem headerContents_set (m : Meta) (k : Nat) (v : UInt8) :
    headerContents { m with headers := m.headers.set k v } = headerContents m := by
  simp [headerContents]

theorem splice_append_left {α} (a b bytes : List α) (off : Nat) (h : off + bytes.length ≤ a.length) :
    splice (a ++ b) off bytes = splice a off bytes ++ b := by
  simp only [splice]
  rw [List.take_append_of_le_length (by omega), List.drop_append_of_le_length (by omega)]
  simp

theorem writeStripeSector_image (m : Meta) (k : Nat) (v : UInt8) (hk : k < m.headers.length) (rest : Bytes) :
    writeStripeSector (m.headers.set k v) k (image m ++ rest)
      = image { m with headers := m.headers.set k v } ++ rest := by
  have hcap := le_divCeil_mul (a := m.headers.length) (b := 508) (by decide)
  have hcnt : headerSectorCount { m with headers := m.headers.set k v } = headerSectorCount m := by
    simp [headerSectorCount]
  have hcd : headerSectorCount m = divCeil m.headers.length 508 := rfl
  unfold writeStripeSector stripeIdToSector stripeIdToGroup
  have hkd : k / 508 < headerSectorCount m := by
    rw [Nat.div_lt_iff_lt_mul (by decide)]; omega
  have hk2 : (k / 508 + 1) * 512 ≤ headerSectorCount m * 512 := Nat.mul_le_mul_right _ hkd
  rw [splice_append_left _ _ _ _ (by rw [image_length, writeSector_length, metadataSize]; omega)]
  congr 1
  unfold image
  simp only [hcnt, headerContents_set]
  rw [splice_append_right _ _ _ _ (by rw [writeSector_length]; omega), writeSector_length]
  congr 1
  rw [groupsImage_set m.headers 0 (headerSectorCount m) k v (by omega) (by simp only [Nat.zero_add]; omega)]
  congr 1
  omega

theorem readGroups_prefix {buf acc r : Bytes} {g n : Nat} (h : readGroups buf g n acc = .ok r) :
    ∃ t, r = acc ++ t := by
  induction n generalizing g acc with
  | zero => simp only [readGroups, Except.ok.injEq] at h; exact ⟨[], by simp [h]⟩
  | succ n ih =>
    unfold readGroups at h
    simp only at h
    split at h
    case isFalse => exact absurd h (by simp)
    split at h
    case isFalse => exact absurd h (by simp)
    obtain ⟨t, ht⟩ := ih h
    exact ⟨_, by rw [ht, List.append_assoc]⟩

/-- Where each header byte of a successful load comes from. -/
theorem readGroups_get {buf acc r : Bytes} {g n : Nat} (h : readGroups buf g n acc = .ok r) (k : Nat)
    (hk : k < n * 508) :
    r[acc.length + k]? = buf[512 + (g + k / 508) * 512 + k % 508]? := by
  induction n generalizing g acc k with
  | zero => omega
  | succ n ih =>
    have hlen := (readGroups_ok h).1 0 (by omega)
    unfold readGroups at h
    simp only at h
    split at h
    case isFalse => exact absurd h (by simp)
    split at h
    case isFalse => exact absurd h (by simp)
    have hsl : (slice buf (512 + g * 512) 512).length = 512 := slice_length _ _ _ (by omega)
    have hacc : (acc ++ (slice buf (512 + g * 512) 512).take 508).length = acc.length + 508 := by
      simp [hsl]
    by_cases hk0 : k < 508
    · have hpre := readGroups_prefix h
      obtain ⟨t, ht⟩ := hpre
      rw [ht, List.append_assoc, List.getElem?_append_right (by omega)]
      rw [List.getElem?_append_left (by simp [hsl]; omega)]
      simp only [slice, List.getElem?_take, List.getElem?_drop]
      rw [if_pos (by omega), if_pos (by omega)]
      congr 1; omega
    · have := ih h (k - 508) (by omega)
      rw [hacc] at this
      rw [show acc.length + k = acc.length + 508 + (k - 508) by omega, this]
      congr 1
      omega

end Verif.Metadata
