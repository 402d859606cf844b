import Verif.Proof.MetadataMore

/-! # C01–C04: the on-disk metadata format

`writeToBuf m buf` is a full save of `m` into a buffer, `fromBytes` is the loader, and
`writeStripeSector headers k dev` is the one-sector write the background worker uses to update stripe `k`. -/

set_option maxRecDepth 8000

namespace Verif.Metadata
open Verif

/-- What the code itself guarantees about a `UbiMetadata` value it creates: current magic and version,
a stripe size the loader accepts, and a stripe count that fits the 32-bit count field. -/
def Saveable (m : Meta) : Prop :=
  m.magic = magicBytes ∧ m.verMajor = versionMajor ∧ m.verMinor = versionMinor ∧
  m.shift.toNat ≤ 17 ∧ m.headers.length < 2 ^ 32

theorem Saveable.wf {m : Meta} (h : Saveable m) : WF m := ⟨h.1, h.2.1, h.2.2.1, h.2.2.2.1, h.2.2.2.2⟩

/-- A concrete, non-trivial saveable value used by the examples: 1000 stripes with mixed flags
(two header sectors). -/
def sample : Meta :=
  { magic := magicBytes, verMajor := versionMajor, verMinor := versionMinor, shift := 11,
    headers := (List.range 1000).map fun i => if i % 3 = 0 then 7 else 4 }

theorem sample_saveable : Saveable sample := by
  refine ⟨rfl, rfl, rfl, by decide, ?_⟩
  simp [sample]

theorem sample_size : metadataSize sample = 1536 := by
  simp [metadataSize, headerSectorCount, sample, divCeil]

/-- **C01** Saving into any large enough sector-multiple buffer and loading gives the value back. -/
theorem C01_save_load (m : Meta) (buf : Bytes) (hm : Saveable m)
    (hfit : metadataSize m ≤ buf.length) (hmul : buf.length % 512 = 0) :
    ∃ b, writeToBuf m buf = .ok b ∧ b.length = buf.length ∧
      b.drop (metadataSize m) = buf.drop (metadataSize m) ∧ fromBytes b = .ok m := by
  refine ⟨_, writeToBuf_eq m buf hfit hm.2.2.2.2, ?_, ?_, ?_⟩
  · simp [image_length]; omega
  · rw [List.drop_append_of_le_length (by rw [image_length]; exact Nat.le_refl _), List.drop_of_length_le (by rw [image_length]; exact Nat.le_refl _)]
    simp
  · apply fromBytes_image hm.wf
    have : metadataSize m = 512 + headerSectorCount m * 512 := rfl
    simp only [List.length_drop]; omega

example : ∃ b, writeToBuf sample (List.replicate 2048 0xAA) = .ok b ∧ b.length = 2048 ∧
    b.drop 1536 = (List.replicate 2048 0xAA).drop 1536 ∧ fromBytes b = .ok sample := by
  have := C01_save_load sample (List.replicate 2048 0xAA) sample_saveable
    (by rw [sample_size, List.length_replicate]; decide) (by rw [List.length_replicate])
  rw [sample_size, List.length_replicate] at this
  exact this

/-- **C02** Overwriting at most four consecutive bytes inside one sector in use (payload, checksum, or
across the two) either changes nothing or makes the load fail. -/
theorem C02_burst_detected (m : Meta) (buf b : Bytes) (hm : Saveable m) (hmul : buf.length % 512 = 0)
    (hsave : writeToBuf m buf = .ok b)
    (s i : Nat) (w : Bytes) (hs : (s + 1) * 512 ≤ metadataSize m) (hi : i + w.length ≤ 512) (hw : w.length ≤ 4)
    (hchg : splice b (s * 512 + i) w ≠ b) :
    ∃ e, fromBytes (splice b (s * 512 + i) w) = .error e := by
  have hfit : metadataSize m ≤ buf.length := by
    unfold writeToBuf at hsave
    split at hsave
    · exact absurd hsave (by simp)
    · omega
  obtain ⟨b0, hb0, hblen, -, hload⟩ := C01_save_load m buf hm hfit hmul
  rw [hb0, Except.ok.injEq] at hsave
  subst hsave
  cases hres : fromBytes (splice b0 (s * 512 + i) w) with
  | error e => exact ⟨e, rfl⟩
  | ok m' =>
    exfalso
    have hsz : metadataSize m = 512 + divCeil m.headers.length 508 * 512 := rfl
    have o1 := fromBytes_ok hload
    have o2 := fromBytes_ok hres
    have hoff : s * 512 + 512 ≤ b0.length := by omega
    apply hchg
    apply splice_noop hoff hi
    have hl : (slice b0 (s * 512) 512).length = 512 := slice_length _ _ _ hoff
    have hmain : sectorValid (slice b0 (s * 512) 512) = true ∧
        sectorValid (slice (splice b0 (s * 512 + i) w) (s * 512) 512) = true := by
      cases s with
      | zero =>
        simp only [slice, Nat.zero_mul, List.drop_zero]
        refine ⟨o1.2.2.1, ?_⟩
        have := o2.2.2.1
        simpa using this
      | succ s =>
        obtain ⟨_, _, _, _, _, _, _, _, _, c1, _, a1, r1, _⟩ := o1
        obtain ⟨_, _, _, _, _, _, _, _, _, c2, _, a2, r2, _⟩ := o2
        have hsame : slice (splice b0 ((s + 1) * 512 + i) w) 14 4 = slice b0 14 4 := by
          apply slice_of_take (n := 512)
          · unfold splice
            rw [List.append_assoc, List.take_append_of_le_length (by simp; omega), List.take_take, Nat.min_eq_left (by omega)]
          · decide
        rw [hsame, ← c1] at c2
        have hlt : s < divCeil m.headers.length 508 := by omega
        have v1 := ((readGroups_ok r1).1 s hlt).2
        have v2 := ((readGroups_ok r2).1 s (by rw [c2]; exact hlt)).2
        have e : (512 + (0 + s) * 512) = (s + 1) * 512 := by omega
        rw [e] at v1 v2
        exact ⟨v1, v2⟩
    rw [slice_splice_same hoff hi] at hmain
    exact sector_burst hl hi hw hmain.1 hmain.2

/-- Hypotheses of C02 are met: flip a flag byte of stripe 600 (sector 2, offset 92) of a saved image. -/
example : ∃ b e, writeToBuf sample (zeros 1536) = .ok b ∧ fromBytes (splice b (2 * 512 + 92) [0xFF]) = .error e := by
  obtain ⟨b, hb, hl, -, hload⟩ := C01_save_load sample (zeros 1536) sample_saveable
    (by rw [sample_size, zeros_length]; exact Nat.le_refl _) (by rw [zeros_length])
  obtain ⟨e, he⟩ := C02_burst_detected sample (zeros 1536) b sample_saveable (by rw [zeros_length]) hb 2 92 [0xFF]
    (by rw [sample_size]; decide) (by decide) (by decide) (by
      intro h
      have hg : b[1116]? = some 0xFF := by
        rw [← h]; unfold splice
        rw [zeros_length] at hl
        rw [List.append_assoc, List.getElem?_append_right (by simp; omega)]
        simp [hl]
      have hb2 := writeToBuf_eq sample (zeros 1536) (by rw [sample_size, zeros_length]; exact Nat.le_refl _) sample_saveable.2.2.2.2
      rw [hb, Except.ok.injEq] at hb2
      have hs : slice b 1024 512 = writeSector (groupHeaders sample.headers 1) := by
        rw [hb2]
        have h1 := groupsImage_slice sample.headers 0 (headerSectorCount sample) 1 (by
          simp [headerSectorCount, sample, divCeil])
        rw [← show 0 + 1 = 1 from rfl, ← h1]
        unfold image
        simp only [slice]
        rw [List.append_assoc, List.drop_append, writeSector_length, List.drop_of_length_le (by rw [writeSector_length]; decide), List.nil_append]
        rw [List.drop_append_of_le_length (by rw [groupsImage_length]; simp [headerSectorCount, sample, divCeil])]
        rw [List.take_append_of_le_length (by rw [List.length_drop, groupsImage_length]; simp [headerSectorCount, sample, divCeil])]
      have h2 := congrArg (fun l => l[92]?) hs
      have e1 : (slice b 1024 512)[92]? = b[1116]? := by
        simp only [slice, List.getElem?_take, List.getElem?_drop]; simp
      have e2 : (writeSector (groupHeaders sample.headers 1))[92]? = some 7 := by
        have : (writeSector (groupHeaders sample.headers 1))[92]? = ((writeSector (groupHeaders sample.headers 1)).take 508)[92]? := by
          simp only [List.getElem?_take]; simp
        rw [this, writeSector_take]
        simp only [List.getElem?_take]
        rw [if_pos (by decide), List.getElem?_append_left (by simp [groupHeaders, sample])]
        simp [groupHeaders, sample]
      simp only [e1, e2, hg] at h2
      exact absurd h2 (by decide))
  exact ⟨b, e, hb, he⟩

/-- **C03** The loader is total and safe on every byte string. -/
theorem C03_load_total (buf : Bytes) :
    fromBytes buf ≠ .error .panic ∧
    ∀ m, fromBytes buf = .ok m →
      m.shift.toNat ≤ 17 ∧ m.headers.length = fromLe (slice buf 14 4) ∧ metadataSize m ≤ buf.length ∧
      (∀ k, k < m.headers.length → m.headers[k]? = buf[512 + k / 508 * 512 + k % 508]?) ∧
      ∀ buf' : Bytes, buf'.length % 512 = 0 → metadataSize m ≤ buf'.length →
        buf'.take (metadataSize m) = buf.take (metadataSize m) → fromBytes buf' = .ok m := by
  refine ⟨fromBytes_no_panic buf, ?_⟩
  intro m h
  have hok := fromBytes_ok h
  obtain ⟨h1, h2, h3, h4, h5, h6, h7, h8, h9, h10, h11, all, hall, hh⟩ := hok
  refine ⟨h9, h10, h11, ?_, fun buf' a b c => fromBytes_prefix h a b c⟩
  intro k hk
  have := readGroups_get hall k (by
    have := le_divCeil_mul (a := m.headers.length) (b := 508) (by decide); omega)
  simp only [List.length_nil, Nat.zero_add] at this
  rw [← this, hh, List.getElem?_take, if_pos hk]

/-- Non-vacuity: some byte strings load (so the second half is about something), others fail. -/
example : (∃ b, fromBytes b = .ok sample) ∧ fromBytes (zeros 512) = .error .headerCrc := by
  constructor
  · obtain ⟨b, -, -, -, h⟩ := C01_save_load sample (zeros 1536) sample_saveable
      (by rw [sample_size, zeros_length]; exact Nat.le_refl _) (by rw [zeros_length])
    exact ⟨b, h⟩
  · have : sectorValid ((zeros 512).take 512) = false := by decide +kernel
    unfold fromBytes
    rw [if_neg (by rw [zeros_length]; decide), if_neg (by rw [zeros_length]; decide), if_pos this]

/-- One incremental update: the in-memory flag byte of stripe `k` becomes `v` and its metadata sector is
written to the device. -/
def applyUpdate (s : Meta × Bytes) (u : Nat × UInt8) : Meta × Bytes :=
  ({ s.1 with headers := s.1.headers.set u.1 u.2 },
   writeStripeSector (s.1.headers.set u.1 u.2) u.1 s.2)

/-- **C04** After any sequence of one-sector updates the device holds exactly what a full save of the
updated metadata would put there, and loads back to it. -/
theorem C04_incremental_eq_full (m : Meta) (buf b : Bytes) (hm : Saveable m) (hmul : buf.length % 512 = 0)
    (hsave : writeToBuf m buf = .ok b)
    (us : List (Nat × UInt8)) (hus : ∀ u ∈ us, u.1 < m.headers.length) :
    let final := us.foldl applyUpdate (m, b)
    final.1.headers = us.foldl (fun hs u => hs.set u.1 u.2) m.headers ∧
    final.1.shift = m.shift ∧
    writeToBuf final.1 buf = .ok final.2 ∧ fromBytes final.2 = .ok final.1 := by
  have hfit : metadataSize m ≤ buf.length := by
    unfold writeToBuf at hsave
    split at hsave
    · exact absurd hsave (by simp)
    · omega
  induction us generalizing m b with
  | nil =>
    refine ⟨rfl, rfl, hsave, ?_⟩
    obtain ⟨b', hb', -, -, hl⟩ := C01_save_load m buf hm hfit hmul
    rw [hsave, Except.ok.injEq] at hb'
    subst hb'
    exact hl
  | cons u us ih =>
    simp only [List.foldl_cons]
    have hk := hus u (by simp)
    rw [writeToBuf_eq m buf hfit hm.2.2.2.2, Except.ok.injEq] at hsave
    have hs' : Saveable { m with headers := m.headers.set u.1 u.2 } := by
      unfold Saveable at hm ⊢
      simpa using hm
    have hsz : metadataSize { m with headers := m.headers.set u.1 u.2 } = metadataSize m := by
      simp [metadataSize, headerSectorCount]
    have := ih { m with headers := m.headers.set u.1 u.2 }
      (writeStripeSector (m.headers.set u.1 u.2) u.1 b) hs' (by
        rw [writeToBuf_eq _ _ (by rw [hsz]; exact hfit) hs'.2.2.2.2, ← hsave,
          writeStripeSector_image m u.1 u.2 hk, hsz])
      (by intro v hv; have := hus v (by simp [hv]); simpa using this) (by rw [hsz]; exact hfit)
    exact this

example : ∃ b, writeToBuf sample (zeros 2048) = .ok b ∧
    ∀ u ∈ [((3 : Nat), (7 : UInt8)), (999, 5), (3, 1)], u.1 < sample.headers.length := by
  obtain ⟨b, hb, -⟩ := C01_save_load sample (zeros 2048) sample_saveable
    (by rw [sample_size, zeros_length]; decide) (by rw [zeros_length])
  refine ⟨b, hb, ?_⟩
  simp [sample]

end Verif.Metadata
