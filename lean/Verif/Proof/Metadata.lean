import Verif.Model.Metadata
import Verif.Proof.Crc32

set_option maxRecDepth 8000

namespace Verif.Metadata
open Verif Verif.Crc32

theorem divCeil_le_iff {a b c : Nat} (hb : 0 < b) : divCeil a b ≤ c ↔ a ≤ c * b := by
  unfold divCeil
  rw [Nat.div_le_iff_le_mul_add_pred hb, Nat.mul_comm b c]
  omega

theorem le_divCeil_mul {a b : Nat} (hb : 0 < b) : a ≤ divCeil a b * b :=
  (divCeil_le_iff hb).mp (Nat.le_refl _)

theorem divCeil_mul_lt {a b : Nat} (hb : 0 < b) : divCeil a b * b < a + b := by
  unfold divCeil
  have := Nat.div_mul_le_self (a + b - 1) b
  omega

theorem crcBytes_length (m : Bytes) : (crcBytes m).length = 4 := le_length _ _

theorem body_length (c : Bytes) : ((c ++ zeros SECTOR_SIZE).take PER_SECTOR).length = 508 := by
  simp

theorem writeSector_length (c : Bytes) : (writeSector c).length = 512 := by
  unfold writeSector
  simp only [List.length_append, body_length, crcBytes_length]

theorem writeSector_take (c : Bytes) :
    (writeSector c).take PER_SECTOR = (c ++ zeros SECTOR_SIZE).take PER_SECTOR := by
  unfold writeSector
  simp only
  rw [List.take_append_of_le_length (by rw [body_length]; decide)]
  rw [List.take_take]; simp

theorem writeSector_valid (c : Bytes) : sectorValid (writeSector c) = true := by
  unfold sectorValid
  rw [writeSector_take]
  have : (writeSector c).drop PER_SECTOR = crcBytes ((c ++ zeros SECTOR_SIZE).take PER_SECTOR) := by
    unfold writeSector
    simp only
    rw [List.drop_append_of_le_length (by rw [body_length]; decide)]
    rw [List.drop_of_length_le (by rw [body_length]; decide)]
    simp
  rw [this, List.take_of_length_le (by rw [crcBytes_length]; decide)]
  simp

/-- A sector is valid exactly when its 512 bytes leave the CRC residue. -/
theorem sectorValid_iff {s : Bytes} (h : s.length = 512) :
    sectorValid s = true ↔ run 0xFFFFFFFF#32 s = residue := by
  unfold sectorValid
  rw [List.take_of_length_le (by simp [h])]
  rw [beq_iff_eq, valid_iff_residue _ _ (by simp [h]), List.take_append_drop]

/-- Sector image of groups `g .. g+n`. -/
def groupsImage (hs : Bytes) : Nat → Nat → Bytes
  | _, 0 => []
  | g, n + 1 => writeSector (groupHeaders hs g) ++ groupsImage hs (g + 1) n

/-- Bodies (508 bytes each) of groups `g .. g+n`. -/
def groupsBody (hs : Bytes) : Nat → Nat → Bytes
  | _, 0 => []
  | g, n + 1 => (groupHeaders hs g ++ zeros SECTOR_SIZE).take PER_SECTOR ++ groupsBody hs (g + 1) n

theorem groupsImage_length (hs : Bytes) (g n : Nat) : (groupsImage hs g n).length = n * 512 := by
  induction n generalizing g with
  | zero => simp [groupsImage]
  | succ n ih => simp [groupsImage, ih, writeSector_length]; omega

theorem groupsBody_length (hs : Bytes) (g n : Nat) : (groupsBody hs g n).length = n * 508 := by
  induction n generalizing g with
  | zero => simp [groupsBody]
  | succ n ih => simp only [groupsBody, List.length_append, body_length, ih]; omega

/-- The bytes of a full save. -/
def image (m : Meta) : Bytes :=
  writeSector (headerContents m) ++ groupsImage m.headers 0 (headerSectorCount m)

theorem image_length (m : Meta) : (image m).length = metadataSize m := by
  simp [image, writeSector_length, groupsImage_length, metadataSize]

theorem writeGroups_eq (hs pre rest : Bytes) (g n : Nat) (hpre : pre.length = 512 + g * 512)
    (hn : n * 512 ≤ rest.length) :
    writeGroups hs g n (pre ++ rest) = .ok (pre ++ groupsImage hs g n ++ rest.drop (n * 512)) := by
  induction n generalizing g pre rest with
  | zero => simp [writeGroups, groupsImage]
  | succ n ih =>
    unfold writeGroups
    simp only
    rw [if_pos (by simp [hpre]; omega)]
    rw [splice_append_right _ _ _ _ (by omega)]
    have e : 512 + g * 512 - pre.length = 0 := by omega
    rw [e]
    have hr : rest = rest.take 512 ++ rest.drop 512 := by simp
    rw [show splice rest 0 (writeSector (groupHeaders hs g)) =
        writeSector (groupHeaders hs g) ++ rest.drop 512 by
      conv => lhs; rw [hr]
      rw [splice_zero_exact _ _ _ (by rw [writeSector_length]; simp; omega)]]
    rw [← List.append_assoc, ih (pre ++ writeSector (groupHeaders hs g)) (rest.drop 512) (g + 1)
      (by simp [hpre, writeSector_length]; omega) (by simp; omega)]
    have e2 : 512 + n * 512 = (n + 1) * 512 := by omega
    rw [List.drop_drop, e2]
    simp only [groupsImage, List.append_assoc]

theorem writeToBuf_eq (m : Meta) (buf : Bytes) (hlen : metadataSize m ≤ buf.length)
    (hc : m.headers.length < 2 ^ 32) :
    writeToBuf m buf = .ok (image m ++ buf.drop (metadataSize m)) := by
  unfold writeToBuf
  rw [if_neg (by omega), if_neg (by omega)]
  have hsz : metadataSize m = 512 + headerSectorCount m * 512 := rfl
  have hb : buf = buf.take 512 ++ buf.drop 512 := by simp
  rw [show splice buf 0 (writeSector (headerContents m)) =
      writeSector (headerContents m) ++ buf.drop 512 by
    conv => lhs; rw [hb]
    rw [splice_zero_exact _ _ _ (by rw [writeSector_length]; simp; omega)]]
  rw [writeGroups_eq _ _ _ _ _ (by rw [writeSector_length]) (by simp; omega)]
  simp only [image, List.drop_drop, hsz]

theorem slice_append_at {α} (a b c : List α) (off n : Nat) (ho : off = a.length) (hn : n = b.length) :
    slice (a ++ b ++ c) off n = b := by
  subst ho hn
  simp [slice]

theorem readGroups_image (hs pre rest acc : Bytes) (g n : Nat) (hpre : pre.length = 512 + g * 512) :
    readGroups (pre ++ groupsImage hs g n ++ rest) g n acc = .ok (acc ++ groupsBody hs g n) := by
  induction n generalizing g pre acc with
  | zero => simp [readGroups, groupsBody]
  | succ n ih =>
    unfold readGroups
    simp only
    rw [if_pos (by simp [hpre, groupsImage_length]; omega)]
    have hs' : slice (pre ++ groupsImage hs g (n + 1) ++ rest) (512 + g * 512) 512 =
        writeSector (groupHeaders hs g) := by
      rw [show pre ++ groupsImage hs g (n + 1) ++ rest =
        pre ++ writeSector (groupHeaders hs g) ++ (groupsImage hs (g + 1) n ++ rest) by
          simp [groupsImage]]
      exact slice_append_at _ _ _ _ _ hpre.symm (by rw [writeSector_length])
    rw [hs']
    rw [if_pos (writeSector_valid _)]
    have : pre ++ groupsImage hs g (n + 1) ++ rest =
        (pre ++ writeSector (groupHeaders hs g)) ++ groupsImage hs (g + 1) n ++ rest := by
      simp [groupsImage]
    rw [this, ih (pre := pre ++ writeSector (groupHeaders hs g)) (g := g + 1)
      (hpre := by rw [List.length_append, hpre, writeSector_length]; omega), writeSector_take]
    simp [groupsBody]

theorem groupsBody_take (hs : Bytes) (g n : Nat) (h : hs.length ≤ (g + n) * 508) :
    (groupsBody hs g n).take (hs.length - g * 508) = hs.drop (g * 508) := by
  induction n generalizing g with
  | zero =>
    simp only [groupsBody, List.take_nil]
    rw [List.drop_of_length_le (by simpa using h)]
  | succ n ih =>
    simp only [groupsBody]
    have ih' := ih (g + 1) (by rw [show g + 1 + n = g + (n + 1) by omega]; exact h)
    by_cases hc : hs.length ≤ (g + 1) * 508
    · rw [List.take_append_of_le_length (by rw [body_length]; omega), List.take_take]
      rw [List.take_append_of_le_length
        (by simp only [groupHeaders, List.length_take, List.length_drop]; omega)]
      simp only [groupHeaders, List.take_take]
      rw [List.take_of_length_le (by simp; omega)]
    · have hfull : (groupHeaders hs g).length = 508 := by
        simp only [groupHeaders, List.length_take, List.length_drop]; omega
      have hb : (groupHeaders hs g ++ zeros SECTOR_SIZE).take PER_SECTOR = groupHeaders hs g := by
        rw [List.take_append_of_le_length (by rw [hfull]; decide)]
        exact List.take_of_length_le (by rw [hfull]; decide)
      rw [hb, List.take_append, hfull, List.take_of_length_le (by rw [hfull]; omega)]
      rw [show hs.length - g * 508 - 508 = hs.length - (g + 1) * 508 by omega, ih']
      simp only [groupHeaders]
      rw [show (g + 1) * 508 = g * 508 + 508 by omega, ← List.drop_drop, List.take_append_drop]

/-- Metadata the loader accepts: the well-formedness every constructor establishes. -/
structure WF (m : Meta) : Prop where
  magic : m.magic = magicBytes
  vmaj : m.verMajor = versionMajor
  vmin : m.verMinor = versionMinor
  shift : m.shift.toNat ≤ MAX_SHIFT
  count : m.headers.length < 2 ^ 32

theorem headerContents_length {m : Meta} (h : WF m) : (headerContents m).length = 18 := by
  simp [headerContents, h.magic, h.vmaj, h.vmin, magicBytes, versionMajor, versionMinor]

theorem writeSector_prefix (c : Bytes) (hc : c.length ≤ 508) :
    ∃ t, writeSector c = c ++ t := by
  refine ⟨zeros (508 - c.length) ++ crcBytes ((c ++ zeros SECTOR_SIZE).take PER_SECTOR), ?_⟩
  unfold writeSector
  simp only
  rw [← List.append_assoc]
  congr 1
  rw [List.take_append, List.take_of_length_le (by simpa using hc)]
  exact congrArg (c ++ ·) (zeros_take _ _ (by omega))

theorem fromBytes_image {m : Meta} (h : WF m) (rest : Bytes) (hr : rest.length % 512 = 0) :
    fromBytes (image m ++ rest) = .ok m := by
  have himg := image_length m
  have hsz : metadataSize m = 512 + headerSectorCount m * 512 := rfl
  obtain ⟨t, ht⟩ := writeSector_prefix (headerContents m) (by rw [headerContents_length h]; decide)
  have hlayout : image m ++ rest = headerContents m ++ (t ++ (groupsImage m.headers 0 (headerSectorCount m) ++ rest)) := by
    simp [image, ht]
  have hc : headerContents m = magicBytes ++ (versionMajor ++ (versionMinor ++ ([m.shift] ++ le 4 m.headers.length))) := by
    simp [headerContents, h.magic, h.vmaj, h.vmin]
  have hml : magicBytes.length = 9 := rfl
  have hvj : versionMajor.length = 2 := rfl
  have hvn : versionMinor.length = 2 := rfl
  generalize htail : t ++ (groupsImage m.headers 0 (headerSectorCount m) ++ rest) = tail at hlayout
  have hmagic : (image m ++ rest).take 9 = magicBytes := by
    rw [hlayout, hc]; simp [hml]
  have hvmaj : slice (image m ++ rest) 9 2 = versionMajor := by
    rw [hlayout, hc]
    have := slice_append_at magicBytes versionMajor (versionMinor ++ ([m.shift] ++ le 4 m.headers.length) ++ tail) 9 2 rfl rfl
    simpa using this
  have hvmin : slice (image m ++ rest) 11 2 = versionMinor := by
    rw [hlayout, hc]
    have := slice_append_at (magicBytes ++ versionMajor) versionMinor ([m.shift] ++ le 4 m.headers.length ++ tail) 11 2 rfl rfl
    simpa using this
  have hshift : (image m ++ rest).getD 13 0 = m.shift := by
    rw [hlayout, hc]
    simp [magicBytes, versionMajor, versionMinor, le]
  have hcount : fromLe (slice (image m ++ rest) 14 4) = m.headers.length := by
    rw [hlayout, hc]
    have := slice_append_at (magicBytes ++ versionMajor ++ versionMinor ++ [m.shift]) (le 4 m.headers.length) tail 14 4 rfl (by simp)
    have e : slice (magicBytes ++ (versionMajor ++ (versionMinor ++ ([m.shift] ++ le 4 m.headers.length))) ++ tail) 14 4
        = le 4 m.headers.length := by simpa using this
    rw [e, fromLe_le_of_lt (by have := h.count; omega)]
  have hlen : (image m ++ rest).length = 512 + headerSectorCount m * 512 + rest.length := by
    simp [himg, hsz]
  have hhdr : (image m ++ rest).take SECTOR_SIZE = writeSector (headerContents m) := by
    simp only [image, List.append_assoc]
    rw [List.take_append_of_le_length (by rw [writeSector_length]; omega)]
    exact List.take_of_length_le (by rw [writeSector_length]; omega)
  unfold fromBytes
  simp only [hmagic, hvmaj, hvmin, hshift, hcount, hhdr, hlen]
  rw [if_neg (by omega), if_neg (by omega), if_neg (by rw [writeSector_valid]; decide), if_neg (by simp), if_neg (by simp),
    if_neg (by have := h.shift; omega)]
  have hcap : m.headers.length ≤ headerSectorCount m * 508 := le_divCeil_mul (by decide)
  have hmul : headerSectorCount m ≤ (512 + headerSectorCount m * 512 + rest.length - 512) / 512 := by
    rw [Nat.le_div_iff_mul_le (by decide)]; omega
  rw [if_neg (by
    have := Nat.mul_le_mul_right PER_SECTOR hmul
    omega)]
  have hg : divCeil m.headers.length PER_SECTOR = headerSectorCount m := rfl
  rw [hg]
  have hrd := readGroups_image m.headers (writeSector (headerContents m)) rest [] 0 (headerSectorCount m)
    (by have := writeSector_length (headerContents m); omega)
  have : image m ++ rest = writeSector (headerContents m) ++ groupsImage m.headers 0 (headerSectorCount m) ++ rest := by
    simp [image]
  rw [this, hrd]
  simp only [List.nil_append]
  rw [if_pos (by rw [groupsBody_length]; omega)]
  have ht2 := groupsBody_take m.headers 0 (headerSectorCount m) (by omega)
  simp only [Nat.zero_mul, Nat.sub_zero, List.drop_zero] at ht2
  rw [ht2]
  rw [← h.magic, ← h.vmaj, ← h.vmin]

theorem readGroups_ok {buf acc r : Bytes} {g n : Nat} (h : readGroups buf g n acc = .ok r) :
    (∀ i, i < n → 512 + (g + i) * 512 + 512 ≤ buf.length ∧
      sectorValid (slice buf (512 + (g + i) * 512) 512) = true) ∧ r.length = acc.length + n * 508 := by
  induction n generalizing g acc with
  | zero =>
    simp only [readGroups, Except.ok.injEq] at h
    subst h
    exact ⟨by intro i hi; omega, by simp⟩
  | succ n ih =>
    unfold readGroups at h
    simp only at h
    split at h
    · rename_i hle
      split at h
      · rename_i hv
        have ⟨h1, h2⟩ := ih h
        refine ⟨?_, ?_⟩
        · intro i hi
          cases i with
          | zero => exact ⟨hle, hv⟩
          | succ i =>
            have := h1 i (by omega)
            rw [show g + 1 + i = g + (i + 1) by omega] at this
            exact this
        · rw [h2]
          have : (slice buf (512 + g * 512) 512).length = 512 := slice_length _ _ _ (by simpa using hle)
          simp [this]; omega
      · exact absurd h (by simp)
    · exact absurd h (by simp)

theorem readGroups_congr {buf buf' acc : Bytes} {g n : Nat}
    (h : ∀ i, i < n → 512 + (g + i) * 512 + 512 ≤ buf.length ∧ 512 + (g + i) * 512 + 512 ≤ buf'.length ∧
      slice buf (512 + (g + i) * 512) 512 = slice buf' (512 + (g + i) * 512) 512) :
    readGroups buf g n acc = readGroups buf' g n acc := by
  induction n generalizing g acc with
  | zero => rfl
  | succ n ih =>
    have h0 := h 0 (by omega)
    simp only [Nat.add_zero] at h0
    unfold readGroups
    simp only [h0.2.2]
    rw [if_pos h0.1, if_pos h0.2.1]
    split
    · apply ih
      intro i hi
      have := h (i + 1) (by omega)
      rw [show g + 1 + i = g + (i + 1) by omega]
      exact this
    · rfl

theorem readGroups_no_panic {buf acc : Bytes} {g n : Nat} (h : 512 + (g + n) * 512 ≤ buf.length) :
    readGroups buf g n acc ≠ .error .panic := by
  induction n generalizing g acc with
  | zero => simp [readGroups]
  | succ n ih =>
    unfold readGroups
    simp only
    rw [if_pos (by omega)]
    split
    · exact ih (by rw [show g + 1 + n = g + (n + 1) by omega]; exact h)
    · simp

/-- Everything a successful load establishes. -/
theorem fromBytes_ok {buf : Bytes} {m : Meta} (h : fromBytes buf = .ok m) :
    512 ≤ buf.length ∧ buf.length % 512 = 0 ∧ sectorValid (buf.take 512) = true ∧
    m.magic = buf.take 9 ∧ m.magic = magicBytes ∧ m.verMajor = versionMajor ∧ m.verMinor = versionMinor ∧
    m.shift = buf.getD 13 0 ∧ m.shift.toNat ≤ MAX_SHIFT ∧
    m.headers.length = fromLe (slice buf 14 4) ∧
    512 + divCeil m.headers.length 508 * 512 ≤ buf.length ∧
    ∃ all, readGroups buf 0 (divCeil m.headers.length 508) [] = .ok all ∧ m.headers = all.take m.headers.length := by
  unfold fromBytes at h
  simp only at h
  split at h; · exact absurd h (by simp)
  rename_i h1
  split at h; · exact absurd h (by simp)
  rename_i h2
  split at h; · exact absurd h (by simp)
  rename_i h3
  split at h; · exact absurd h (by simp)
  rename_i h4
  split at h; · exact absurd h (by simp)
  rename_i h5
  split at h; · exact absurd h (by simp)
  rename_i h6
  split at h; · exact absurd h (by simp)
  rename_i h7
  split at h; · exact absurd h (by simp)
  rename_i all hall
  split at h
  case isFalse => exact absurd h (by simp)
  rename_i h8
  simp only [Except.ok.injEq] at h
  subst h
  have hlen : (all.take (fromLe (slice buf 14 4))).length = fromLe (slice buf 14 4) := by
    simp only [List.length_take]; omega
  simp only [not_or, Decidable.not_not] at h5
  simp only [Decidable.not_not] at h4 h2 h3
  refine ⟨by omega, by omega, by simpa using h3, rfl, h4, h5.1, h5.2, rfl, Nat.le_of_not_gt h6, hlen, ?_, all, ?_, ?_⟩
  · simp only [hlen]
    have hmul : (buf.length - 512) / 512 * 508 = (buf.length - 512) / 512 * PER_SECTOR := rfl
    have h9 : divCeil (fromLe (slice buf 14 4)) 508 ≤ (buf.length - 512) / 512 := by
      rw [divCeil_le_iff (by decide)]
      omega
    have := Nat.div_mul_le_self (buf.length - 512) 512
    have h10 := Nat.mul_le_mul_right 512 h9
    omega
  · rw [hlen]; exact hall
  · simp only [hlen]

end Verif.Metadata
