import Verif.Spec.Init
import Verif.Proof.DiskTrace
import Verif.Props.XtsTool
import Verif.Props.Metadata
import Verif.Props.Crypt

/-! # C49: initialising a volume -/

set_option maxRecDepth 8000

namespace Verif.Init
open Verif Verif.Metadata Verif.Disk Verif.Remote Verif.Crypt

theorem flags_zero : flagsOf 0 = ⟨false, false, false⟩ := rfl
theorem flags_source : flagsOf HAS_SOURCE = ⟨false, false, true⟩ := rfl

theorem flags_bits : ∀ h : UInt8, decide (h &&& WRITTEN ≠ 0) = (flagsOf h).written ∧
    decide (h &&& HAS_SOURCE ≠ 0) = (flagsOf h).hasSource := by
  have key : ∀ h : Fin 256, decide (UInt8.ofNat h.1 &&& WRITTEN ≠ 0) = (flagsOf (UInt8.ofNat h.1)).written ∧
      decide (UInt8.ofNat h.1 &&& HAS_SOURCE ≠ 0) = (flagsOf (UInt8.ofNat h.1)).hasSource := by decide +kernel
  intro h
  simpa using key ⟨h.toNat, h.toNat_lt⟩

theorem build_iff {src : Source} {ssc : Nat} :
    (src.Usable ssc → ∃ has, src.build ssc = .ok has ∧ ∀ k, has k = true ↔ src.Has ssc k) ∧
    (¬src.Usable ssc → ∃ e, src.build ssc = .error e) := by
  cases src with
  | none => exact ⟨fun _ => ⟨_, rfl, by simp [Source.Has]⟩, fun h => absurd trivial h⟩
  | raw size =>
    simp only [Source.Usable, Source.build, Source.Has, Nat.dvd_iff_mod_eq_zero]
    refine ⟨fun h => ⟨fun k => decide (k * ssc < size / 512), by rw [if_neg (by omega)], ?_⟩,
      fun h => ⟨.imageSize, by rw [if_pos h]⟩⟩
    intro k
    rw [decide_eq_true_eq]
    generalize k * ssc = y
    omega
  | archive ids => exact ⟨fun _ => ⟨_, rfl, by simp [Source.Has]⟩, fun h => absurd trivial h⟩
  | remote rs hs =>
    simp only [Source.Usable, Source.build, Source.Has]
    refine ⟨fun h => ⟨_, by rw [if_neg (by simpa using h)], ?_⟩, fun h => ⟨.stripeSize, by rw [if_pos h]⟩⟩
    intro k
    split
    · rename_i hk
      simp [List.getElem?_eq_none hk]
    · rename_i hk
      have hk : k < hs.length := by omega
      rw [Bool.or_eq_true, (flags_bits _).1, (flags_bits _).2]
      simp [List.getD_eq_getElem?_getD, hk]

/-- The metadata that `init` writes for a usable source. -/
theorem init_md {src : Source} {ssc base : Nat} {shift : UInt8} :
    (src.Usable ssc → ∃ md : Meta, newMeta src shift ssc base = .ok md ∧
      md.magic = magicBytes ∧ md.verMajor = versionMajor ∧ md.verMinor = versionMinor ∧ md.shift = shift ∧
      md.headers.length = base ∧
      ∀ k h, md.headers[k]? = some h → flagsOf h = ⟨false, false, (flagsOf h).hasSource⟩ ∧
        ((flagsOf h).hasSource = true ↔ src.Has ssc k)) ∧
    (¬src.Usable ssc → ∃ e, newMeta src shift ssc base = .error e) := by
  have hmap : ∀ (has : Nat → Bool), (∀ k, has k = true ↔ src.Has ssc k) →
      ∀ k h, ((List.range base).map fun i => if has i then HAS_SOURCE else 0)[k]? = some h →
      flagsOf h = ⟨false, false, (flagsOf h).hasSource⟩ ∧ ((flagsOf h).hasSource = true ↔ src.Has ssc k) := by
    intro has hh k h hk
    rw [List.getElem?_map, Option.map_eq_some_iff] at hk
    obtain ⟨i, hi, rfl⟩ := hk
    have : i = k := by
      obtain ⟨hl, he⟩ := List.getElem?_eq_some_iff.mp hi
      rw [List.getElem_range] at he; exact he.symm
    subst this
    split
    · rename_i ht; rw [flags_source]; exact ⟨rfl, by simp [(hh i).mp ht]⟩
    · rename_i ht; rw [flags_zero]; exact ⟨rfl, by simp [show ¬src.Has ssc i from fun hc => ht ((hh i).mpr hc)]⟩
  constructor
  · intro hu
    obtain ⟨has, hb, hh⟩ := build_iff.1 hu
    cases src with
    | none =>
      refine ⟨_, rfl, rfl, rfl, rfl, rfl, by simp [Meta.new], ?_⟩
      simp only [Meta.new, Nat.not_lt_zero, if_false]
      have := hmap (fun _ => false) (by simp [Source.Has])
      simpa using this
    | raw size => exact ⟨_, by simp only [newMeta, hb]; rfl, rfl, rfl, rfl, rfl, by simp [Meta.newFromSource], hmap has hh⟩
    | archive ids => exact ⟨_, by simp only [newMeta, hb]; rfl, rfl, rfl, rfl, rfl, by simp [Meta.newFromSource], hmap has hh⟩
    | remote rs hs => exact ⟨_, by simp only [newMeta, hb]; rfl, rfl, rfl, rfl, rfl, by simp [Meta.newFromSource], hmap has hh⟩
  · intro hu
    obtain ⟨e, he⟩ := build_iff.2 hu
    cases src with
    | none => exact absurd trivial hu
    | raw size => exact ⟨e, by simp only [newMeta, he]; rfl⟩
    | archive ids => exact absurd trivial hu
    | remote rs hs => exact ⟨e, by simp only [newMeta, he]; rfl⟩

theorem metaSize_eq (m : Meta) : metadataSize m = metaBytes m.headers.length := by
  simp [metadataSize, headerSectorCount, metaBytes, divCeil]

theorem saveBuf_ok {m : Meta} {sectors : Nat} (hm : m.headers.length < 2 ^ 32) (h1 : sectors < 2 ^ 32)
    (h2 : metadataSize m ≤ sectors * 512) :
    saveBuf m sectors = .ok (image m ++ zeros (sectors * 512 - metadataSize m)) := by
  unfold saveBuf
  rw [if_neg (by omega)]
  simp only []
  rw [if_neg (by omega), writeToBuf_eq m (zeros (metadataSize m)) (Nat.le_of_eq (zeros_length _).symm) hm]
  simp only []
  rw [List.drop_of_length_le (Nat.le_of_eq (zeros_length _)), List.append_nil]

theorem saveBuf_inv {m : Meta} {sectors : Nat} {b : Bytes} (h : saveBuf m sectors = .ok b) :
    sectors < 2 ^ 32 ∧ metadataSize m ≤ sectors * 512 ∧ m.headers.length < 2 ^ 32 := by
  unfold saveBuf at h
  split at h
  · cases h
  simp only [] at h
  split at h
  · cases h
  split at h
  · rename_i hw
    unfold writeToBuf at hw
    split at hw
    · cases hw
    · split at hw
      · cases hw
      · exact ⟨by omega, by omega, by omega⟩
  · cases h

/-! ## Statements -/

/-- Everything `init` does when it succeeds. -/
theorem init_inv {s : Setup} {node : Node} {shift : UInt8} {job : Job} (h : init s node shift = .ok job) :
    6 ≤ shift.toNat ∧ shift.toNat ≤ 16 ∧ s.metadataPath = true ∧ s.dataSize % 512 = 0 ∧
    newMeta s.source shift (2 ^ shift.toNat) (divCeil (s.dataSize / 512) (2 ^ shift.toNat)) = .ok job.md ∧
    ensureFile node (metadataSize job.md) = .ok (job.mode, job.size) ∧ job.size % 512 = 0 ∧
    saveBuf job.md (job.size / 512) = .ok job.buf := by
  unfold init at h
  split at h
  · cases h
  rename_i h1
  split at h
  · cases h
  rename_i h2
  split at h
  · cases h
  rename_i h3
  simp only [] at h
  split at h
  · cases h
  rename_i md hmd
  split at h
  · cases h
  rename_i mode size he
  split at h
  · cases h
  rename_i h4
  split at h
  · cases h
  rename_i buf hb
  obtain rfl := Except.ok.inj h
  exact ⟨by omega, by omega, by simpa using h2, by omega, hmd, he, Nat.eq_zero_of_not_pos fun hc => h4 (Nat.ne_of_gt hc), hb⟩

theorem stripes_iff (dataSize ssc k : Nat) (hs : 0 < ssc) (hd : dataSize % 512 = 0) :
    k < stripes dataSize ssc ↔ k * ssc * 512 < dataSize := by
  unfold stripes
  rw [← Nat.succ_le_iff, Nat.le_div_iff_mul_le hs, Nat.succ_mul]
  generalize k * ssc = y
  omega

/-- C49: initialisation succeeds iff the stripe size is in range, a metadata path is set, disk and image are whole
sectors, a remote volume has the same stripe size, and the metadata fit what is at the metadata path. -/
theorem C49_accepts (s : Setup) (node : Node) (shift : UInt8) :
    (∃ job, init s node shift = .ok job) ↔
      (6 ≤ shift.toNat ∧ shift.toNat ≤ 16) ∧ s.metadataPath = true ∧ 512 ∣ s.dataSize ∧
      s.source.Usable (2 ^ shift.toNat) ∧ stripes s.dataSize (2 ^ shift.toNat) < 2 ^ 32 ∧
      node.Fits (metaBytes (stripes s.dataSize (2 ^ shift.toNat))) := by
  have hst : divCeil (s.dataSize / 512) (2 ^ shift.toNat) = stripes s.dataSize (2 ^ shift.toNat) := rfl
  constructor
  · rintro ⟨job, h⟩
    obtain ⟨h1, h2, h3, h4, h5, h6, h7, h8⟩ := init_inv h
    have hu : s.source.Usable (2 ^ shift.toNat) := by
      apply Classical.byContradiction
      intro hc
      obtain ⟨e, he⟩ := (init_md (shift := shift) (base := divCeil (s.dataSize / 512) (2 ^ shift.toNat))).2 hc
      rw [he] at h5; cases h5
    obtain ⟨md, hm, -, -, -, -, hl, -⟩ := (init_md (shift := shift) (base := divCeil (s.dataSize / 512) (2 ^ shift.toNat))).1 hu
    rw [hm] at h5
    obtain rfl := Except.ok.inj h5
    obtain ⟨g1, g2, g3⟩ := saveBuf_inv h8
    rw [hl, hst] at g3
    rw [metaSize_eq, hl, hst] at h6
    refine ⟨⟨h1, h2⟩, h3, Nat.dvd_iff_mod_eq_zero.mpr h4, hu, g3, ?_⟩
    cases node with
    | absent => trivial
    | other => cases h6
    | file mode size =>
      simp only [ensureFile, Except.ok.injEq, Prod.mk.injEq] at h6
      simp only [Node.Fits]
      by_cases hlt : size < metaBytes (stripes s.dataSize (2 ^ shift.toNat))
      · exact .inl hlt
      · rw [if_neg hlt] at h6
        rw [← h6.2] at h7 g1
        exact .inr ⟨Nat.dvd_iff_mod_eq_zero.mpr h7, g1⟩
  · rintro ⟨⟨h1, h2⟩, h3, h4, h5, h6, h7⟩
    obtain ⟨md, hm, -, -, -, -, hl, -⟩ := (init_md (shift := shift) (base := divCeil (s.dataSize / 512) (2 ^ shift.toNat))).1 h5
    have hms : metadataSize md = metaBytes (stripes s.dataSize (2 ^ shift.toNat)) := by rw [metaSize_eq, hl, hst]
    have hd : s.dataSize % 512 = 0 := Nat.dvd_iff_mod_eq_zero.mp h4
    have key : ∃ mode size, ensureFile node (metadataSize md) = .ok (mode, size) ∧ size % 512 = 0 ∧
        metadataSize md ≤ size ∧ size / 512 < 2 ^ 32 := by
      rw [hms]
      have hb : 0 < metaBytes (stripes s.dataSize (2 ^ shift.toNat)) ∧ metaBytes (stripes s.dataSize (2 ^ shift.toNat)) % 512 = 0 ∧
          metaBytes (stripes s.dataSize (2 ^ shift.toNat)) / 512 < 2 ^ 32 := by
        unfold metaBytes; omega
      generalize metaBytes (stripes s.dataSize (2 ^ shift.toNat)) = mb at hb h7
      cases node with
      | absent => exact ⟨_, _, rfl, by rw [if_pos hb.1]; exact hb.2.1, by rw [if_pos hb.1]; exact Nat.le_refl _, by rw [if_pos hb.1]; exact hb.2.2⟩
      | other => exact absurd h7 id
      | file mode size =>
        refine ⟨_, _, rfl, ?_⟩
        simp only [Node.Fits, Nat.dvd_iff_mod_eq_zero] at h7
        split <;> omega
    obtain ⟨mode, size, he, hz, hle, hlt⟩ := key
    have hsb := saveBuf_ok (m := md) (sectors := size / 512) (by rw [hl, hst]; exact h6) hlt (by omega)
    refine ⟨⟨mode, size, md, image md ++ zeros (size / 512 * 512 - metadataSize md)⟩, ?_⟩
    unfold init
    rw [if_neg (by omega), if_neg (by simp [h3]), if_neg (by omega)]
    simp only [hm, he, hsb]
    rw [if_neg (by omega)]

/-- C49, the flags: one per stripe of the disk, each saying "not fetched, not written" and "has a source" iff the source
has the stripe. -/
theorem C49_marks {s : Setup} {node : Node} {shift : UInt8} {job : Job} (h : init s node shift = .ok job) :
    job.md.shift = shift ∧
    (∀ k, k < job.md.headers.length ↔ k * 2 ^ shift.toNat * 512 < s.dataSize) ∧
    ∀ k b, job.md.headers[k]? = some b →
      (flagsOf b).fetched = false ∧ (flagsOf b).written = false ∧
      ((flagsOf b).hasSource = true ↔ s.source.Has (2 ^ shift.toNat) k) := by
  obtain ⟨h1, h2, h3, h4, h5, h6, h7, h8⟩ := init_inv h
  have hu := ((C49_accepts s node shift).mp ⟨job, h⟩).2.2.2.1
  obtain ⟨md, hm, -, -, -, hsh, hl, hf⟩ := (init_md (shift := shift) (base := divCeil (s.dataSize / 512) (2 ^ shift.toNat))).1 hu
  rw [hm] at h5
  obtain rfl := Except.ok.inj h5
  refine ⟨hsh, ?_, ?_⟩
  · intro k
    rw [hl]
    exact stripes_iff _ _ _ (Nat.two_pow_pos _) h4
  · intro k b hb
    obtain ⟨a, c⟩ := hf k b hb
    exact ⟨by rw [a], by rw [a], c⟩

/-- C49, the file: readable and writable by its owner only, whole sectors, as long as needed and never shortened. -/
theorem C49_file {s : Setup} {node : Node} {shift : UInt8} {job : Job} (h : init s node shift = .ok job) :
    job.mode = 0o600 ∧ 512 ∣ job.size ∧ metaBytes job.md.headers.length ≤ job.size ∧ job.buf.length = job.size ∧
    (∀ mode size, node = .file mode size → size ≤ job.size) := by
  obtain ⟨h1, h2, h3, h4, h5, h6, h7, h8⟩ := init_inv h
  obtain ⟨g1, g2, g3⟩ := saveBuf_inv h8
  rw [saveBuf_ok g3 g1 g2] at h8
  have hbl : job.buf.length = job.size := by
    rw [← Except.ok.inj h8, List.length_append, image_length, zeros_length]
    omega
  refine ⟨?_, Nat.dvd_iff_mod_eq_zero.mpr h7, by rw [← metaSize_eq]; omega, hbl, ?_⟩
  · cases node with
    | absent => simp only [ensureFile, Except.ok.injEq, Prod.mk.injEq] at h6; exact h6.1.symm
    | other => cases h6
    | file mode size =>
      simp only [ensureFile, Except.ok.injEq, Prod.mk.injEq] at h6
      rw [← h6.1]
      split <;> omega
  · rintro mode size rfl
    simp only [ensureFile, Except.ok.injEq, Prod.mk.injEq] at h6
    rw [← h6.2]
    split <;> omega

theorem init_loads {s : Setup} {node : Node} {shift : UInt8} {job : Job} (h : init s node shift = .ok job) (rest : Bytes)
    (hr : rest.length % 512 = 0) : fromBytes (job.buf ++ rest) = .ok job.md := by
  obtain ⟨h1, h2, h3, h4, h5, h6, h7, h8⟩ := init_inv h
  have hu := ((C49_accepts s node shift).mp ⟨job, h⟩).2.2.2.1
  obtain ⟨md, hm, ha, hb, hc, hsh, hl, hf⟩ := (init_md (shift := shift) (base := divCeil (s.dataSize / 512) (2 ^ shift.toNat))).1 hu
  rw [hm] at h5
  obtain rfl := Except.ok.inj h5
  obtain ⟨g1, g2, g3⟩ := saveBuf_inv h8
  have hsv : Saveable job.md := ⟨ha, hb, hc, by rw [hsh]; omega, g3⟩
  rw [saveBuf_ok g3 g1 g2] at h8
  rw [← Except.ok.inj h8, List.append_assoc]
  refine fromBytes_image hsv.wf _ ?_
  rw [List.length_append, zeros_length, metaSize_eq]
  unfold metaBytes
  omega

theorem readBuf_prefix {buf : Bytes} {n : Nat} {out : List (Option Sector)} (hb : buf.length = n * 512)
    (h : ∀ i, i < n → out[i]? = some (some (sectorAt buf i))) : ∃ rest : Bytes, rest.length % 512 = 0 ∧ readBuf out = buf ++ rest := by
  have hl : n ≤ out.length := by
    cases n with
    | zero => exact Nat.zero_le _
    | succ n => exact (List.getElem?_eq_some_iff.mp (h n (by omega))).1
  have hlen := readBuf_length out
  refine ⟨(readBuf out).drop (n * 512), by rw [List.length_drop, hlen]; omega, ?_⟩
  rw [← List.take_append_drop (n * 512) (readBuf out)]
  congr 1
  · refine XtsTool.sectors_ext (n := n) (by rw [List.length_take]; omega) hb ?_
    intro i hi
    have h1 : slice ((readBuf out).take (n * 512)) (i * 512) 512 = slice (readBuf out) (i * 512) 512 := by
      simp only [slice, List.drop_take, List.take_take]
      congr 1
      omega
    have h2 := List.getElem?_eq_some_iff.mp (h i hi)
    rw [h1, readBuf_slice out i (by omega), h2.2]
    simp only [secBytes, sectorAt]
    rw [dif_pos (by omega)]
  · rw [List.take_append_drop]

/-- C49, durability: once initialisation has returned, reading the metadata file back gives exactly the metadata it
wrote, whatever other requests, power losses and restarts come in between, as long as nothing writes to the file. With
`C19_refines_plain_disk` the same holds of an encrypted metadata file, seen through its key. -/
theorem C49_durable {s : Setup} {node : Node} {shift : UInt8} {job : Job} (h : init s node shift = .ok job)
    {v : Nat → Sector} {later e3 : List (Ev Sector)} {d : Disk Sector} {q r : Nat} {out : List (Option Sector)}
    (hr : Disk.Run (Dev.fresh v) (saveEvents job.buf (job.size / 512) ++ later ++
      (Ev.issue q r (.read 0 (job.size / 512)) :: e3 ++ [Ev.resp q r true out])) d)
    (hq : ∀ x, x < job.size / 512 → quiet later x ∧ quiet e3 x) (ho : unanswered (q, r) e3) : load out = .ok job.md := by
  obtain ⟨-, h512, -, hbl, -⟩ := C49_file h
  rw [Nat.dvd_iff_mod_eq_zero] at h512
  obtain ⟨m2, g1, g2⟩ := hr.split _ _ rfl
  obtain ⟨m1, g3, g4⟩ := g1.split _ _ rfl
  have key : ∀ i, i < job.size / 512 → out[i]? = some (some (sectorAt job.buf i)) := by
    intro i hi
    have hc : covers 0 (job.size / 512) i := ⟨Nat.zero_le _, by omega⟩
    obtain ⟨m0, g5, g6⟩ := g3.split [_, _] [_, _] rfl
    have r1 := Rest.write (es0 := []) (es := []) g5 rfl (by intro a b _ _ _ _ _ hab; simp at hab) (quiet_nil _) (unanswered_nil _) hc
    have r2 := (r1.flush (es := []) g6 (quiet_nil _) (unanswered_nil _)).run g4 (hq i hi).1
    have := r2.toRest.read g2 (hq i hi).2 ho hc
    simpa [bufData, hc] using this
  obtain ⟨rest, hz, he⟩ := readBuf_prefix (by omega) key
  rw [load, he]
  exact init_loads h rest hz

/-! ## Cases -/

/-- A disk of 100 sectors with a raw image of 65: two stripes, both with a source. -/
def demo : Setup := { metadataPath := true, dataSize := 51200, source := .raw 33280 }

theorem demo_ok : ∃ job, init demo .absent 6 = .ok job ∧ job.md.headers = [HAS_SOURCE, HAS_SOURCE] ∧ job.size = 1024 :=
  ⟨_, rfl, rfl, rfl⟩

/-- The same disk with an image of 64 sectors: the second stripe starts where the image ends. -/
example : ∃ job, init { demo with source := .raw 32768 } .absent 6 = .ok job ∧ job.md.headers = [HAS_SOURCE, 0] := ⟨_, rfl, rfl⟩

/-- A longer file that others could read is kept as long and closed to others. -/
example : ∃ job, init demo (.file 0o644 4096) 6 = .ok job ∧ (job.mode, job.size) = (0o600, 4096) := ⟨_, rfl, rfl⟩

/-- A request can be carried out to its end. -/
theorem finish {D : Type} (d : Disk D) (o : Nat × Nat) {op : Op D} (h : d.ops o = some op) :
    ∃ d' op', Disk.Run d [] d' ∧ (∀ o', o' ≠ o → d'.ops o' = d.ops o') ∧ d'.ops o = some op' ∧ op'.finished ∧
      d'.pers = d.pers ∧ (∀ snap, op' = .flush snap → op = .flush snap) ∧
      (∀ off cnt got, op' = .read off cnt got → ∃ got', op = .read off cnt got') ∧
      ∀ x, d'.vol x = d.vol x ∨ ∃ off cnt data done, op = .write off cnt data done ∧ covers off cnt x ∧ d'.vol x = data x := by
  cases op with
  | flush snap => exact ⟨d, _, .nil _, fun _ _ => rfl, h, trivial, rfl, fun _ h => h, by simp, fun _ => .inl rfl⟩
  | write off cnt data done =>
    have : ∀ n, n ≤ cnt → ∃ d' done', Disk.Run d [] d' ∧ (∀ o', o' ≠ o → d'.ops o' = d.ops o') ∧
        d'.ops o = some (.write off cnt data done') ∧ (∀ x, off ≤ x → x < off + n → done' x = true) ∧
        d'.pers = d.pers ∧ ∀ x, d'.vol x = d.vol x ∨ covers off cnt x ∧ d'.vol x = data x := by
      intro n
      induction n with
      | zero => exact fun _ => ⟨d, done, .nil _, fun _ _ => rfl, h, fun x h1 h2 => by omega, rfl, fun _ => .inl rfl⟩
      | succ n ih =>
        intro hn
        obtain ⟨d', done', h1, h2, h3, h4, h5, h6⟩ := ih (by omega)
        have hc : covers off cnt (off + n) := ⟨by omega, by omega⟩
        refine ⟨Dev.exec d' o (off + n), upd done' (off + n) true, h1.snoc (.exec _ _ _), ?_, ?_, ?_, by rw [pers_exec, h5], ?_⟩
        · intro o' ho'
          simp only [Dev.exec, h3, if_pos hc]
          rw [upd_ne _ _ ho', h2 o' ho']
        · simp only [Dev.exec, h3, if_pos hc, upd_same]
        · intro x hx hx'
          by_cases he : x = off + n
          · rw [he, upd_same]
          · rw [upd_ne _ _ he]; exact h4 x hx (by omega)
        · intro x
          simp only [Dev.exec, h3, if_pos hc]
          by_cases he : x = off + n
          · right; rw [he, upd_same]; exact ⟨hc, rfl⟩
          · rw [upd_ne _ _ he]; exact h6 x
    obtain ⟨d', done', h1, h2, h3, h4, h5, h6⟩ := this cnt (Nat.le_refl _)
    refine ⟨d', _, h1, h2, h3, fun x hx => h4 x hx.1 hx.2, h5, by simp, by simp, fun x => ?_⟩
    rcases h6 x with h6 | h6
    · exact .inl h6
    · exact .inr ⟨off, cnt, data, done, rfl, h6⟩
  | read off cnt got =>
    have : ∀ n, n ≤ cnt → ∃ d' got', Disk.Run d [] d' ∧ (∀ o', o' ≠ o → d'.ops o' = d.ops o') ∧
        d'.ops o = some (.read off cnt got') ∧ (∀ x, off ≤ x → x < off + n → got' x ≠ none) ∧
        d'.pers = d.pers ∧ d'.vol = d.vol := by
      intro n
      induction n with
      | zero => exact fun _ => ⟨d, got, .nil _, fun _ _ => rfl, h, fun x h1 h2 => by omega, rfl, rfl⟩
      | succ n ih =>
        intro hn
        obtain ⟨d', got', h1, h2, h3, h4, h5, h6⟩ := ih (by omega)
        have hc : covers off cnt (off + n) := ⟨by omega, by omega⟩
        refine ⟨Dev.exec d' o (off + n), upd got' (off + n) (some (d'.vol (off + n))), h1.snoc (.exec _ _ _), ?_, ?_, ?_,
          by rw [pers_exec, h5], by simp only [Dev.exec, h3, if_pos hc, h6]⟩
        · intro o' ho'
          simp only [Dev.exec, h3, if_pos hc]
          rw [upd_ne _ _ ho', h2 o' ho']
        · simp only [Dev.exec, h3, if_pos hc, upd_same]
        · intro x hx hx'
          by_cases he : x = off + n
          · rw [he, upd_same]; simp
          · rw [upd_ne _ _ he]; exact h4 x hx (by omega)
    obtain ⟨d', got', h1, h2, h3, h4, h5, h6⟩ := this cnt (Nat.le_refl _)
    exact ⟨d', _, h1, h2, h3, fun x hx => h4 x hx.1 hx.2, h5, by simp, fun off' cnt' got'' he => ⟨got, by cases he; rfl⟩, fun x => .inl (by rw [h6])⟩

/-- An idle disk can take a request and answer it. -/
theorem serve {D : Type} (d : Disk D) (hd : ∀ o, d.ops o = none) (hp : ∀ x, d.pers x (d.vol x)) (c id : Nat) (r : Req D) :
    ∃ d' out, Disk.Run d [.issue c id r, .resp c id true out] d' ∧ (∀ o, d'.ops o = none) ∧ (∀ x, d'.pers x (d'.vol x)) ∧
      ((∀ off cnt, r ≠ .read off cnt) → out = []) := by
  have h1 := Disk.Run.snoc (.nil d) (.issue d c id r (hd _))
  have hno : ∀ o, o ≠ (c, id) → (d.issue (c, id) r).ops o = none := by
    intro o ho
    cases r <;> simp only [Disk.issue, Dev.issueRead, Dev.issueWrite, Dev.issueFlush, upd_ne _ _ ho, hd, Option.map_none]
  have close : ∀ {d' : Disk D} {op' : Op D}, Disk.Run (d.issue (c, id) r) [] d' → d'.ops (c, id) = some op' → op'.finished →
      (∀ o', o' ≠ (c, id) → d'.ops o' = (d.issue (c, id) r).ops o') →
      Disk.Run d [.issue c id r, .resp c id true (Dev.result d' (c, id) true)] (Dev.complete d' (c, id) true) ∧
        ∀ o, (Dev.complete d' (c, id) true).ops o = none := by
    intro d' op' h2 h4 h5 h3
    refine ⟨(h1.trans h2).snoc (.respond d' c id true ⟨op', h4, fun _ => h5⟩), fun o => ?_⟩
    by_cases ho : o = (c, id)
    · rw [ho]; exact upd_same _ _ _
    · exact (upd_ne _ _ ho).trans ((h3 o ho).trans (hno o ho))
  cases r with
  | read off cnt =>
    obtain ⟨d', op', h2, h3, h4, h5, h6, h7, h9, h8⟩ := finish (d.issue (c, id) (.read off cnt)) (c, id) (upd_same _ _ _)
    obtain ⟨a, b⟩ := close h2 h4 h5 h3
    refine ⟨_, _, a, b, fun x => ⟨?_, ?_⟩, fun h => absurd rfl (h off cnt)⟩
    · rw [h6]
      rcases h8 x with h8 | ⟨_, _, _, _, h8, -⟩
      · show d.pers x (d'.vol x); rw [h8]; exact hp x
      · cases h8
    · intro snap hs
      rw [h4] at hs
      cases h7 snap (Option.some.inj hs)
  | flush =>
    obtain ⟨d', op', h2, h3, h4, h5, h6, h7, h9, h8⟩ := finish (d.issue (c, id) .flush) (c, id) (upd_same _ _ _)
    obtain ⟨a, b⟩ := close h2 h4 h5 h3
    have hv : ∀ x, d'.vol x = d.vol x := by
      intro x
      rcases h8 x with h8 | ⟨_, _, _, _, h8, -⟩
      · exact h8
      · cases h8
    refine ⟨_, _, a, b, fun x => ⟨?_, ?_⟩, fun _ => ?_⟩
    · rw [h6]; show d.pers x (d'.vol x); rw [hv]; exact hp x
    · intro snap hs _
      rw [h4] at hs
      have := h7 snap (Option.some.inj hs)
      simp only [Op.flush.injEq] at this
      rw [← this]
      exact .inl (hv x)
    · simp only [Dev.result, h4]
      cases op' with
      | read => obtain ⟨_, h⟩ := h9 _ _ _ rfl; cases h
      | write => rfl
      | flush => rfl
  | write off cnt data =>
    obtain ⟨d', op', h2, h3, h4, h5, h6, h7, h9, h8⟩ := finish (d.issue (c, id) (.write off cnt data)) (c, id) (ops_issueWrite_same _ _ _ _ _)
    obtain ⟨a, b⟩ := close h2 h4 h5 h3
    refine ⟨_, _, a, b, fun x => ⟨?_, ?_⟩, fun _ => ?_⟩
    · rw [h6]
      rcases h8 x with h8 | ⟨off', cnt', data', done', h8, h9, h10⟩
      · rw [show (Dev.complete d' (c, id) true).vol x = _ from h8]; exact .inl (hp x)
      · cases h8; exact .inr ⟨h9, h10⟩
    · intro snap hs
      rw [h4] at hs
      cases h7 snap (Option.some.inj hs)
    · simp only [Dev.result, h4]
      cases op' with
      | read => obtain ⟨_, h⟩ := h9 _ _ _ rfl; cases h
      | write => rfl
      | flush => rfl

/-- The run `C49_durable` speaks of exists: save, lose power, read back. -/
example (job : Job) (v : Nat → Sector) : ∃ d out, Disk.Run (Dev.fresh v)
    (saveEvents job.buf (job.size / 512) ++ [.crash] ++ (Ev.issue 0 7 (.read 0 (job.size / 512)) :: [] ++ [Ev.resp 0 7 true out])) d := by
  obtain ⟨d1, o1, h1, i1, p1, e1⟩ := serve (Dev.fresh v) (fun _ => rfl) (fun _ => rfl) 0 0 (.write 0 (job.size / 512) (bufData job.buf 0 (job.size / 512)))
  obtain ⟨d2, o2, h2, i2, p2, e2⟩ := serve d1 i1 p1 0 1 .flush
  obtain ⟨d3, o3, h3, -⟩ := serve (Dev.fresh d2.vol) (fun _ => rfl) (fun _ => rfl) 0 7 (.read 0 (job.size / 512))
  refine ⟨d3, o3, ?_⟩
  have := (((h1.trans h2).snoc (.crash _ d2.vol p2))).trans h3
  rw [e1 (by simp), e2 (by simp)] at this
  exact this

end Verif.Init
