import Verif.Proof.InitCrash
import Verif.Props.Lazy
import Verif.Proof.LazyDemo

/-! # C94: an initialisation is all or nothing, and makes a volume that starts from its image

`Interrupted buf n v w` (Spec/InitCrash): `init-metadata` is cut short while it writes `buf` over a metadata file that
held `v`, and `w` is found afterwards. `found n w` is what loading the metadata from it gives.

*All or nothing* holds for a new metadata file (`C94_blank_partial`, `C94_new`) and is false for a file that holds the metadata
of an earlier volume (`C94_false_torn`, `C94_mixture`). *Nothing of the guest's is lost* is false if the volume was in use
(`C94_false_forgets`): `init-metadata` does not look at what is there. -/

set_option maxRecDepth 8000

namespace Verif.Init
open Verif Verif.Metadata Verif.Disk Verif.Crypt Verif.Lazy Verif.Remote

variable {s : Setup} {node : Node} {shift : UInt8} {job : Job} {v w : Nat → Sector} {md0 : Meta}

theorem take_eq {a b : Bytes} {K : Nat} (ha : K * 512 ≤ a.length) (hb : K * 512 ≤ b.length)
    (h : ∀ i, i < K → slice a (i * 512) 512 = slice b (i * 512) 512) : a.take (K * 512) = b.take (K * 512) := by
  have e : ∀ (c : Bytes) i, i < K → slice (c.take (K * 512)) (i * 512) 512 = slice c (i * 512) 512 := by
    intro c i hi
    simp only [slice, List.drop_take, List.take_take]
    congr 1
    omega
  refine XtsTool.sectors_ext (n := K) (by rw [List.length_take]; omega) (by rw [List.length_take]; omega) fun i hi => ?_
  rw [e a i hi, e b i hi, h i hi]

/-- What a finished initialisation leaves in the file. -/
theorem init_buf (h : init s node shift = .ok job) : fromBytes job.buf = .ok job.md ∧ job.buf.length = job.size / 512 * 512 ∧
    512 + divCeil job.md.headers.length 508 * 512 ≤ job.buf.length ∧ 0 < job.size / 512 := by
  obtain ⟨-, h512, h1, h2, -⟩ := C49_file h
  rw [Nat.dvd_iff_mod_eq_zero] at h512
  have := init_loads h [] rfl
  rw [List.append_nil] at this
  refine ⟨this, by omega, (fromBytes_ok this).2.2.2.2.2.2.2.2.2.2.1, ?_⟩
  have := (fromBytes_ok this).1
  omega

/-- **C94** If no sector of the metadata file held metadata before, an interrupted initialisation is either complete or noticed at the next
start. -/
theorem C94_blank_partial (h : init s node shift = .ok job) (hv : ∀ x, x < job.size / 512 → sectorValid (v x).1 = false)
    (hi : Interrupted job.buf (job.size / 512) v w) :
    (∃ e, found (job.size / 512) w = .error e) ∨ found (job.size / 512) w = .ok job.md := by
  cases hf : found (job.size / 512) w with
  | error e => exact .inl ⟨e, rfl⟩
  | ok m =>
    right
    rw [← hf]
    obtain ⟨g1, g2, g3, g4⟩ := init_buf h
    unfold found at hf ⊢
    have hlen := found_length (job.size / 512) w
    generalize hb : devBytes (job.size / 512) (fun x => (w x).1) = b at *
    have hsl : ∀ x, x < job.size / 512 → slice b (x * 512) 512 = (w x).1 := fun x hx => by rw [← hb]; exact found_slice _ _ hx
    have hnew : ∀ x, x < job.size / 512 → sectorValid (w x).1 = true → slice b (x * 512) 512 = slice job.buf (x * 512) 512 := by
      intro x hx hval
      rcases hi.mix x with h1 | ⟨-, h1⟩
      · rw [h1, hv x hx] at hval; cases hval
      · rw [hsl x hx, h1, sectorAt_buf g2 hx]
    obtain ⟨f1, f2, f3, f4, f5, f6, f7, f8, f9, f10, f11, all, fall, fh⟩ := fromBytes_ok hf
    have h0 : b.take 512 = job.buf.take 512 := by
      rw [take_slice, take_slice]
      exact hnew 0 g4 (by rw [← hsl 0 g4, ← take_slice]; exact f3)
    have hcount : m.headers.length = job.md.headers.length := by
      rw [f10, (fromBytes_ok g1).2.2.2.2.2.2.2.2.2.1, slice_of_take h0 (by omega)]
    have hg := (readGroups_ok fall).1
    refine fromBytes_prefix g1 f2 (by rw [← hcount]; exact f11) ?_
    rw [show 512 + divCeil job.md.headers.length 508 * 512 = (1 + divCeil job.md.headers.length 508) * 512 by omega]
    refine take_eq (by rw [← hcount]; omega) (by omega) fun i hi => ?_
    rw [← hcount] at hi
    by_cases hz : i = 0
    · rw [hz, ← take_slice, ← take_slice]; exact h0
    · have hx : i < job.size / 512 := by omega
      refine hnew i hx ?_
      rw [← hsl i hx]
      have := (hg (i - 1) (by omega)).2
      rwa [Nat.zero_add, show 512 + (i - 1) * 512 = i * 512 by omega] at this

/-- **C94** for a metadata file that did not exist. -/
theorem C94_new (h : init s .absent shift = .ok job) (hi : Interrupted job.buf (job.size / 512) blank w) :
    (∃ e, found (job.size / 512) w = .error e) ∨ found (job.size / 512) w = .ok job.md :=
  C94_blank_partial h (fun _ _ => by show sectorValid (zeros 512) = false; decide +kernel) hi

/-- The sectors of flags of a file that loads are intact. -/
theorem intact {b : Bytes} {m : Meta} (h : fromBytes b = .ok m) {i : Nat} (hi : i < divCeil m.headers.length 508) :
    sectorValid (slice b ((i + 1) * 512) 512) = true := by
  obtain ⟨-, -, -, -, -, -, -, -, -, -, -, all, hall, -⟩ := fromBytes_ok h
  have := ((readGroups_ok hall).1 i hi).2
  rwa [Nat.zero_add, show 512 + i * 512 = (i + 1) * 512 by omega] at this

/-- The flags found in a file whose sectors are those of two files with as many flags. -/
theorem mixed {n : Nat} {b : Bytes} {m0 m1 : Meta} {b0 b1 : Bytes} (h0 : fromBytes b0 = .ok m0) (h1 : fromBytes b1 = .ok m1)
    (hsh : m0.shift = m1.shift) (hlen : m0.headers.length = m1.headers.length) (l0 : b0.length = n * 512) (l1 : b1.length = n * 512)
    (l : b.length = n * 512) {G : Nat → Bool}
    (hG : ∀ x, x < n → slice b (x * 512) 512 = if G x then slice b1 (x * 512) 512 else slice b0 (x * 512) 512) :
    ∃ md, fromBytes b = .ok md ∧ md.shift = m1.shift ∧
      ∀ k, md.headers[k]? = if G (k / 508 + 1) then m1.headers[k]? else m0.headers[k]? := by
  obtain ⟨p1, -, -, -, -, -, -, -, -, -, p2, -⟩ := fromBytes_ok h0
  obtain ⟨q1, -, -, -, -, -, -, -, -, -, q2, -⟩ := fromBytes_ok h1
  have hn : 0 < n := by omega
  have key : ∃ md, fromBytes b = .ok md ∧ md.shift = m1.shift ∧ md.headers.length = m1.headers.length := by
    have hz := hG 0 hn
    have hval : ∀ i, i < divCeil m1.headers.length 508 → sectorValid (slice b (512 + i * 512) 512) = true := by
      intro i hi
      rw [show 512 + i * 512 = (i + 1) * 512 by omega, hG (i + 1) (by omega)]
      split
      · exact intact h1 hi
      · exact intact h0 (by rw [hlen]; exact hi)
    rw [← take_slice, ← take_slice, ← take_slice] at hz
    split at hz
    · exact fromBytes_succeeds h1 (by omega) hz hval
    · obtain ⟨md, a, b', c⟩ := fromBytes_succeeds h0 (by omega) hz (by rw [hlen]; exact hval)
      exact ⟨md, a, by rw [b', hsh], by rw [c, hlen]⟩
  obtain ⟨md, hmd, e1, e2⟩ := key
  refine ⟨md, hmd, e1, fun k => ?_⟩
  by_cases hk : k < md.headers.length
  · have r := (C03_load_total b).2 md hmd
    have r0 := (C03_load_total b0).2 m0 h0
    have r1 := (C03_load_total b1).2 m1 h1
    have hg : k / 508 < divCeil m1.headers.length 508 := by
      have : ¬ divCeil m1.headers.length 508 ≤ k / 508 := by
        rw [divCeil_le_iff (by omega)]
        omega
      omega
    have hx : k / 508 + 1 < n := by omega
    have hb : ∀ c : Bytes, c[512 + k / 508 * 512 + k % 508]? = (slice c ((k / 508 + 1) * 512) 512)[k % 508]? := by
      intro c
      have : k % 508 < 512 := by omega
      simp only [slice, List.getElem?_take, if_pos this, List.getElem?_drop]
      congr 1
      omega
    rw [r.2.2.2.1 k hk, r1.2.2.2.1 k (by omega), r0.2.2.2.1 k (by omega), hb, hb, hb, hG _ hx]
    split <;> rfl
  · rw [List.getElem?_eq_none (by omega), List.getElem?_eq_none (by omega), List.getElem?_eq_none (by omega)]
    split <;> rfl

/-- **C94** If the file held the metadata of an earlier volume with as many stripes of the same size, an interrupted initialisation is
never noticed: the volume starts, and each group of 508 stripes has all its old flags or all its new ones. -/
theorem C94_again (h : init s node shift = .ok job) (h0 : found (job.size / 512) v = .ok md0) (hsh : md0.shift = shift)
    (hlen : md0.headers.length = job.md.headers.length) (hi : Interrupted job.buf (job.size / 512) v w) :
    ∃ md, found (job.size / 512) w = .ok md ∧ md.shift = shift ∧
      ∀ g, (∀ k, k / 508 = g → md.headers[k]? = job.md.headers[k]?) ∨ (∀ k, k / 508 = g → md.headers[k]? = md0.headers[k]?) := by
  obtain ⟨g1, g2, g3, g4⟩ := init_buf h
  obtain ⟨md, a, b, c⟩ := mixed (G := fun x => decide (w x ≠ v x)) h0 g1 (by rw [hsh, (C49_marks h).1]) hlen (found_length _ v) g2 (found_length _ w) (by
    intro x hx
    rw [found_slice _ _ hx, found_slice _ _ hx]
    by_cases he : w x = v x
    · simp [he]
    · rcases hi.mix x with h1 | ⟨-, h1⟩
      · exact absurd h1 he
      · simp only [ne_eq, he, not_false_eq_true, decide_true, if_true]
        rw [h1, sectorAt_buf g2 hx])
  refine ⟨md, a, by rw [b, (C49_marks h).1], fun g => ?_⟩
  cases hG : decide (w (g + 1) ≠ v (g + 1)) with
  | true => exact .inl fun k hk => by rw [c k, hk, hG]; rfl
  | false => exact .inr fun k hk => by rw [c k, hk, hG]; rfl

/-- **C94, all or nothing, is false of a metadata file that was in use**, in every way it can be: any choice of groups with new flags may
be found after an interrupted initialisation. -/
theorem C94_mixture (h : init s node shift = .ok job) (h0 : found (job.size / 512) v = .ok md0) (hsh : md0.shift = shift)
    (hlen : md0.headers.length = job.md.headers.length) (G : Nat → Bool) :
    ∃ w md, Interrupted job.buf (job.size / 512) v w ∧ found (job.size / 512) w = .ok md ∧ md.shift = shift ∧
      ∀ k, md.headers[k]? = if G (k / 508) then job.md.headers[k]? else md0.headers[k]? := by
  obtain ⟨g1, g2, g3, g4⟩ := init_buf h
  refine ⟨fun x => if G (x - 1) = true ∧ x < job.size / 512 then sectorAt job.buf x else v x, ?_⟩
  obtain ⟨md, a, b, c⟩ := mixed (G := fun x => G (x - 1)) h0 g1 (by rw [hsh, (C49_marks h).1]) hlen (found_length _ v) g2
    (found_length _ fun x => if G (x - 1) = true ∧ x < job.size / 512 then sectorAt job.buf x else v x) (by
    intro x hx
    rw [found_slice _ _ hx, found_slice _ _ hx]
    by_cases he : G (x - 1) = true
    · rw [if_pos ⟨he, hx⟩, if_pos he, sectorAt_buf g2 hx]
    · rw [if_neg (by simp [he]), if_neg he])
  exact ⟨md, Interrupted.any _ _ _ fun x => G (x - 1), a, by rw [b, (C49_marks h).1], c⟩

/-! ### The volume -/

theorem flag_flagsOf : ∀ h : UInt8, flag h HAS_SOURCE = (flagsOf h).hasSource ∧ flag h FETCHED = (flagsOf h).fetched ∧
    flag h WRITTEN = (flagsOf h).written := by
  have key : ∀ h : Fin 256, flag (UInt8.ofNat h.1) HAS_SOURCE = (flagsOf (UInt8.ofNat h.1)).hasSource ∧
      flag (UInt8.ofNat h.1) FETCHED = (flagsOf (UInt8.ofNat h.1)).fetched ∧ flag (UInt8.ofNat h.1) WRITTEN = (flagsOf (UInt8.ofNat h.1)).written := by
    decide +kernel
  intro h
  simpa using key ⟨h.toNat, h.toNat_lt⟩

variable {D : Type} {c : Cfg D} {mv : Nat → Bytes}

/-- **C94** A volume that was initialised can be started. -/
theorem C94_bootable (h : init s node shift = .ok job) (hf : Fits c s shift job mv) : Bootable c job.md.headers mv := by
  obtain ⟨g1, g2, g3, g4⟩ := init_buf h
  obtain ⟨m1, m2, m3⟩ := C49_marks h
  have hn : job.md.headers.length = c.n := by
    rw [hf.n]
    have e : ∀ k, k < job.md.headers.length ↔ k < stripes s.dataSize (2 ^ shift.toNat) := by
      intro k
      have h512 : 512 ∣ s.dataSize := ((C49_accepts s node shift).mp ⟨job, h⟩).2.2.1
      rw [Nat.dvd_iff_mod_eq_zero] at h512
      rw [m2 k, stripes, Nat.lt_div_iff_mul_lt (Nat.two_pow_pos _)]
      have hp : 0 < 2 ^ shift.toNat := Nat.two_pow_pos _
      generalize 2 ^ shift.toNat = y at hp ⊢
      generalize k * y = z
      omega
    have a := e job.md.headers.length
    have b := e (stripes s.dataSize (2 ^ shift.toNat))
    omega
  refine ⟨by rw [hf.ss]; exact Nat.two_pow_pos _, ⟨job.md, ?_, rfl⟩, hn, hf.sectors, fun k => ?_, hf.srcStripes⟩
  · rw [← g1]
    congr 1
    refine XtsTool.sectors_ext (n := c.msec) (devBytes_length _ _ hf.sectors) (by rw [hf.msec]; exact g2) fun i hi => ?_
    rw [devBytes_slice _ _ hf.sectors i hi, hf.bytes i hi]
  · rw [Bool.eq_iff_iff, hf.hs k, (flag_flagsOf _).1, ← hn, hf.ss]
    by_cases hk : k < job.md.headers.length
    · have := m3 k _ (List.getElem?_eq_getElem hk)
      rw [List.getD_eq_getElem?_getD, List.getElem?_eq_getElem hk, Option.getD_some, this.2.2]
      exact ⟨fun h => h.2, fun h => ⟨hk, h⟩⟩
    · rw [List.getD_eq_getElem?_getD, List.getElem?_eq_none (by omega), Option.getD_none]
      exact ⟨fun h => absurd h.1 hk, fun h => absurd h (by decide)⟩

/-- **C94** Once a volume is initialised, its guests see a plain disk that holds the image on the stripes of the source and whatever was
in the data file elsewhere. -/
theorem C94_from_image {tv : Nat → D} {b0 : Nat → Nat → D} {ls : List (Lab D)} {s' : Sys D} (h : init s node shift = .ok job)
    (hf : Fits c s shift job mv) (hr : Run c (Sys.boot c job.md.headers tv mv b0) ls s') :
    ∃ v d, Disk.Run (Dev.fresh v) (visible ls) d ∧ ∀ x, x < c.tsec →
      (s.source.Has c.ss (x / c.ss) → ∀ y, c.src x = some y → v x = y) ∧ (¬s.source.Has c.ss (x / c.ss) → v x = tv x) := by
  have hb := C94_bootable h hf
  obtain ⟨g, d, hd⟩ := C05_refines_plain_disk hb hr
  refine ⟨_, d, hd, fun x hx => ?_⟩
  have hk : x / c.ss < c.n := by
    have h512 : 512 ∣ s.dataSize := ((C49_accepts s node shift).mp ⟨job, h⟩).2.2.1
    rw [hf.n, stripes, hf.ss, Nat.div_lt_iff_lt_mul (Nat.two_pow_pos _)]
    rw [hf.tsec] at hx
    have hp : 0 < 2 ^ shift.toNat := Nat.two_pow_pos _
    have := Nat.div_add_mod (s.dataSize / 512 + 2 ^ shift.toNat - 1) (2 ^ shift.toNat)
    have hm := Nat.mod_lt (s.dataSize / 512 + 2 ^ shift.toNat - 1) hp
    rw [Nat.mul_comm] at this
    omega
  have hl : x / c.ss < job.md.headers.length := by rw [hb.len]; exact hk
  have m3 := (C49_marks h).2.2 (x / c.ss) _ (List.getElem?_eq_getElem hl)
  have hget : job.md.headers.getD (x / c.ss) 0 = job.md.headers[x / c.ss] := by
    rw [List.getD_eq_getElem?_getD, List.getElem?_eq_getElem hl, Option.getD_some]
  rw [← hf.ss] at m3
  unfold preloadWith
  simp only [hget, (flag_flagsOf _).1, (flag_flagsOf _).2.1, m3.1, Bool.not_false, Bool.and_true]
  constructor
  · intro hs y hy
    rw [if_pos (m3.2.2.mpr hs), hy]
    rfl
  · intro hs
    rw [if_neg (fun hc => hs (m3.2.2.mp hc))]

/-! ### Cases -/

/-- A disk of 509 stripes and an image of the same size. -/
def wide : Setup := { metadataPath := true, dataSize := 509 * 32768, source := .raw (509 * 32768) }

/-- Metadata of a volume of 509 stripes that were all fetched. -/
def allFetched : Meta := { Meta.new 6 509 0 with headers := List.replicate 509 5 }

theorem wide_init : ∃ job, init wide .absent 6 = .ok job :=
  (C49_accepts wide .absent 6).mpr ⟨by decide, rfl, by decide, (by show 512 ∣ 509 * 32768; decide), by decide, trivial⟩

theorem wide_again {mode : Nat} : ∃ job, init wide (.file mode 1536) 6 = .ok job ∧ job.md.headers.length = 509 ∧ job.size = 1536 := by
  obtain ⟨job, h⟩ := (C49_accepts wide (.file mode 1536) 6).mpr ⟨by decide, rfl, by decide, (by show 512 ∣ 509 * 32768; decide), by decide, .inr (by decide)⟩
  refine ⟨job, h, ?_, ?_⟩
  · have e := (C49_marks h).2.1
    have a := (e 508).mpr (by decide)
    have b : ¬ 509 < job.md.headers.length := fun hc => absurd ((e 509).mp hc) (by decide)
    omega
  · obtain ⟨h1, h2, h3, h4, h5, h6, h7, h8⟩ := init_inv h
    have hl : job.md.headers.length = 509 := by
      have e := (C49_marks h).2.1
      have a := (e 508).mpr (by decide)
      have b : ¬ 509 < job.md.headers.length := fun hc => absurd ((e 509).mp hc) (by decide)
      omega
    simp only [ensureFile, Except.ok.injEq, Prod.mk.injEq, metaSize_eq, hl, metaBytes] at h6
    exact h6.2.symm

theorem allFetched_found : ∃ v, found 3 v = .ok allFetched := by
  have hsz : metadataSize allFetched = 1536 := by simp [metadataSize, headerSectorCount, allFetched, divCeil]
  have hl : (image allFetched).length = 3 * 512 := by rw [image_length, hsz]
  refine ⟨fun x => sectorAt (image allFetched) x, ?_⟩
  have := fromBytes_image (m := allFetched) ⟨rfl, rfl, rfl, by decide, by simp [allFetched]⟩ [] rfl
  rw [List.append_nil] at this
  rw [← this]
  unfold found
  refine congrArg _ (XtsTool.sectors_ext (n := 3) (found_length _ _) hl fun i hi => ?_)
  rw [found_slice _ _ hi, sectorAt_buf hl hi]

/-- The hypotheses of `C94_new` are met, with a file that is found half written. -/
example : ∃ job w, init wide .absent 6 = .ok job ∧ Interrupted job.buf (job.size / 512) blank w :=
  let ⟨job, h⟩ := wide_init
  ⟨job, _, h, Interrupted.any _ _ _ fun x => x == 1⟩

/-- **C94, all or nothing, is false.** A volume of 509 stripes was fetched completely and is initialised again. After a power loss
in between, the volume starts with metadata that are neither the old nor the new ones: the first 508 stripes are to be fetched
again, the last one counts as fetched. -/
theorem C94_false_torn : ∃ (s : Setup) (node : Node) (shift : UInt8) (job : Job) (v w : Nat → Sector) (md0 md : Meta),
    init s node shift = .ok job ∧ found (job.size / 512) v = .ok md0 ∧ Interrupted job.buf (job.size / 512) v w ∧
    found (job.size / 512) w = .ok md ∧ md ≠ job.md ∧ md ≠ md0 ∧
    (flagsOf (md.headers.getD 0 0)).fetched = false ∧ (flagsOf (md.headers.getD 508 0)).fetched = true := by
  obtain ⟨job, h, hl, hs⟩ := wide_again (mode := 0o600)
  obtain ⟨v, hv⟩ := allFetched_found
  have hv : found (job.size / 512) v = .ok allFetched := by rw [hs]; exact hv
  obtain ⟨w, md, a, b, -, e⟩ := C94_mixture h hv rfl (by rw [hl]; simp [allFetched]) fun g => g == 0
  have m3 := (C49_marks h).2.2
  have g0 := m3 0 _ (List.getElem?_eq_getElem (by omega))
  have g8 := m3 508 _ (List.getElem?_eq_getElem (by omega))
  have e0 : md.headers[0]? = some job.md.headers[0] := by
    rw [e 0, if_pos (by decide)]
    exact List.getElem?_eq_getElem (by omega)
  have e8 : md.headers[508]? = some 5 := by
    rw [e 508, if_neg (by decide)]
    decide
  have f0 : (flagsOf (md.headers.getD 0 0)).fetched = false := by
    rw [List.getD_eq_getElem?_getD, e0]; exact g0.1
  have f8 : (flagsOf (md.headers.getD 508 0)).fetched = true := by
    rw [List.getD_eq_getElem?_getD, e8]; decide
  refine ⟨wide, _, 6, job, v, w, allFetched, md, h, hv, a, b, ?_, ?_, f0, f8⟩
  · rintro rfl
    rw [List.getD_eq_getElem?_getD, List.getElem?_eq_getElem (by omega)] at f8
    rw [Option.getD_some, g8.1] at f8
    cases f8
  · rintro rfl
    exact absurd f0 (by decide)

/-- A disk of one stripe of 64 sectors and an image of the same size. -/
def small : Setup := { metadataPath := true, dataSize := 32768, source := .raw 32768 }

/-- The volume on it; the image holds `100 + x`. -/
def smallCfg : Cfg Nat :=
  { ss := 64, n := 1, tsec := 64, msec := 2, hs := fun k => decide (k < 1), src := fun x => if x < 64 then some (100 + x) else none,
    srcHas := fun k => decide (k < 1), srcStripes := 1, image := true, track := false, autofetch := false }

theorem small_init {node : Node} (hn : node = .absent ∨ ∃ mode, node = .file mode 1024) : ∃ job, init small node 6 = .ok job ∧ job.md.headers = [4] ∧
    ∃ mv, Fits smallCfg small 6 job mv := by
  have hi : ∃ job, init small node 6 = .ok job ∧ job.md.headers = [4] ∧ job.size = 1024 := by
    rcases hn with rfl | ⟨mode, rfl⟩
    · exact ⟨_, rfl, rfl, rfl⟩
    · exact ⟨_, rfl, rfl, rfl⟩
  obtain ⟨job, h, hm, hs⟩ := hi
  refine ⟨job, h, hm, sectorsOf job.buf, rfl, rfl, rfl, by rw [hs]; rfl, sectorsOf_length _, fun x hx => ?_, fun k => ?_, by decide⟩
  · have : x < 2 := hx
    have := (init_buf h).2.1
    rw [hs] at this
    rw [Lazy.sectorsOf, if_pos (by omega)]
  · show decide (k < 1) = true ↔ k < 1 ∧ k * 64 * 512 < 32768
    rw [decide_eq_true_eq]
    omega

/-- A read of a stripe still to be fetched, served by the image. -/
theorem small_read {mv : Nat → Bytes} (tv : Nat → Nat) : ∃ s ls, Run smallCfg (Sys.boot smallCfg [4] tv mv fun _ _ => 0) ls s ∧
    visible ls = [Ev.issue 0 9 (.read 1 1), Ev.resp 0 9 true [some 101]] := by
  have r : Reach smallCfg (Sys.boot smallCfg [4] tv mv fun _ _ => 0) [] _ := ⟨[], .nil _, rfl⟩
  have r := r.step (Step.read _ 0 9 1 1 true ⟨by decide, by decide, by decide⟩
    (fun _ _ _ x hx => by have : 1 ≤ x := hx.1; have : x < 1 + 1 := hx.2; have : x = 1 := by omega
                          subst this; decide)
    ⟨rfl, rfl, (by intro r hr; cases hr), (by intro r hr; cases hr)⟩)
  have r := r.step (Step.imageDone _ 0 9 true 1 1 rfl)
  obtain ⟨ls, h1, h2⟩ := r
  exact ⟨_, ls, h1, h2⟩

/-- The hypotheses of `C94_bootable` and `C94_from_image` are met. -/
example : ∃ job mv s ls, init small .absent 6 = .ok job ∧ Fits smallCfg small 6 job mv ∧
    Run smallCfg (Sys.boot smallCfg job.md.headers (fun x => x) mv fun _ _ => 0) ls s ∧
    visible ls = [Ev.issue 0 9 (.read 1 1), Ev.resp 0 9 true [some 101]] := by
  obtain ⟨job, h, hm, mv, hf⟩ := small_init (.inl rfl)
  obtain ⟨s, ls, h1, h2⟩ := small_read (mv := mv) fun x => x
  exact ⟨job, mv, s, ls, h, hf, by rw [hm]; exact h1, h2⟩

/-- **C94, "nothing of the guest's is lost", is false.** The guest's write to a fetched stripe is acknowledged and flushed. Then
`init-metadata` is run on the same volume: it succeeds, and the guest reads the image again. -/
theorem C94_false_forgets : ∃ (c : Cfg Nat) (hdrs : Bytes) (mv0 mv1 : Nat → Bytes) (s0 s1 : Sys Nat) (ls0 ls1 : List (Lab Nat)) (tv : Nat → Nat)
    (s : Setup) (node : Node) (shift : UInt8) (job : Job),
    Bootable c hdrs mv0 ∧ Run c (Sys.boot c hdrs (fun x => x) mv0 fun _ _ => 0) ls0 s0 ∧
    visible ls0 = [.issue 0 7 (.write 1 1 fun _ => 55), .resp 0 7 true [], .issue 0 8 .flush, .resp 0 8 true []] ∧ s0.t.survives tv ∧
    init s node shift = .ok job ∧ Fits c s shift job mv1 ∧
    Run c (Sys.boot c job.md.headers tv mv1 fun _ _ => 0) ls1 s1 ∧
    visible ls1 = [.issue 0 9 (.read 1 1), .resp 0 9 true [some 101]] := by
  obtain ⟨job, h, hm, mv, hf⟩ := small_init (node := .file 0o600 1024) (.inr ⟨_, rfl⟩)
  have hb : ∃ mv0, Bootable smallCfg [5] mv0 := by
    let m : Meta := { Meta.new 6 1 0 with headers := [5] }
    have hl : (image m).length = 2 * 512 := by rw [image_length]; decide
    have := fromBytes_image (m := m) ⟨rfl, rfl, rfl, by decide, by decide⟩ [] rfl
    rw [List.append_nil] at this
    refine ⟨sectorsOf (image m), by decide, ⟨m, ?_, rfl⟩, rfl, sectorsOf_length _, fun k => ?_, by decide⟩
    · show fromBytes (devBytes 2 _) = _
      rw [devBytes_sectorsOf _ _ (by omega), List.take_of_length_le (by omega)]
      exact this
    · show decide (k < 1) = flag ([5].getD k 0) HAS_SOURCE
      cases k with
      | zero => decide
      | succ k => simp [flag]
  obtain ⟨mv0, hb⟩ := hb
  have r : Reach smallCfg (Sys.boot smallCfg [5] (fun x => x) mv0 fun _ _ => 0) [] _ := ⟨[], .nil _, rfl⟩
  have r := r.step (Step.write _ 0 7 1 1 (fun _ => 55) true ⟨by decide, by decide, by decide⟩
    ⟨rfl, rfl, (by intro r hr; cases hr), (by intro r hr; cases hr)⟩)
  have r := r.step (Step.execDataW (o := .guest 0 7) (x := 1) (off := 1) (cnt := 1) (data := fun _ => 55) (done := fun _ => false) rfl ⟨Nat.le_refl _, by decide⟩)
  have r := r.step (Step.baseDone _ 0 7 true ⟨_, rfl, fun _ x hx => by
    have : x = 1 := by have : 1 ≤ x := hx.1; have : x < 1 + 1 := hx.2; omega
    subst this; rfl⟩)
  have r := r.step (Step.flush _ 0 8 ⟨rfl, rfl, (by intro r hr; cases hr), (by intro r hr; cases hr)⟩)
  have r := r.step (Step.baseDone _ 0 8 true ⟨_, rfl, fun _ => trivial⟩)
  obtain ⟨ls0, h1, h2⟩ := r
  obtain ⟨s1, ls1, h3, h4⟩ := small_read (mv := mv) _
  refine ⟨smallCfg, [5], mv0, mv, _, s1, ls0, ls1, _, small, _, 6, job, hb, h1, h2, ?_, h, hf, by rw [hm]; exact h3, h4⟩
  obtain ⟨_, _, _, _, hsim⟩ := (run_sim hb rfl h1).2.sim
  exact hsim.tinv.vol_pers

end Verif.Init
