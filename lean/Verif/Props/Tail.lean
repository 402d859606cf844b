import Verif.Spec.Tail
import Verif.Props.Archive
import Verif.Props.Assemble

/-! # C80: the last stripe of a disk of any size -/

namespace Verif.Tail
open Verif
variable {D : Type}

/-- A stripe number is below the stripe count exactly if the stripe starts before the end. -/
theorem lt_stripeCount {n ssc k : Nat} (hs : 0 < ssc) : k < stripeCount n ssc ↔ k * ssc < n := by
  unfold stripeCount
  rw [Nat.lt_div_iff_mul_lt hs]
  omega

theorem covers_of {ssc n k : Nat} (hs : 0 < ssc) (h : k * ssc < n) : Covers ssc n k (k * ssc) (min ssc (n - k * ssc)) := by
  have e : (k + 1) * ssc = k * ssc + ssc := Nat.succ_mul k ssc
  refine ⟨by omega, by omega, fun x => ?_⟩
  omega

/-- **C80** Every stripe that the fetcher can be asked for (one of the source's) on a disk that is not smaller than its source
is written inside the disk and leaves out none of the disk's sectors of that stripe; the stripe numbers are all those of the
source. -/
theorem C80_fetch_inside {ssc source target k : Nat} (hs : 0 < ssc) (hle : source ≤ target) (hk : k < stripeCount source ssc) :
    ∃ o c, fetchRange ssc target k = some (o, c) ∧ c ≤ ssc ∧ Covers ssc target k o c := by
  have := (lt_stripeCount hs).1 hk
  refine ⟨k * ssc, min ssc (target - k * ssc), ?_, Nat.min_le_left .., covers_of hs (by omega)⟩
  rw [fetchRange, if_neg (by omega)]

/-- **C80** A raw image of any size gives a stripe exactly if the stripe is one of its own, and then reads all the sectors the
image has of it and none past its end. -/
theorem C80_image_inside {ssc size k : Nat} (hs : 0 < ssc) :
    (k < stripeCount size ssc → ∃ o c, imageRange ssc size k = some (o, c) ∧ c ≤ ssc ∧ Covers ssc size k o c) ∧
    (stripeCount size ssc ≤ k → imageRange ssc size k = none) := by
  constructor
  · intro hk
    have := (lt_stripeCount hs).1 hk
    exact ⟨k * ssc, min ssc (size - k * ssc), by rw [imageRange, if_neg (by omega)], Nat.min_le_left .., covers_of hs this⟩
  · intro hk
    have : ¬ k * ssc < size := fun h => absurd ((lt_stripeCount hs).2 h) (by omega)
    rw [imageRange, if_pos (by omega)]

theorem pread_length (disk : List D) (off cnt : Nat) : (pread disk off cnt).length = min cnt (disk.length - off) := by
  simp [pread]

theorem fileRead_get (e : Engine) (disk buf : List D) (off cnt i : Nat) (hi : i < cnt) :
    (fileRead e disk off cnt buf).2[i]? = if off + i < disk.length then disk[off + i]? else buf[i]? := by
  unfold fileRead
  simp only
  rw [List.getElem?_append, pread_length]
  by_cases h : off + i < disk.length
  · rw [if_pos (by omega), if_pos h, pread, List.getElem?_take, if_pos hi, List.getElem?_drop]
  · rw [if_neg (by omega), if_neg h, List.getElem?_drop]
    by_cases hb : disk.length ≤ off
    · congr 1; omega
    · congr 1; omega

theorem fileRead_length (e : Engine) (disk buf : List D) (off cnt : Nat) (hb : buf.length = cnt) :
    (fileRead e disk off cnt buf).2.length = cnt := by
  unfold fileRead
  simp only [List.length_append, pread_length, List.length_drop]
  omega

/-- What a read that is reported as done leaves in the buffer. -/
theorem read_done {e : Engine} {dec : Nat → D → D} {disk buf : List D} {ssc k : Nat} (hb : buf.length = ssc)
    (h : (fileRead e disk (k * ssc) ssc buf).1 = true) :
    (read e dec disk (k * ssc) ssc buf).1 = true ∧
    IsStripe dec disk ssc k (fun i => buf[i]?.map (dec (k * ssc + i))) (read e dec disk (k * ssc) ssc buf).2 := by
  have hl := fileRead_length e disk buf (k * ssc) ssc hb
  unfold read
  simp only [h, if_true]
  refine ⟨trivial, ?_, fun i hi => ?_⟩
  · simp [hl]
  · rw [List.take_of_length_le (by omega), List.drop_eq_nil_of_le (by omega), List.append_nil, List.getElem?_mapIdx,
      fileRead_get _ _ _ _ _ _ hi]
    by_cases hx : k * ssc + i < disk.length
    · rw [if_pos hx, if_pos hx, sectorOf]
    · rw [if_neg hx, if_neg hx]

/-- **C80, a disk that is a whole number of stripes, or any stripe but the last** The archiver gets the stripe as it is on
the volume, through either way of doing I/O and whatever was in its buffer. Full statement: the same for every stripe of
every disk, with zeros or nothing past the end; `C80_sync_refused` and `C80_uring_tail` say what happens instead. -/
theorem C80_archive_partial {e : Engine} {dec : Nat → D → D} {disk buf : List D} {ssc k : Nat} (hb : buf.length = ssc)
    (hk : (k + 1) * ssc ≤ disk.length) (rest : Nat → Option D) :
    (archiveRead e dec disk ssc k buf).1 = true ∧ IsStripe dec disk ssc k rest (archiveRead e dec disk ssc k buf).2 := by
  have e1 : (k + 1) * ssc = k * ssc + ssc := Nat.succ_mul k ssc
  have hf : (fileRead e disk (k * ssc) ssc buf).1 = true := by
    unfold fileRead
    cases e
    · simp only [pread_length, decide_eq_true_eq]; omega
    · rfl
  obtain ⟨h1, h2, h3⟩ := read_done (dec := dec) hb hf
  refine ⟨h1, h2, fun i hi => ?_⟩
  have := h3 i hi
  rw [if_pos (by omega)] at this ⊢
  exact this

/-- **C80** So does the stripe server. -/
theorem C80_server_partial {e : Engine} {dec : Nat → D → D} {zero : D} {disk : List D} {ssc k : Nat}
    (hk : (k + 1) * ssc ≤ disk.length) (rest : Nat → Option D) :
    (serverRead e dec zero disk ssc k).1 = true ∧ IsStripe dec disk ssc k rest (serverRead e dec zero disk ssc k).2 :=
  C80_archive_partial (List.length_replicate ..) hk rest

/-- **C80** With synchronous I/O a stripe that the disk ends inside of cannot be read whole: the archiver fails on it, and the
server answers with an error. -/
theorem C80_sync_refused {dec : Nat → D → D} {disk : List D} {ssc k : Nat} (hk : disk.length < (k + 1) * ssc) :
    (∀ buf, (archiveRead .sync dec disk ssc k buf).1 = false) ∧ ∀ zero, (serverRead .sync dec zero disk ssc k).1 = false := by
  have e1 : (k + 1) * ssc = k * ssc + ssc := Nat.succ_mul k ssc
  have hs : ssc ≠ 0 := by rintro rfl; simp at hk
  have hf : ∀ b, (fileRead .sync disk (k * ssc) ssc b).1 = false := by
    intro b
    unfold fileRead
    simp only [decide_eq_false_iff_not]
    rw [pread_length]; omega
  constructor
  · intro b; simp [archiveRead, read, hf]
  · intro z; simp [serverRead, read, hf]

/-- **C80** With io_uring such a read is reported as done, and the archiver takes for the sectors past the end what its buffer
held before, put through the decryption of those sectors. -/
theorem C80_uring_tail {dec : Nat → D → D} {disk buf : List D} {ssc k : Nat} (hb : buf.length = ssc) :
    (archiveRead .uring dec disk ssc k buf).1 = true ∧
    IsStripe dec disk ssc k (fun i => buf[i]?.map (dec (k * ssc + i))) (archiveRead .uring dec disk ssc k buf).2 :=
  read_done hb rfl

/-- **C80** With io_uring the server gives zeros past the end, put through the decryption of those sectors: zeros for a volume
that is not encrypted. -/
theorem C80_server_tail {dec : Nat → D → D} {zero : D} {disk : List D} {ssc k : Nat} :
    (serverRead .uring dec zero disk ssc k).1 = true ∧
    IsStripe dec disk ssc k (fun i => some (dec (k * ssc + i) zero)) (serverRead .uring dec zero disk ssc k).2 := by
  obtain ⟨h1, h2, h3⟩ := read_done (e := .uring) (dec := dec) (disk := disk) (k := k) (List.length_replicate (n := ssc) (a := zero)) rfl
  refine ⟨h1, h2, fun i hi => ?_⟩
  have := h3 i hi
  simp only [List.getElem?_replicate, if_pos hi, Option.map_some] at this
  exact this

/-- **C80** The archiver working with one buffer on a volume that is not encrypted and ends inside stripe `k + 1`: what it
archives as the end of that stripe is the end of stripe `k`. -/
theorem C80_stale_tail {disk buf : List D} {ssc k : Nat} (hs : 0 < ssc) (hb : buf.length = ssc)
    (h1 : (k + 1) * ssc ≤ disk.length) (h2 : disk.length < (k + 2) * ssc) :
    ∃ a b, archiveAll .uring (fun _ x => x) disk ssc [k, k + 1] buf = some [a, b] ∧ b.length = ssc ∧
      ∀ i, i < ssc → disk.length ≤ (k + 1) * ssc + i → b[i]? = disk[k * ssc + i]? := by
  have e1 : (k + 1) * ssc = k * ssc + ssc := Nat.succ_mul k ssc
  have e2 : (k + 2) * ssc = k * ssc + ssc + ssc := by rw [Nat.succ_mul, e1]
  have id1 : ∀ (o : Option D), o.map (fun x => x) = o := fun o => by cases o <;> rfl
  obtain ⟨ra, la, ha⟩ := C80_archive_partial (e := .uring) (dec := fun _ (x : D) => x) hb h1 (fun _ => none)
  obtain ⟨rb, lb, hbb⟩ := C80_uring_tail (dec := fun _ (x : D) => x) (disk := disk) (k := k + 1) la
  refine ⟨(archiveRead .uring (fun _ x => x) disk ssc k buf).2,
    (archiveRead .uring (fun _ x => x) disk ssc (k + 1) (archiveRead .uring (fun _ x => x) disk ssc k buf).2).2, ?_, lb, ?_⟩
  · have pa : archiveRead .uring (fun _ (x : D) => x) disk ssc k buf = (true, (archiveRead .uring (fun _ (x : D) => x) disk ssc k buf).2) :=
      Prod.ext ra rfl
    have pb : archiveRead .uring (fun _ (x : D) => x) disk ssc (k + 1) (archiveRead .uring (fun _ (x : D) => x) disk ssc k buf).2 =
        (true, (archiveRead .uring (fun _ (x : D) => x) disk ssc (k + 1) (archiveRead .uring (fun _ (x : D) => x) disk ssc k buf).2).2) :=
      Prod.ext rb rfl
    simp only [archiveAll]
    rw [pa]
    simp only
    rw [pb]
    rfl
  · intro i hi hx
    have := hbb i hi
    rw [if_neg (by omega)] at this
    rw [this]
    simp only [id1]
    have := ha i hi
    rw [if_pos (by omega), sectorOf, id1] at this
    exact this

/-- **C80** Archiving stripe after stripe with synchronous I/O fails if the disk ends inside one of the stripes. -/
theorem C80_archive_fails {dec : Nat → D → D} {disk : List D} {ssc : Nat} (ks : List Nat)
    (hk : ∃ k ∈ ks, disk.length < (k + 1) * ssc) (buf : List D) : archiveAll .sync dec disk ssc ks buf = none := by
  induction ks generalizing buf with
  | nil => simp at hk
  | cons k ks ih =>
    unfold archiveAll
    by_cases h : disk.length < (k + 1) * ssc
    · have := (C80_sync_refused (dec := dec) h).1 buf
      generalize archiveRead .sync dec disk ssc k buf = r at this
      obtain ⟨a, b⟩ := r
      simp only at this
      rw [this]
    · obtain ⟨k', h1, h2⟩ := hk
      have hk' : ∃ k ∈ ks, disk.length < (k + 1) * ssc := by
        rcases List.mem_cons.1 h1 with rfl | h1
        · exact absurd h2 h
        · exact ⟨k', h1, h2⟩
      cases archiveRead .sync dec disk ssc k buf with
      | mk a b => cases a <;> simp [ih hk']

/-- **C80** Archiving stripe after stripe on a disk that holds all the stripes whole: each is archived as it is on the
volume. -/
theorem C80_archive_all_partial {e : Engine} {dec : Nat → D → D} {disk : List D} {ssc : Nat} (ks : List Nat)
    (hk : ∀ k ∈ ks, (k + 1) * ssc ≤ disk.length) {buf : List D} (hb : buf.length = ssc) :
    ∃ out : List (List D), archiveAll e dec disk ssc ks buf = some out ∧ out.length = ks.length ∧
      ∀ (j k : Nat) (b : List D), ks[j]? = some k → out[j]? = some b → IsStripe dec disk ssc k (fun _ => none) b := by
  induction ks generalizing buf with
  | nil => exact ⟨[], rfl, rfl, by simp⟩
  | cons k ks ih =>
    obtain ⟨h1, h2⟩ := C80_archive_partial (e := e) (dec := dec) hb (hk k (by simp)) (fun _ => none)
    obtain ⟨out, ho, hl, hj⟩ := ih (fun k' h => hk k' (by simp [h])) h2.1
    refine ⟨(archiveRead e dec disk ssc k buf).2 :: out, ?_, by simp [hl], ?_⟩
    · have pa : archiveRead e dec disk ssc k buf = (true, (archiveRead e dec disk ssc k buf).2) := Prod.ext h1 rfl
      rw [archiveAll, pa]
      simp only [ho, Option.map_some]
    · intro j k' b e1 e2
      cases j with
      | zero => simp at e1 e2; subst e1; subst e2; exact h2
      | succ j => exact hj j k' b (by simpa using e1) (by simpa using e2)

/-- **C80** With synchronous I/O no archive is made of a volume that has data of its own in a stripe it ends inside of: however
the events follow each other, the archiver does not get to the end. `of` gives the sectors of a buffer. -/
theorem C80_never_done {c : Archive.Cfg} {st0 : Archive.Name → Option Bytes} {ls : List Archive.Lab} {s : Archive.St} {k : Nat}
    {dec : Nat → D → D} {disk : List D} {of : Bytes → List D}
    (h : Archive.Run c (Archive.St.init c st0) ls s) (hk : k < c.count) (ha : Archive.shouldArchive c k = .ok true)
    (hr : ∀ b, Archive.Lab.fetched k true b ∈ ls → ∃ buf, archiveRead .sync dec disk c.ssc k buf = (true, of b))
    (hend : disk.length < (k + 1) * c.ssc) : s.phase ≠ .done := by
  intro hd
  have hcomp := (Archive.run_inv h).complete (.inr (.inr (.inl hd)))
  obtain ⟨v, hv⟩ := Option.ne_none_iff_exists'.1 ((hcomp.all k hk).2 ha)
  obtain ⟨b, h1, _⟩ := hcomp.hashed k v hv
  obtain ⟨buf, e⟩ := hr b ((Archive.got_iff h k b).1 h1)
  have hf := (C80_sync_refused (dec := dec) hend).1 buf
  rw [e] at hf
  cases hf

/-- **C80** Fetching a stripe from an image of any size onto a disk of any size not below it: the disk keeps its size, all other
stripes are untouched, every sector of the image in the stripe arrives, and only past the end of the image does the disk get
what the buffer held before. -/
theorem C80_fetch_contents {ssc k : Nat} {image target buf : List D} (hs : 0 < ssc) (hle : image.length ≤ target.length)
    (hk : k < stripeCount image.length ssc) (hb : buf.length = ssc) :
    ∃ t, fetchStripe ssc image target k buf = some t ∧ t.length = target.length ∧
      (∀ x, x < k * ssc ∨ (k + 1) * ssc ≤ x → t[x]? = target[x]?) ∧
      (∀ x, k * ssc ≤ x → x < (k + 1) * ssc → x < image.length → t[x]? = image[x]?) ∧
      (∀ x, k * ssc ≤ x → x < (k + 1) * ssc → image.length ≤ x → x < target.length → t[x]? = buf[x - k * ssc]?) := by
  have hk' := (lt_stripeCount hs).1 hk
  have e1 : (k + 1) * ssc = k * ssc + ssc := Nat.succ_mul k ssc
  have hl : ((fileRead .sync image (k * ssc) (min ssc (image.length - k * ssc)) buf).2).length = ssc := by
    unfold fileRead
    simp only [List.length_append, pread_length, List.length_drop]
    omega
  have hg : ∀ i, i < ssc → (fileRead .sync image (k * ssc) (min ssc (image.length - k * ssc)) buf).2[i]? =
      if k * ssc + i < image.length then image[k * ssc + i]? else buf[i]? := by
    intro i hi
    by_cases hx : k * ssc + i < image.length
    · rw [fileRead_get _ _ _ _ _ _ (by omega), if_pos hx]
    · rw [if_neg hx]
      unfold fileRead
      simp only
      rw [List.getElem?_append_right (by rw [pread_length]; omega), List.getElem?_drop, pread_length]
      congr 1; omega
  refine ⟨target.take (k * ssc) ++ (fileRead .sync image (k * ssc) (min ssc (image.length - k * ssc)) buf).2.take (min ssc (target.length - k * ssc)) ++
      target.drop (k * ssc + min ssc (target.length - k * ssc)), ?_, ?_, ?_, ?_, ?_⟩
  · unfold fetchStripe
    rw [imageRange, if_neg (by omega), fetchRange, if_neg (by omega)]
  · simp only [List.length_append, List.length_take, List.length_drop, hl]; omega
  · intro x hx
    rw [List.getElem?_append, List.getElem?_append]
    simp only [List.length_append, List.length_take, hl]
    rcases hx with hx | hx
    · rw [if_pos (by omega), if_pos (by omega), List.getElem?_take, if_pos hx]
    · rw [if_neg (by omega), List.getElem?_drop]
      by_cases ht : x < target.length
      · congr 1; omega
      · rw [List.getElem?_eq_none (by omega), List.getElem?_eq_none (by omega)]
  · intro x h1 h2 h3
    rw [List.getElem?_append, List.getElem?_append]
    simp only [List.length_append, List.length_take, hl]
    rw [if_pos (by omega), if_neg (by omega), List.getElem?_take, if_pos (by omega), hg _ (by omega), if_pos (by omega)]
    congr 1; omega
  · intro x h1 h2 h3 h4
    rw [List.getElem?_append, List.getElem?_append]
    simp only [List.length_append, List.length_take, hl]
    rw [if_pos (by omega), if_neg (by omega), List.getElem?_take, if_pos (by omega), hg _ (by omega), if_neg (by omega)]
    congr 1; omega

/-- **C80** A backend that starts from an archive or a server that has the last stripe of a volume of `n` sectors has a disk of at
least that size rounded up to whole stripes. -/
theorem C80_rounded_up {t : Assemble.Text} {c : Verif.Config.Config} {l : Assemble.Log} {x : Assemble.Parts} {d : Assemble.Dev} {s : Assemble.Src}
    {n ssc k : Nat} (h : Assemble.Run (Assemble.backend t c) l (.ok x)) (hd : x.disk = some d) (hs : x.source = some s)
    (hn : s.sectors = archiveSectors ssc k ∨ s.sectors = remoteSectors ssc k) (hk : k + 1 = stripeCount n ssc) :
    stripeCount n ssc * ssc ≤ d.sectors := by
  have := Assemble.C79_fits h hd hs
  rw [← hk]
  rcases hn with e | e <;> (rw [e] at this; exact this)

/-- **C80, false: a volume can be restored or moved onto a disk of its own size.** If its size is not a multiple of the stripe size
and its last stripe is in the archive or on the server, no backend starts with a disk of that size. -/
theorem C80_false_same_size {t : Assemble.Text} {c : Verif.Config.Config} {l : Assemble.Log} {x : Assemble.Parts} {d : Assemble.Dev}
    {s : Assemble.Src} {n ssc k : Nat} (hssc : 0 < ssc) (hodd : n % ssc ≠ 0)
    (h : Assemble.Run (Assemble.backend t c) l (.ok x)) (hd : x.disk = some d) (hs : x.source = some s)
    (hn : s.sectors = archiveSectors ssc k ∨ s.sectors = remoteSectors ssc k) (hk : k + 1 = stripeCount n ssc) : d.sectors ≠ n := by
  have h1 := C80_rounded_up h hd hs hn hk
  intro e
  have h2 : k * ssc < n := (lt_stripeCount hssc).1 (by omega)
  have h3 : ¬ (k + 1) * ssc < n := fun h' => absurd ((lt_stripeCount hssc).2 h') (by omega)
  rw [← hk] at h1
  have : n = (k + 1) * ssc := by omega
  rw [this] at hodd
  simp at hodd

/-- **C80, false: what is archived past the end of a volume is zeros, or at least not another stripe's data.** -/
theorem C80_false_stale : archiveAll .uring (fun _ (x : Nat) => x) [1, 2, 3, 4, 5, 6] 4 [0, 1] [0, 0, 0, 0] =
    some [[1, 2, 3, 4], [5, 6, 3, 4]] := by decide

/-- **C80, false: what the server sends past the end of an encrypted volume is zeros.** Here the "cipher" adds the number of the
sector. -/
theorem C80_false_server_zeros : serverRead .uring (fun i x => x - i) 9 [9, 10, 11, 12, 13, 14] 4 1 = (true, [9, 9, 3, 2]) := by decide

/-- **C80, false: only the image's contents are written when a stripe is fetched.** Past the end of the image the disk gets what was
in the buffer, here the end of another stripe. -/
theorem C80_false_fetch_stale : fetchStripe 4 [1, 2, 3, 4, 5, 6] [0, 0, 0, 0, 0, 0, 0, 0, 0] 1 [1, 2, 3, 4] =
    some [0, 0, 0, 0, 5, 6, 3, 4, 0] := by decide

/-! ## The hypotheses are met -/

/-- C80_fetch_inside, C80_image_inside: an image of 6 sectors onto a disk of 7 with stripes of 4. -/
example : fetchRange 4 7 1 = some (4, 3) ∧ imageRange 4 6 1 = some (4, 2) ∧ imageRange 4 6 2 = none ∧ stripeCount 6 4 = 2 := by decide
/-- C80_archive_partial, C80_archive_all_partial: both ways of doing I/O on a disk of two whole stripes. -/
example : archiveAll .sync (fun i x => x + i) [1, 2, 3, 4, 5, 6] 3 [0, 1] [7, 7, 7] = some [[1, 3, 5], [7, 9, 11]] ∧
    archiveAll .uring (fun i x => x + i) [1, 2, 3, 4, 5, 6] 3 [0, 1] [7, 7, 7] = some [[1, 3, 5], [7, 9, 11]] := by decide
/-- C80_sync_refused, C80_server_tail. -/
example : archiveAll .sync (fun _ (x : Nat) => x) [1, 2, 3, 4, 5, 6] 4 [0, 1] [0, 0, 0, 0] = none ∧
    serverRead .sync (fun _ (x : Nat) => x) 0 [1, 2, 3, 4, 5, 6] 4 1 = (false, [5, 6, 0, 0]) ∧
    serverRead .uring (fun _ (x : Nat) => x) 0 [1, 2, 3, 4, 5, 6] 4 1 = (true, [5, 6, 0, 0]) := by decide
/-- C80_fetch_contents: a last stripe shorter on the disk than a stripe, longer than on the image. -/
example : fetchStripe 4 [1, 2, 3, 4, 5, 6] [0, 0, 0, 0, 0, 0, 0] 1 [8, 8, 8, 8] = some [0, 0, 0, 0, 5, 6, 8] := by decide
open Archive in
/-- C80_never_done: a volume of one sector in stripes of two, its only stripe written; the read fails. -/
example : ∃ s, Archive.Run { demoCfg with ssc := 2 } (St.init { demoCfg with ssc := 2 } fun _ => none) [.tau, .fetched 0 false (zeros 1024)] s ∧
    shouldArchive { demoCfg with ssc := 2 } 0 = .ok true ∧ s.phase ≠ .done := by
  have t0 : Archive.Run { demoCfg with ssc := 2 } (St.init { demoCfg with ssc := 2 } fun _ => none) [] _ := .nil _
  have t1 := t0.snoc (.start _ rfl (by simp [demoCfg, St.init]) rfl (by simp [demoCfg, St.init]) true)
  have t2 := t1.snoc (.fetchDone _ rfl 0 (by simp [St.init]) false (zeros 1024) (by simp))
  exact ⟨_, t2, rfl, C80_never_done (k := 0) (dec := fun _ (x : Nat) => x) (disk := [5]) (of := fun _ => []) t2 (by simp [demoCfg]) rfl (by simp) (by simp)⟩
/-- C80_false_same_size: a volume of 6 sectors in stripes of 4 makes an archive of 8. -/
example : archiveSectors 4 1 = 8 ∧ remoteSectors 4 1 = 8 ∧ stripeCount 6 4 = 1 + 1 ∧ 6 % 4 ≠ 0 := by decide

end Verif.Tail
