import Verif.Model.XtsTool
import Verif.Props.Crypt

/-! # C53: the image encode/decode tool -/

set_option maxRecDepth 8000

namespace Verif.XtsTool
open Verif Verif.Crypt

variable {p : Xts} {k : Keys}

/-- `n` sectors of a buffer, each transformed with its number. -/
def mapSectors (f : Nat → Bytes → Bytes) (start : Nat) (buf : Bytes) (n : Nat) : Bytes :=
  (List.range n).flatMap fun i => f (start + i) (slice buf (i * 512) 512)

def Keeps (f : Nat → Bytes → Bytes) : Prop := ∀ x s, s.length = 512 → (f x s).length = 512

theorem enc_keeps (hp : p.Lawful) : Keeps (encSector p k) := fun _ _ h => hp.enc_len _ _ _ _ h
theorem dec_keeps (hp : p.Lawful) : Keeps (decSector p k) := fun _ _ h => hp.dec_len _ _ _ _ h

theorem mapSectors_succ (f : Nat → Bytes → Bytes) (s : Nat) (buf : Bytes) (n : Nat) :
    mapSectors f s buf (n + 1) = mapSectors f s buf n ++ f (s + n) (slice buf (n * 512) 512) := by
  simp [mapSectors, List.range_succ]

theorem mapSectors_length {f : Nat → Bytes → Bytes} (hf : Keeps f) (s : Nat) (buf : Bytes) (n : Nat)
    (h : n * 512 ≤ buf.length) : (mapSectors f s buf n).length = n * 512 := by
  induction n with
  | zero => rfl
  | succ n ih =>
    rw [mapSectors_succ, List.length_append, ih (by omega), hf _ _ (slice_length _ _ _ (by omega))]
    omega

theorem mapSectors_slice {f : Nat → Bytes → Bytes} (hf : Keeps f) (s : Nat) (buf : Bytes) (n : Nat)
    (h : n * 512 ≤ buf.length) : ∀ i, i < n → slice (mapSectors f s buf n) (i * 512) 512 = f (s + i) (slice buf (i * 512) 512) := by
  induction n with
  | zero => intro i hi; omega
  | succ n ih =>
    intro i hi
    have hl := mapSectors_length hf s buf n (by omega)
    rw [mapSectors_succ]
    by_cases hin : i < n
    · rw [← ih (by omega) i hin]
      simp only [slice]
      rw [List.drop_append_of_le_length (by omega), List.take_append_of_le_length (by rw [List.length_drop]; omega)]
    · have : i = n := by omega
      subst this
      have hk := hf (s + i) _ (slice_length buf (i * 512) 512 (by omega))
      generalize f (s + i) (slice buf (i * 512) 512) = y at hk
      simp only [slice]
      rw [List.drop_append, List.drop_eq_nil_of_le (by omega), hl, Nat.sub_self, List.drop_zero, List.nil_append]
      exact List.take_of_length_le (by omega)

/-- A buffer of whole sectors is determined by its sectors. -/
theorem sectors_ext {a b : Bytes} {n : Nat} (ha : a.length = n * 512) (hb : b.length = n * 512)
    (h : ∀ i, i < n → slice a (i * 512) 512 = slice b (i * 512) 512) : a = b := by
  apply List.ext_getElem?
  intro j
  by_cases hj : j < n * 512
  · have hi : j / 512 < n := by omega
    have := congrArg (fun l : Bytes => l[j % 512]?) (h (j / 512) hi)
    simp only [slice_getElem?, if_pos (Nat.mod_lt j (by omega : 512 > 0))] at this
    rwa [show j / 512 * 512 + j % 512 = j by omega] at this
  · rw [List.getElem?_eq_none (by omega), List.getElem?_eq_none (by omega)]

theorem cryptLoop_eq {f : Nat → Bytes → Bytes} (hf : Keeps f) (start n : Nat) {buf : Bytes} (h : buf.length = n * 512) :
    cryptLoop f start 0 n buf = .ok (mapSectors f start buf n) := by
  obtain ⟨out, h1, h2, h3, _⟩ := cryptLoop_spec f hf start n 0 buf (by omega)
  rw [h1]
  congr 1
  refine sectors_ext (n := n) (by omega) (mapSectors_length hf _ _ _ (by omega)) ?_
  intro i hi
  rw [h3 i (by omega) (by omega), mapSectors_slice hf _ _ _ (by omega) i hi]

theorem mapSectors_congr (f : Nat → Bytes → Bytes) (s n : Nat) {a b : Bytes}
    (h : ∀ i, i < n → slice a (i * 512) 512 = slice b (i * 512) 512) : mapSectors f s a n = mapSectors f s b n := by
  induction n with
  | zero => rfl
  | succ n ih => rw [mapSectors_succ, mapSectors_succ, ih (fun i hi => h i (by omega)), h n (by omega)]

theorem mapSectors_add (f : Nat → Bytes → Bytes) (s m n : Nat) (buf : Bytes) :
    mapSectors f s buf (m + n) = mapSectors f s buf m ++ mapSectors f (s + m) (buf.drop (m * 512)) n := by
  induction n with
  | zero => simp [mapSectors]
  | succ n ih =>
    rw [← Nat.add_assoc, mapSectors_succ, ih, mapSectors_succ, List.append_assoc]
    congr 3
    · omega
    · simp only [slice, List.drop_drop]
      congr 2
      omega

theorem slice_take_sector (b : Bytes) (n i : Nat) (hi : i < n) : slice (b.take (n * 512)) (i * 512) 512 = slice b (i * 512) 512 := by
  apply List.ext_getElem?
  intro j
  rw [slice_getElem?, slice_getElem?]
  split
  · rw [List.getElem?_take, if_pos (by omega)]
  · rfl

theorem decodeLoop_eq (hp : p.Lawful) (input : Bytes) : ∀ n cur written, (cur + n) * 512 ≤ input.length →
    decodeLoop p k input cur n written =
      .ok (written ++ mapSectors (decSector p k) cur (input.drop (cur * 512)) n) := by
  intro n
  induction n using Nat.strongRecOn with
  | ind n ih =>
    intro cur written h
    unfold decodeLoop
    by_cases h0 : n = 0
    · subst h0; simp [mapSectors]
    · have hm : min n MAX_CHUNK ≤ n := Nat.min_le_left _ _
      have hpos : 0 < min n MAX_CHUNK := by simp only [MAX_CHUNK]; omega
      generalize min n MAX_CHUNK = m at hm hpos
      have hr : readAt input (cur * 512) (m * 512) = some (slice input (cur * 512) (m * 512)) := by
        unfold readAt; rw [if_pos (by omega)]
      have hl : (slice input (cur * 512) (m * 512)).length = m * 512 := slice_length _ _ _ (by omega)
      have hd : decrypt p k (slice input (cur * 512) (m * 512)) cur m =
          .ok (mapSectors (decSector p k) cur (slice input (cur * 512) (m * 512)) m) := cryptLoop_eq (dec_keeps hp) _ _ hl
      simp only [dif_neg h0, hr, hd]
      rw [ih (n - m) (by omega) _ _ (by rw [show cur + m + (n - m) = cur + n by omega]; exact h),
        List.take_of_length_le (Nat.le_of_eq (mapSectors_length (dec_keeps hp) _ _ _ (by omega))),
        List.append_assoc]
      congr 2
      have : n = m + (n - m) := by omega
      conv => rhs; rw [this, mapSectors_add]
      rw [List.drop_drop, show cur * 512 + m * 512 = (cur + m) * 512 by omega]
      congr 1
      apply mapSectors_congr
      intro i hi
      exact slice_take_sector _ _ _ hi

theorem writeAt_writeAt (f a b : Bytes) (off : Nat) :
    writeAt (writeAt f off a) (off + a.length) b = writeAt f off (a ++ b) := by
  have hl : ((f ++ zeros (off - f.length)).take off).length = off := by
    rw [List.length_take, List.length_append, zeros_length]; omega
  unfold writeAt
  generalize (f ++ zeros (off - f.length)).take off = pre at hl
  have h1 : (pre ++ a ++ f.drop (off + a.length) ++ zeros (off + a.length - (pre ++ a ++ f.drop (off + a.length)).length)).take
      (off + a.length) = pre ++ a := by
    rw [List.append_assoc (pre ++ a), List.take_append_of_le_length (by rw [List.length_append]; omega)]
    exact List.take_of_length_le (by rw [List.length_append]; omega)
  have h2 : (pre ++ a ++ f.drop (off + a.length)).drop (off + a.length + b.length) = f.drop (off + (a ++ b).length) := by
    rw [List.drop_append, List.drop_eq_nil_of_le (by rw [List.length_append]; omega), List.nil_append, List.drop_drop,
      List.length_append, List.length_append]
    congr 1
    omega
  rw [h1, h2, List.append_assoc pre a b]

theorem encodeLoop_eq (hp : p.Lawful) : ∀ n cur rest out, n * 512 ≤ rest.length →
    encodeLoop p k rest out cur n =
      .ok (if n = 0 then out else writeAt out (cur * 512) (mapSectors (encSector p k) cur rest n)) := by
  intro n
  induction n using Nat.strongRecOn with
  | ind n ih =>
    intro cur rest out h
    unfold encodeLoop
    by_cases h0 : n = 0
    · subst h0; simp
    · have hm : min n MAX_CHUNK ≤ n := Nat.min_le_left _ _
      have hpos : 0 < min n MAX_CHUNK := by simp only [MAX_CHUNK]; omega
      generalize min n MAX_CHUNK = m at hm hpos
      have hl : (rest.take (m * 512)).length = m * 512 := by rw [List.length_take]; omega
      have he : encrypt p k (rest.take (m * 512)) cur m = .ok (mapSectors (encSector p k) cur (rest.take (m * 512)) m) :=
        cryptLoop_eq (enc_keeps hp) _ _ hl
      have hme : mapSectors (encSector p k) cur (rest.take (m * 512)) m = mapSectors (encSector p k) cur rest m :=
        mapSectors_congr _ _ _ fun i hi => slice_take_sector _ _ _ hi
      have hml := mapSectors_length (enc_keeps hp (k := k)) cur rest m (by omega)
      simp only [dif_neg h0, if_neg h0, if_neg (show ¬rest.length < m * 512 by omega), he, hme]
      rw [ih (n - m) (by omega) _ _ _ (by rw [List.length_drop]; omega)]
      have hn : n = m + (n - m) := by omega
      congr 1
      split
      · have : n = m := by omega
        rw [this]
      · rw [show (cur + m) * 512 = cur * 512 + (mapSectors (encSector p k) cur rest m).length by rw [hml]; omega,
          writeAt_writeAt, ← mapSectors_add, ← hn]

/-! ## Statements -/

/-- The arguments select sectors `s .. s + n` of a file of `total` sectors: `start` defaults to the first sector, `len`
to everything from there on, and the selection lies inside the file. -/
def Selects (total : Nat) (start len : Option Nat) (s n : Nat) : Prop :=
  (start = some s ∨ start = none ∧ s = 0) ∧ (len = some n ∨ len = none ∧ n = total - s) ∧ s < total ∧ s + n ≤ total

theorem window_iff (total : Nat) (start len : Option Nat) (s n : Nat) :
    window total start len = .ok (s, n) ↔ Selects total start len s n := by
  unfold window Selects
  cases start <;> cases len <;> simp only [Option.getD_some, Option.getD_none] <;> (repeat' split) <;>
    simp <;> omega

/-- C53, encoding: it succeeds iff the input is whole sectors and the arguments select some of them. The selected
sectors are encrypted under their own number and stored at their own position; sectors before them are zeros. -/
theorem C53_encode (hp : p.Lawful) (input : Bytes) (start len : Option Nat) :
    ((∃ out, encode p k input start len = .ok out) ↔
      512 ∣ input.length ∧ ∃ s n, Selects (input.length / 512) start len s n) ∧
    ∀ out s n, encode p k input start len = .ok out → Selects (input.length / 512) start len s n →
      (n = 0 → out = []) ∧
      (0 < n → out.length = (s + n) * 512 ∧ ∀ x, x < s + n →
        slice out (x * 512) 512 = if x < s then zeros 512 else encSector p k x (slice input (x * 512) 512)) := by
  have key : ∀ s n, 512 ∣ input.length → Selects (input.length / 512) start len s n → encode p k input start len =
      .ok (if n = 0 then zeros (n * 512) else
        writeAt (zeros (n * 512)) (s * 512) (mapSectors (encSector p k) s (input.drop (s * 512)) n)) := by
    intro s n hd hs
    have hw := (window_iff ..).mpr hs
    unfold encode
    rw [if_neg (by rw [Nat.dvd_iff_mod_eq_zero] at hd; omega), hw]
    exact encodeLoop_eq hp n s _ _ (by rw [List.length_drop]; have := hs.2.2.2; omega)
  refine ⟨⟨?_, ?_⟩, ?_⟩
  · rintro ⟨out, ho⟩
    unfold encode at ho
    split at ho
    · cases ho
    rename_i hm
    refine ⟨Nat.dvd_iff_mod_eq_zero.mpr (by omega), ?_⟩
    cases hw : window (input.length / 512) start len with
    | error e => rw [hw] at ho; cases ho
    | ok r => exact ⟨r.1, r.2, (window_iff ..).mp hw⟩
  · rintro ⟨hd, s, n, hs⟩
    exact ⟨_, key s n hd hs⟩
  · intro out s n ho hs
    have hd : 512 ∣ input.length := by
      unfold encode at ho
      split at ho
      · cases ho
      · exact Nat.dvd_iff_mod_eq_zero.mpr (by omega)
    rw [key s n hd hs] at ho
    obtain rfl := Except.ok.inj ho
    constructor
    · rintro rfl; simp [zeros]
    intro hn
    rw [if_neg (by omega)]
    have hin : (s + n) * 512 ≤ input.length := by have := hs.2.2.2; omega
    have hml := mapSectors_length (enc_keeps hp (k := k)) s (input.drop (s * 512)) n (by rw [List.length_drop]; omega)
    have hw : writeAt (zeros (n * 512)) (s * 512) (mapSectors (encSector p k) s (input.drop (s * 512)) n) =
        zeros (s * 512) ++ mapSectors (encSector p k) s (input.drop (s * 512)) n := by
      unfold writeAt
      rw [hml, List.drop_eq_nil_of_le (as := zeros (n * 512)) (by rw [zeros_length]; omega), List.append_nil]
      congr 1
      simp only [zeros, List.replicate_append_replicate, List.take_replicate, List.length_replicate]
      congr 1
      omega
    rw [hw]
    refine ⟨by rw [List.length_append, zeros_length, hml]; omega, ?_⟩
    intro x hx
    split
    · rename_i hxs
      simp only [slice]
      rw [List.drop_append_of_le_length (by rw [zeros_length]; omega),
        List.take_append_of_le_length (by rw [List.length_drop, zeros_length]; omega)]
      simp only [zeros, List.drop_replicate, List.take_replicate]
      congr 1
      omega
    · have := mapSectors_slice (enc_keeps hp (k := k)) s (input.drop (s * 512)) n (by rw [List.length_drop]; omega) (x - s) (by omega)
      rw [show s + (x - s) = x by omega] at this
      simp only [slice, List.drop_drop, ] at this ⊢
      rw [show s * 512 + (x - s) * 512 = x * 512 by omega] at this
      rw [← this, List.drop_append, List.drop_eq_nil_of_le (as := zeros (s * 512)) (by rw [zeros_length]; omega), zeros_length, List.nil_append,
        show x * 512 - s * 512 = (x - s) * 512 by omega]

/-- C53, decoding: it succeeds iff the input is whole sectors and the arguments select some of them. The output is the
selected sectors, each decrypted under its own number. -/
theorem C53_decode (hp : p.Lawful) (input : Bytes) (start len : Option Nat) :
    ((∃ out, decode p k input start len = .ok out) ↔
      512 ∣ input.length ∧ ∃ s n, Selects (input.length / 512) start len s n) ∧
    ∀ out s n, decode p k input start len = .ok out → Selects (input.length / 512) start len s n →
      out.length = n * 512 ∧ ∀ i, i < n →
        slice out (i * 512) 512 = decSector p k (s + i) (slice input ((s + i) * 512) 512) := by
  have key : ∀ s n, 512 ∣ input.length → Selects (input.length / 512) start len s n → decode p k input start len =
      .ok (mapSectors (decSector p k) s (input.drop (s * 512)) n) := by
    intro s n hd hs
    have hw := (window_iff ..).mpr hs
    unfold decode
    rw [if_neg (by rw [Nat.dvd_iff_mod_eq_zero] at hd; omega), hw]
    have := decodeLoop_eq hp (k := k) input n s [] (by have := hs.2.2.2; omega)
    simpa using this
  refine ⟨⟨?_, ?_⟩, ?_⟩
  · rintro ⟨out, ho⟩
    unfold decode at ho
    split at ho
    · cases ho
    rename_i hm
    refine ⟨Nat.dvd_iff_mod_eq_zero.mpr (by omega), ?_⟩
    cases hw : window (input.length / 512) start len with
    | error e => rw [hw] at ho; cases ho
    | ok r => exact ⟨r.1, r.2, (window_iff ..).mp hw⟩
  · rintro ⟨hd, s, n, hs⟩
    exact ⟨_, key s n hd hs⟩
  · intro out s n ho hs
    have hd : 512 ∣ input.length := by
      unfold decode at ho
      split at ho
      · cases ho
      · exact Nat.dvd_iff_mod_eq_zero.mpr (by omega)
    rw [key s n hd hs] at ho
    obtain rfl := Except.ok.inj ho
    have hin : (s + n) * 512 ≤ input.length := by have := hs.2.2.2; omega
    refine ⟨mapSectors_length (dec_keeps hp) _ _ _ (by rw [List.length_drop]; omega), ?_⟩
    intro i hi
    rw [mapSectors_slice (dec_keeps hp) _ _ _ (by rw [List.length_drop]; omega) i hi]
    simp only [slice, List.drop_drop]
    rw [show s * 512 + i * 512 = (s + i) * 512 by omega]

/-- C53: decoding a non-empty window of an image encoded for the same window gives back the plaintext of the window. -/
theorem C53_round_trip (hp : p.Lawful) {input image : Bytes} {start len : Option Nat} {s n : Nat}
    (he : encode p k input start len = .ok image) (hs : Selects (input.length / 512) start len s n) (hn : 0 < n) :
    decode p k image start len = .ok (slice input (s * 512) (n * 512)) := by
  obtain ⟨hdv, _⟩ := (C53_encode hp (k := k) input start len).1.mp ⟨_, he⟩
  obtain ⟨hl, hsec⟩ := ((C53_encode hp (k := k) input start len).2 image s n he hs).2 hn
  have hs' : Selects (image.length / 512) start len s n := by
    have h1 : image.length / 512 = s + n := by omega
    obtain ⟨a, b, c, d⟩ := hs
    refine ⟨a, ?_, by omega, by omega⟩
    rcases b with b | ⟨b, _⟩
    · exact .inl b
    · exact .inr ⟨b, by omega⟩
  obtain ⟨out, ho⟩ := (C53_decode hp (k := k) image start len).1.mpr ⟨⟨s + n, by omega⟩, s, n, hs'⟩
  obtain ⟨h1, h2⟩ := (C53_decode hp (k := k) image start len).2 out s n ho hs'
  rw [ho]
  have hin : (s + n) * 512 ≤ input.length := by have := hs.2.2.2; omega
  congr 1
  refine sectors_ext h1 (slice_length _ _ _ (by omega)) ?_
  intro i hi
  rw [h2 i hi, hsec (s + i) (by omega), if_neg (by omega)]
  have : slice (slice input (s * 512) (n * 512)) (i * 512) 512 = slice input ((s + i) * 512) 512 := by
    have := slice_take_sector (input.drop (s * 512)) n i hi
    simp only [slice, List.drop_drop] at this ⊢
    rw [this, show s * 512 + i * 512 = (s + i) * 512 by omega]
  rw [this]
  exact hp.dec_enc _ _ _ _ (slice_length _ _ _ (by omega))

/-- C53: a whole image encoded by the tool, used as the file behind an encrypted disk with the same keys, reads as the
original image: the disk of `C19_refines_plain_disk` over `sectorAt image` starts with these contents. -/
theorem C53_serves (hp : p.Lawful) {input image : Bytes} (he : encode p k input none none = .ok image) :
    image.length = input.length ∧ ∀ x, x < input.length / 512 → decS hp k x (sectorAt image x) = sectorAt input x := by
  obtain ⟨hdv, s, n, hs⟩ := (C53_encode hp (k := k) input none none).1.mp ⟨_, he⟩
  have hs0 : s = 0 := by rcases hs.1 with h | h; · cases h
                         · exact h.2
  have hn0 : n = input.length / 512 - s := by rcases hs.2.1 with h | h; · cases h
                                              · exact h.2
  obtain ⟨hl, hsec⟩ := ((C53_encode hp (k := k) input none none).2 image s n he hs).2 (by have := hs.2.2.1; omega)
  have hll : image.length = input.length := by
    rw [Nat.dvd_iff_mod_eq_zero] at hdv; omega
  refine ⟨hll, ?_⟩
  intro x hx
  have hx' : (x + 1) * 512 ≤ input.length := by omega
  apply Subtype.ext
  show decSector p k x (sectorAt image x).1 = (sectorAt input x).1
  unfold sectorAt
  rw [dif_pos (by omega), dif_pos hx']
  show decSector p k x (slice image (x * 512) 512) = slice input (x * 512) 512
  rw [hsec x (by omega), if_neg (by omega)]
  exact hp.dec_enc _ _ _ _ (slice_length _ _ _ (by omega))

/-- C53: with a start sector past the first, the encoded file is longer than the window. A decode of it without the
start sector covers the filler too. -/
theorem C53_start_kept (hp : p.Lawful) {input image : Bytes} {s n : Nat}
    (he : encode p k input (some s) (some n) = .ok image) (hn : 0 < n) : image.length = (s + n) * 512 := by
  obtain ⟨_, s', n', hs⟩ := (C53_encode hp (k := k) input _ _).1.mp ⟨_, he⟩
  have h := ((C53_encode hp (k := k) input _ _).2 image s' n' he hs).2
  rcases hs.1 with h1 | h1 <;> rcases hs.2.1 with h2 | h2
  · obtain rfl := Option.some.inj h1
    obtain rfl := Option.some.inj h2
    exact (h hn).1
  · cases h2.1
  · cases h1.1
  · cases h1.1

/-- C53: an empty window encodes to an empty file, which decoding then refuses. -/
theorem C53_empty_window (hp : p.Lawful) {input image : Bytes} {start : Option Nat}
    (he : encode p k input start (some 0) = .ok image) : image = [] ∧ ∀ st ln, ∃ e, decode p k image st ln = .error e := by
  obtain ⟨_, s', n', hs⟩ := (C53_encode hp (k := k) input _ _).1.mp ⟨_, he⟩
  have h := ((C53_encode hp (k := k) input _ _).2 image s' n' he hs).1
  have hn : n' = 0 := by
    rcases hs.2.1 with h2 | h2
    · exact (Option.some.inj h2).symm
    · cases h2.1
  obtain rfl := h hn
  refine ⟨rfl, fun st ln => ?_⟩
  cases hd : decode p k [] st ln with
  | error e => exact ⟨e, rfl⟩
  | ok out =>
    obtain ⟨_, s, n, hs⟩ := (C53_decode hp (k := k) [] st ln).1.mp ⟨_, hd⟩
    have := hs.2.2.1
    simp at this

/-- C53: the keys are the two halves of the configured 64-byte key; any other length is refused before a file is
touched. -/
theorem C53_keys (key : Bytes) :
    (key.length = 64 → keysOf key = .ok { key1 := key.take 32, key2 := key.drop 32 }) ∧
    (key.length ≠ 64 → ∃ e, keysOf key = .error e) := by
  constructor
  · intro h
    simp [keysOf, h, Keys.new, ensure32]; rfl
  · intro h
    unfold keysOf
    split
    · exact ⟨_, rfl⟩
    · have : (key.drop 32).length ≠ 32 := by rw [List.length_drop]; omega
      have h1 : (key.take 32).length = 32 := by rw [List.length_take]; omega
      exact ⟨.param, by simp only [Keys.new, ensure32, if_pos h1, if_neg this]; rfl⟩

/-- Three sectors, the last two encoded. -/
example : Selects ((zeros 1536).length / 512) (some 1) none 1 2 := by
  rw [zeros_length]; exact ⟨.inl rfl, .inr ⟨rfl, by decide⟩, by decide, by decide⟩

example : ∃ image, encode toy toyKeys (zeros 1536) (some 1) none = .ok image ∧
    decode toy toyKeys image (some 1) none = .ok (slice (zeros 1536) 512 1024) := by
  have hs : Selects ((zeros 1536).length / 512) (some 1) none 1 2 := by
    rw [zeros_length]; exact ⟨.inl rfl, .inr ⟨rfl, by decide⟩, by decide, by decide⟩
  obtain ⟨image, h⟩ := (C53_encode toy_lawful (k := toyKeys) (zeros 1536) (some 1) none).1.mpr
    ⟨by rw [zeros_length]; decide, 1, 2, hs⟩
  exact ⟨image, h, C53_round_trip toy_lawful h hs (by decide)⟩

end Verif.XtsTool
