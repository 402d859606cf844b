import Verif.Proof.Formats
import Verif.Spec.Formats
import Verif.Props.Rearchive
import Verif.Proof.ArchiveDemo

/-! # C99: the bytes of an archive's description and index

The assumptions about JSON and CBOR under which `C22`, `C23` and `C71` speak of archives hold of the formats that are written. -/

set_option maxRecDepth 8000

namespace Verif.Formats
open Verif Verif.Archive Verif.Disk

/-! ## What is written -/

theorem bigEndian_snoc (b : Bytes) (x : UInt8) : bigEndian (b ++ [x]) = bigEndian b * 256 + x.toNat := by
  simp [bigEndian, List.foldl_append]

theorem bigEndian_reverse (b : Bytes) : bigEndian b.reverse = fromLe b := by
  induction b with
  | nil => rfl
  | cons x b ih =>
    rw [List.reverse_cons, bigEndian_snoc, ih, fromLe]
    omega

theorem head_spec {kind n : Nat} (hk : kind < 8) (hn : n < 2 ^ 64) : Head kind n (head kind n) := by
  have e : ∀ i, i < 32 → (UInt8.ofNat (kind * 32 + i)).toNat / 32 = kind ∧ (UInt8.ofNat (kind * 32 + i)).toNat % 32 = i := by
    intro i hi
    rw [toNat_lt (by omega)]
    omega
  have hb : ∀ w, n < 256 ^ w → bigEndian (be w n) = n := by
    intro w hw
    rw [be, bigEndian_reverse, fromLe_le_of_lt hw]
  unfold head
  (repeat' split)
  · exact ⟨_, _, rfl, (e n (by omega)).1, .inl ⟨by omega, (e n (by omega)).2, rfl⟩⟩
  · exact ⟨_, _, rfl, (e 24 (by omega)).1, .inr ⟨hb 1 (by omega), .inl ⟨by omega, by omega, (e 24 (by omega)).2, be_length _ _⟩⟩⟩
  · exact ⟨_, _, rfl, (e 25 (by omega)).1, .inr ⟨hb 2 (by omega), .inr (.inl ⟨by omega, by omega, (e 25 (by omega)).2, be_length _ _⟩)⟩⟩
  · exact ⟨_, _, rfl, (e 26 (by omega)).1, .inr ⟨hb 4 (by omega), .inr (.inr (.inl ⟨by omega, by omega, (e 26 (by omega)).2, be_length _ _⟩))⟩⟩
  · exact ⟨_, _, rfl, (e 27 (by omega)).1, .inr ⟨hb 8 (by omega), .inr (.inr (.inr ⟨by omega, by omega, (e 27 (by omega)).2, be_length _ _⟩))⟩⟩

theorem cbor_text {t : Bytes} (h : t.length < 2 ^ 64) : Cbor (.text t) (text t) := .text (head_spec (by omega) h)

theorem cbor_byteList {b : Bytes} (h : b.length < 2 ^ 64) : Cbor (Item.ofByteList b) (byteList b) := by
  refine .array (by rw [List.length_map]; exact head_spec (by omega) h) ?_
  clear h
  induction b with
  | nil => exact .nil
  | cons x b ih =>
    rw [List.map_cons, List.flatMap_cons]
    exact .cons (.uint (head_spec (by omega) (by have := x.toNat_lt; omega))) ih

theorem cbor_spec {v : Spec} (h : ∀ b, v = .obj b → b.length = 32) : Cbor (Item.ofSpec v) (encSpec v) := by
  cases v with
  | zero => exact cbor_text (t := tZero) (by decide)
  | obj b =>
    have hb := h b rfl
    show Cbor _ (head 5 1 ++ text tSome ++ bytes b)
    have := Cbor.map (l := [(.text tSome, .bytes b)]) (head_spec (kind := 5) (n := 1) (by omega) (by omega))
      (.cons (cbor_text (by decide)) (.bytes (head_spec (kind := 2) (by omega) (by omega))) .nil)
    rw [List.append_nil] at this
    rw [List.append_assoc]
    exact this

/-- **C99** The index is CBOR: a map from the stripes' numbers to `"Zero"` or to `{"Some": hash}`. -/
theorem C99_map_cbor {m : List (Nat × Spec)} (hm : MapInRange m) (hl : m.length < 2 ^ 64) : Cbor (Item.ofMap m) (encMap m) := by
  refine .map (by rw [List.length_map]; exact head_spec (by omega) hl) ?_
  clear hl
  induction m with
  | nil => exact .nil
  | cons kv m ih =>
    rw [List.map_cons, List.flatMap_cons, List.append_assoc]
    exact .cons (.uint (head_spec (by omega) (hm kv (by simp)).1)) (cbor_spec fun b hb => (hm kv (by simp)).2 b hb)
      (ih fun kv' h => hm kv' (by simp [h]))

/-- **C99** The file of the index is CBOR: a map of its five fields by name, the tag as a byte string, the domain and the ciphertext as lists of
numbers. -/
theorem C99_file_cbor {f : MapFile} (hf : f.InRange) (hl : f.ciphertext.length < 2 ^ 64) : Cbor (Item.ofFile f) (encFile f) := by
  have ht := hf.tag
  have := Cbor.map (l := [(.text tDomain, Item.ofByteList f.domain), (.text tVersion, .uint f.version),
      (.text tCiphertext, Item.ofByteList f.ciphertext), (.text tPlaintextLen, .uint f.plaintextLen), (.text tHmacTag, .bytes f.tag)])
    (head_spec (kind := 5) (n := 5) (by omega) (by omega))
    (.cons (cbor_text (by decide)) (cbor_byteList hf.domain) (.cons (cbor_text (by decide)) (.uint (head_spec (by omega) (by have := hf.version; omega)))
      (.cons (cbor_text (by decide)) (cbor_byteList hl) (.cons (cbor_text (by decide)) (.uint (head_spec (by omega) hf.len))
        (.cons (cbor_text (by decide)) (.bytes (head_spec (kind := 2) (by omega) (by omega))) .nil)))))
  rw [List.append_nil] at this
  exact this

theorem decimal_dec (n : Nat) : Decimal n (dec n) := by
  obtain ⟨h1, h2, h3, h4, h5⟩ := dec_digits n
  refine ⟨h1, fun x hx => by simpa [isDigit] using h2 x hx, h3, fun hx => ?_⟩
  have hn := h4 hx
  subst hn
  simp [dec]

theorem sym_plain' {n : Nat} (h : n < 64) : plain (Base64.sym n) := by
  have : ∀ n : Fin 64, 32 ≤ (Base64.sym n).toNat ∧ (Base64.sym n).toNat < 127 ∧ Base64.sym n ≠ 34 ∧ Base64.sym n ≠ 92 := by decide
  exact this ⟨n, h⟩

theorem pad_plain : plain Base64.pad := by unfold plain; decide

theorem encode_plain' : ∀ (b : Bytes), ∀ x ∈ Base64.encode b, plain x
  | [], x, hx => by cases hx
  | [a], x, hx => by
    have := a.toNat_lt
    simp only [Base64.encode, List.mem_cons, List.not_mem_nil, or_false] at hx
    rcases hx with rfl | rfl | rfl | rfl
    · exact sym_plain' (by omega)
    · exact sym_plain' (by omega)
    · exact pad_plain
    · exact pad_plain
  | [a, b], x, hx => by
    have := a.toNat_lt
    have := b.toNat_lt
    simp only [Base64.encode, List.mem_cons, List.not_mem_nil, or_false] at hx
    rcases hx with rfl | rfl | rfl | rfl
    · exact sym_plain' (by omega)
    · exact sym_plain' (by omega)
    · exact sym_plain' (by omega)
    · exact pad_plain
  | a :: b :: c :: r, x, hx => by
    have := a.toNat_lt
    have := b.toNat_lt
    have := c.toNat_lt
    simp only [Base64.encode, List.mem_cons] at hx
    rcases hx with rfl | rfl | rfl | rfl | hx
    · exact sym_plain' (by omega)
    · exact sym_plain' (by omega)
    · exact sym_plain' (by omega)
    · exact sym_plain' (by omega)
    · exact encode_plain' r x hx

instance (x : UInt8) : Decidable (plain x) := by unfold plain; infer_instance

theorem json_level {l : Nat} (h : l < 2 ^ 32) : JsonText (.num (signed32 l)) (level l) := by
  unfold signed32 level
  by_cases hl : l < 2 ^ 31
  · rw [if_pos hl, if_neg (by omega)]
    exact .nat (decimal_dec l)
  · rw [if_neg hl, if_pos (by omega)]
    have : (l : Int) - 2 ^ 32 = -((2 ^ 32 - l : Nat) : Int) := by omega
    rw [this]
    exact .neg (by omega) (decimal_dec _)

theorem json_comp {c : Comp} (h : ∀ l, c = .zstd l → l < 2 ^ 32) : JsonText (Json.ofComp c) (comp c) := by
  cases c with
  | none => exact .str (b := ascii8 "none") (by decide)
  | zstd l =>
    have h1 := JsonText.obj (.one (k := ascii8 "level") (by decide) (json_level (h l rfl)))
    have h2 := JsonText.obj (.one (k := ascii8 "zstd") (by decide) h1)
    have e : comp (.zstd l) = [123] ++ ([34] ++ ascii8 "zstd" ++ [34, 58] ++ ([123] ++ ([34] ++ ascii8 "level" ++ [34, 58] ++ level l) ++ [125])) ++ [125] := by
      show jZstd ++ (level l ++ ascii "}}") = _
      generalize level l = t
      have : jZstd = [123] ++ [34] ++ ascii8 "zstd" ++ [34, 58] ++ [123] ++ [34] ++ ascii8 "level" ++ [34, 58] := by decide
      have h3 : ascii "}}" = [125] ++ [125] := by decide
      rw [this, h3]
      simp only [List.append_assoc]
    rw [e]
    exact h2

/-- **C99** The description is JSON: an object of the six fields by name, in this order; the compression is `"none"` or
`{"zstd":{"level":…}}`, keys and the tag are strings of base64, a missing key is `null`. -/
theorem C99_meta_json {m : AMeta} (hm : m.InRange) : ∃ j, IsMeta m j ∧ JsonText j (encMeta m) := by
  have hk : ∃ key, (match m.encKey with | none => key = .null | some k => ∃ t, Base64.Denotes t k ∧ key = .str t) ∧ JsonText key (optKey m.encKey) := by
    cases m.encKey with
    | none => exact ⟨.null, rfl, .null⟩
    | some k => exact ⟨_, ⟨_, Base64.denotes_encode k, rfl⟩, .str (encode_plain' k)⟩
  obtain ⟨key, h1, h2⟩ := hk
  refine ⟨_, ⟨key, _, _, h1, Base64.denotes_encode _, Base64.denotes_encode _, rfl⟩, ?_⟩
  have e : encMeta m = [123] ++ ([34] ++ ascii8 "format_version" ++ [34, 58] ++ dec m.version ++ [44] ++
      ([34] ++ ascii8 "stripe_sector_count" ++ [34, 58] ++ dec m.ssc ++ [44] ++
      ([34] ++ ascii8 "encryption_key" ++ [34, 58] ++ optKey m.encKey ++ [44] ++
      ([34] ++ ascii8 "compression" ++ [34, 58] ++ comp m.comp ++ [44] ++
      ([34] ++ ascii8 "hmac_key" ++ [34, 58] ++ ([34] ++ Base64.encode m.hmacKey ++ [34]) ++ [44] ++
      ([34] ++ ascii8 "metadata_hmac" ++ [34, 58] ++ ([34] ++ Base64.encode m.hmac ++ [34]))))))) ++ [125] := by
    unfold encMeta
    generalize dec m.version = a, dec m.ssc = b, optKey m.encKey = c, comp m.comp = d, Base64.encode m.hmacKey = f, Base64.encode m.hmac = g
    have j1 : jVersion = [123] ++ [34] ++ ascii8 "format_version" ++ [34, 58] := by decide
    have j2 : jSsc = [44] ++ [34] ++ ascii8 "stripe_sector_count" ++ [34, 58] := by decide
    have j3 : jKey = [44] ++ [34] ++ ascii8 "encryption_key" ++ [34, 58] := by decide
    have j4 : jComp = [44] ++ [34] ++ ascii8 "compression" ++ [34, 58] := by decide
    have j5 : jHmacKey = [44] ++ [34] ++ ascii8 "hmac_key" ++ [34, 58] ++ [34] := by decide
    have j6 : jHmac = [44] ++ [34] ++ ascii8 "metadata_hmac" ++ [34, 58] ++ [34] := by decide
    have j7 : ascii "}" = [125] := by decide
    rw [j1, j2, j3, j4, j5, j6, j7]
    simp only [List.append_assoc, quote]
  rw [e]
  refine .obj (.cons (by decide) (.nat (decimal_dec _)) (by simp) (.cons (by decide) (.nat (decimal_dec _)) (by simp) (.cons (by decide) h2 (by simp)
    (.cons (by decide) (json_comp hm.level) (by simp) (.cons (by decide) (.str (encode_plain' _)) (by simp) (.one (by decide) (.str (encode_plain' _))))))))

/-! ## It can be read back -/

theorem mapFits_iff (m : List (Nat × Spec)) : mapFits m = true ↔ MapInRange m := by
  unfold mapFits MapInRange
  rw [List.all_eq_true]
  refine forall_congr' fun kv => forall_congr' fun _ => ?_
  cases hv : kv.2 <;> simp

theorem fileFits_iff (f : MapFile) : fileFits f = true ↔ f.InRange := by
  unfold fileFits
  simp only [Bool.and_eq_true, decide_eq_true_eq, beq_iff_eq]
  exact ⟨fun h => ⟨h.1.1.1, h.1.1.2, h.1.2, h.2⟩, fun h => ⟨⟨⟨h.version, h.len⟩, h.domain⟩, h.tag⟩⟩

theorem metaFits_iff (m : AMeta) : metaFits m = true ↔ m.InRange := by
  unfold metaFits
  simp only [Bool.and_eq_true, decide_eq_true_eq]
  constructor
  · rintro ⟨⟨⟨⟨⟨h1, h2⟩, h3⟩, h4⟩, h5⟩, h6⟩
    refine ⟨h1, h2, fun k hk => ?_, fun l hl => ?_, h5, h6⟩
    · rw [hk] at h3; simpa using h3
    · rw [hl] at h4; simpa using h4
  · intro h
    refine ⟨⟨⟨⟨⟨h.version, h.ssc⟩, ?_⟩, ?_⟩, h.hmacKey⟩, h.hmac⟩
    · cases hk : m.encKey with
      | none => rfl
      | some k => simpa using h.key k hk
    · cases hc : m.comp with
      | none => rfl
      | zstd l => simpa using h.level l hc

/-- **C99** What was written is read back, whatever follows it in the case of the index; a description may only be followed by white space. -/
theorem C99_round_trip : (∀ m r, MapInRange m → decMap (encMap m ++ r) = some m) ∧ (∀ f r, MapFile.InRange f → decFile (encFile f ++ r) = some f) ∧
    (∀ m r, AMeta.InRange m → decMeta (encMeta m ++ r) = if ∀ x ∈ r, x ∈ [32, 9, 10, 13] then some m else none) := by
  refine ⟨fun m r h => ?_, fun f r h => ?_, fun m r h => ?_⟩
  · simp only [decMap, (reads_map m).1, (mapFits_iff m).2 h, if_true]
  · simp only [decFile, (reads_file f).1, (fileFits_iff f).2 h, if_true]
  · simp only [decMeta, (reads_meta m).1, (metaFits_iff m).2 h, Bool.and_true]
    have : (r.all jsonWs = true) ↔ ∀ x ∈ r, x ∈ [32, 9, 10, 13] := by
      rw [List.all_eq_true]
      refine forall_congr' fun x => forall_congr' fun _ => ?_
      simp [jsonWs, or_assoc]
    by_cases hr : r.all jsonWs = true
    · rw [if_pos hr, if_pos (this.1 hr)]
    · rw [if_neg hr, if_neg (fun h => hr (this.2 h))]

/-- **C99** Different descriptions, indexes and files are written differently, and none is the beginning of another. -/
theorem C99_no_prefix : (∀ m m' r, encMap m' = encMap m ++ r → m = m' ∧ r = []) ∧ (∀ f f' r, encFile f' = encFile f ++ r → f = f' ∧ r = []) ∧
    (∀ m m' r, encMeta m' = encMeta m ++ r → m = m' ∧ r = []) := by
  have go : ∀ {α : Type} {p : P α} {e : α → Bytes}, (∀ a, Reads p (e a) a) → ∀ a a' r, e a' = e a ++ r → a = a' ∧ r = [] := by
    intro α p e h a a' r he
    have h1 := (h a).1 r
    have h2 := (h a').1 []
    rw [List.append_nil, he, h1] at h2
    simp only [Option.some.injEq, Prod.mk.injEq] at h2
    exact h2
  exact ⟨go reads_map, go reads_file, go reads_meta⟩

/-- **C99** A document cut short, anywhere, is not read. -/
theorem C99_cut : (∀ m k, k < (encMap m).length → decMap ((encMap m).take k) = none) ∧
    (∀ f k, k < (encFile f).length → decFile ((encFile f).take k) = none) ∧ (∀ m k, k < (encMeta m).length → decMeta ((encMeta m).take k) = none) := by
  refine ⟨fun m k h => ?_, fun f k h => ?_, fun m k h => ?_⟩
  · simp only [decMap, (reads_map m).2 k h]
  · simp only [decFile, (reads_file f).2 k h]
  · simp only [decMeta, (reads_meta m).2 k h]

/-- **C99** What is read fits its type: versions 32 bits, counts and lengths 64, hashes and tags 32 bytes. -/
theorem C99_range (b : Bytes) : (∀ m, decMap b = some m → MapInRange m) ∧ (∀ f, decFile b = some f → f.InRange) ∧
    (∀ m, decMeta b = some m → m.InRange) := by
  refine ⟨fun m h => ?_, fun f h => ?_, fun m h => ?_⟩
  · unfold decMap at h
    split at h
    · split at h
      · rename_i hf; cases h; exact (mapFits_iff m).1 hf
      · cases h
    · cases h
  · unfold decFile at h
    split at h
    · split at h
      · rename_i hf; cases h; exact (fileFits_iff f).1 hf
      · cases h
    · cases h
  · unfold decMeta at h
    split at h
    · split at h
      · rename_i hf
        rw [Bool.and_eq_true] at hf
        cases h
        exact (metaFits_iff m).1 hf.2
      · cases h
    · cases h

/-- **C99** With these formats, what `Model/Archive` assumes of the libraries is only what is assumed of encryption, hashing and compression. -/
theorem C99_lawful {p : Prims} (h : Core p) : (withFormats p).Lawful ∧ (withFormats p).PrefixFree where
  left :=
    { xts := h.xts, aead := h.aead, sha_len := h.sha_len, mac_len := h.mac_len, zdec_zenc := h.zdec_zenc
      decMap_encMap := fun m hm => by have := C99_round_trip.1 m [] hm; rwa [List.append_nil] at this
      decFile_encFile := fun f hf => by have := C99_round_trip.2.1 f [] hf; rwa [List.append_nil] at this
      decMeta_encMeta := fun m hm => by have := C99_round_trip.2.2 m [] hm; rw [List.append_nil, if_pos (by simp)] at this; exact this
      decFile_range := fun b => (C99_range b).2.1
      decMeta_range := fun b => (C99_range b).2.2 }
  right := ⟨C99_cut.2.2, C99_cut.2.1⟩

/-! ## Archives in these formats -/

theorem head_len (kind : Nat) {n : Nat} (h : n < 2 ^ 64) : (head kind n).length ≤ 9 := by
  unfold head
  (repeat' split) <;> simp only [List.length_cons, List.length_nil, be_length] <;> omega

/-- **C99** The index of `n` stripes has at most `9 + 49 * n` bytes. -/
theorem C99_index_size {m : List (Nat × Spec)} (hm : MapInRange m) (hl : m.length < 2 ^ 64) : (encMap m).length ≤ 9 + 49 * m.length := by
  have h : (m.flatMap fun kv => head 0 kv.1 ++ encSpec kv.2).length ≤ 49 * m.length := by
    clear hl
    induction m with
    | nil => simp
    | cons kv m ih =>
      have h1 := ih fun kv' h => hm kv' (by simp [h])
      have h2 := head_len 0 (hm kv (by simp)).1
      have h3 : (encSpec kv.2).length ≤ 40 := by
        cases hv : kv.2 with
        | zero => show (text tZero).length ≤ 40; decide
        | obj b =>
          have hb := (hm kv (by simp)).2 b hv
          show (head 5 1 ++ text tSome ++ bytes b).length ≤ 40
          have e1 : (head 5 1 ++ text tSome).length = 6 := by decide
          have e2 : (bytes b).length = (head 2 b.length).length + b.length := by simp [bytes]
          have e3 : (head 2 32).length = 2 := by decide
          rw [List.length_append, e1, e2, hb, e3]
      rw [List.flatMap_cons, List.length_append, List.length_append, List.length_cons]
      omega
  have h1 := head_len 5 hl
  show (head 5 m.length ++ _).length ≤ _
  rw [List.length_append]
  omega

theorem entries_length (n : Nat) (m : Nat → Option Spec) : (entries n m).length ≤ n := by
  have := List.length_filterMap_le (fun i => (m i).map fun v => (i, v)) (List.range n)
  rwa [List.length_range] at this

/-- A configuration of an archive in these formats, with less than `2 ^ 58` stripes. -/
structure Fits (c : Cfg) (p : Prims) : Prop where
  prims : c.P = withFormats p
  core : Core p
  count : c.count < 2 ^ 58
  ssc : c.ssc < 2 ^ 64
  level : ∀ l, c.comp = .zstd l → l < 2 ^ 32
  keys : ∀ k, c.keys = some k → k.key1.length = 32 ∧ k.key2.length = 32
  hkey : c.hkey.length = 32
  nk : c.nk.length = 12
  nh : c.nh.length = 12

theorem Fits.ok {c : Cfg} {p : Prims} (h : Fits c p) : c.Ok where
  lawful := by rw [h.prims]; exact (C99_lawful h.core).1
  count := by have := h.count; omega
  ssc := h.ssc
  level := h.level
  keys := h.keys
  hkey := h.hkey
  nk := h.nk
  nh := h.nh

theorem Fits.len {c : Cfg} {p : Prims} (h : Fits c p) {st0 : Name → Option Bytes} {s : St} (hi : Inv c st0 s) (hd : s.phase = .done) :
    (c.P.encMap (entries c.count s.hashes)).length < 2 ^ 64 := by
  have h1 := entries_range h.ok (hi.complete (.inr (.inr (.inl hd)))).hashed
  have h2 := entries_length c.count s.hashes
  have h3 := h.count
  have h4 := C99_index_size h1 (by omega)
  rw [h.prims]
  show (encMap _).length < _
  omega

/-- **C99** `C22` without assumptions about formats: a finished archive can be opened with the same KEK and every stripe reads as
it was fetched, or as zeros. -/
theorem C99_restore {c : Cfg} {p : Prims} {st0 : Name → Option Bytes} {ls : List Lab} {s : St} (hc : Fits c p) (h : Run c (St.init c st0) ls s)
    (hd : s.phase = .done) (hn : NoCollision c s) :
    ∃ src, openArchive c.P c.kek s.store = .ok src ∧ src.ssc = c.ssc ∧ ∀ id, id < c.count →
      (shouldArchive c id = .ok true ∧ ∃ buf, Lab.fetched id true buf ∈ ls ∧ buf.length = c.ssc * 512 ∧
        ∀ len, c.ssc * 512 ≤ len → readStripe c.P src s.store id len = .ok (buf ++ zeros (len - c.ssc * 512))) ∨
      (shouldArchive c id = .ok false ∧ (∀ buf, Lab.fetched id true buf ∉ ls) ∧
        ∀ len, readStripe c.P src s.store id len = .ok (zeros len)) :=
  C22_restore hc.ok h hd (hc.len (run_inv h) hd) hn

/-- **C99** What a finished archive has at `metadata.json` is JSON with a version 1, the stripe size and the compression of the run, and a key just
when there is one. What it has at `stripe-mapping` is CBOR with a version 1; the ciphertext in it is the CBOR of the index and zeros up to a whole sector,
encrypted if there is a key. -/
theorem C99_published {c : Cfg} {p : Prims} {st0 : Name → Option Bytes} {ls : List Lab} {s : St} (hc : Fits c p) (h : Run c (St.init c st0) ls s)
    (hd : s.phase = .done) :
    (∃ m j b, s.store metadataName = some b ∧ m.version = 1 ∧ m.ssc = c.ssc ∧ m.comp = c.comp ∧ (m.encKey.isSome = c.keys.isSome) ∧ IsMeta m j ∧
      JsonText j b) ∧
    ∃ f b es t padded, s.store mappingName = some b ∧ f.version = 1 ∧ Cbor (Item.ofFile f) b ∧ Cbor (Item.ofMap es) t ∧
      (∀ id v, (id, v) ∈ es ↔ id < c.count ∧ s.hashes id = some v) ∧ f.plaintextLen = t.length ∧
      padded = t ++ zeros ((512 - t.length % 512) % 512) ∧ (c.keys = none → f.ciphertext = padded) ∧
      ∀ k, c.keys = some k → Crypt.encrypt p.xts k padded mapSector (padded.length / 512) = .ok f.ciphertext := by
  have hi := run_inv h
  have hl := hc.len hi hd
  obtain ⟨m, hm, hst, -⟩ := hi.metaDone (.inr hd)
  obtain ⟨b, hb, hbs, -⟩ := hi.mapDone hd
  have hr := entries_range hc.ok (hi.complete (.inr (.inr (.inl hd)))).hashed
  obtain ⟨h1, h2, h3, h4, h5, h6, h7, h8⟩ := archiveMeta_ok hc.ok hm
  obtain ⟨j, j1, j2⟩ := C99_meta_json h4
  have hP := hc.prims
  have he := entries_length c.count s.hashes
  have hcount := hc.count
  have hsz := C99_index_size hr (by omega)
  refine ⟨⟨m, j, _, hst, h1, h2, h3, ?_, j1, by rw [hP]; exact j2⟩, ?_⟩
  · cases hk : c.keys with
    | none => rw [h7 hk]; rfl
    | some k => obtain ⟨e, he, -⟩ := h8 k hk; rw [he]; rfl
  · have hmem : ∀ id v, (id, v) ∈ entries c.count s.hashes ↔ id < c.count ∧ s.hashes id = some v := by
      intro id v
      simp only [entries, List.mem_filterMap, List.mem_range, Option.map_eq_some_iff]
      constructor
      · rintro ⟨i, g1, v', g2, g3⟩
        cases g3
        exact ⟨g1, g2⟩
      · rintro ⟨g1, g2⟩
        exact ⟨id, g1, v, g2, rfl⟩
    unfold serializeMapping at hb
    simp only at hb
    split at hb
    · cases hb
    · rename_i ct hct
      simp only [Except.ok.injEq] at hb
      have hf : MapFile.InRange
          (MapFile.mk mapDomain 1 ct (c.P.encMap (entries c.count s.hashes)).length
            (c.P.mac c.hkey (mapInput mapDomain 1 (c.P.encMap (entries c.count s.hashes)).length ct))) :=
        ⟨by show 1 < 2 ^ 32; decide, hl, by show mapDomain.length < 2 ^ 64; decide, hc.ok.lawful.mac_len _ _⟩
      have hct' : ct.length = (padToSector (c.P.encMap (entries c.count s.hashes))).length := by
        cases hk : c.keys with
        | none => rw [hk] at hct; simp only [maybeCrypt, Except.ok.injEq] at hct; rw [hct]
        | some k =>
          rw [hk] at hct
          simp only [maybeCrypt] at hct
          exact (decrypt_encrypt hc.ok.lawful.xts (padToSector_length _) (liftCrypt_ok hct)).1
      have hlen : ct.length < 2 ^ 64 := by
        rw [hct', hP, padToSector]
        show (encMap _ ++ zeros ((512 - (encMap _).length % 512) % 512)).length < _
        rw [List.length_append, zeros_length]
        omega
      refine ⟨MapFile.mk mapDomain 1 ct _ (c.P.mac c.hkey (mapInput mapDomain 1 (c.P.encMap (entries c.count s.hashes)).length ct)), b, _, _, padToSector (encMap (entries c.count s.hashes)), hbs, rfl, ?_, C99_map_cbor hr (by omega), hmem, congrArg (fun q : Prims => (q.encMap _).length) hP, rfl,
        fun hk => ?_, fun k hk => ?_⟩
      · subst hb
        have := C99_file_cbor hf hlen
        rw [hP] at this ⊢
        exact this
      · rw [hk] at hct
        simp only [maybeCrypt, Except.ok.injEq] at hct
        simp only [← hct, hP]
        rfl
      · rw [hk, hP] at hct
        simp only [maybeCrypt] at hct
        exact liftCrypt_ok hct

/-- **C99** What is left of a process that died while it archived into the place of a finished archive is, also in these formats, no archive, the
old one or the new one: the assumption of `C71` that a document cut short is not read holds of them. -/
theorem C99_never_mixed {c c' : Cfg} {p : Prims} {st0 st : Name → Option Bytes} {ls ls' : List Lab} {s s' : St} (hp : c.P = withFormats p) (hc : Core p)
    (h : Twice c st0 ls s c' ls' s') (hL : Left s' st) :
    Unopenable c.P c.kek st ∨ PresentsOrFails c ls c.kek st ∨ Presents c' ls' c.kek st :=
  C71_never_mixed h (by rw [hp]; exact (C99_lawful hc).2) hL

/-! ## Concrete cases -/

/-- The empty index is the byte of the empty map; the index of one stripe of zeros and one with data. -/
example : encMap [] = [0xa0] ∧ encMap [(5, .zero), (300, .obj (zeros 32))] =
    [0xa2, 5, 0x64, 0x5a, 0x65, 0x72, 0x6f, 0x19, 1, 44, 0xa1, 0x64, 0x53, 0x6f, 0x6d, 0x65, 0x58, 32] ++ zeros 32 := by decide

/-- A description, as it is written. -/
example : encMeta { version := 1, ssc := 2048, encKey := none, comp := .zstd 3, hmacKey := [1, 2, 3], hmac := [255] } =
    ascii8 "{\"format_version\":1,\"stripe_sector_count\":2048,\"encryption_key\":null,\"compression\":{\"zstd\":{\"level\":3}},\"hmac_key\":\"AQID\",\"metadata_hmac\":\"/w==\"}" := by
  decide +kernel

/-- Level -5 is written as such. -/
example : comp (.zstd (2 ^ 32 - 5)) = ascii8 "{\"zstd\":{\"level\":-5}}" ∧ signed32 (2 ^ 32 - 5) = -5 := by decide +kernel

/-- The hypotheses of `C99_map_cbor`, `C99_index_size` and `C99_round_trip` are met. -/
example : MapInRange [(5, .zero), (300, .obj (zeros 32))] := by
  intro kv h
  simp only [List.mem_cons, List.not_mem_nil, or_false] at h
  rcases h with rfl | rfl
  · exact ⟨by decide, fun h e => by cases e⟩
  · refine ⟨by decide, fun h e => ?_⟩
    cases e
    rfl

theorem toyP_core : Core toyP := ⟨toyP_lawful.xts, toyP_lawful.aead, toyP_lawful.sha_len, toyP_lawful.mac_len, toyP_lawful.zdec_zenc⟩

/-- The volume of `demoCfg`, archived in these formats. -/
noncomputable def fmtCfg : Cfg := { demoCfg with P := withFormats toyP }

theorem fmt_fits : Fits fmtCfg toyP where
  prims := rfl
  core := toyP_core
  count := by show 3 < 2 ^ 58; decide
  ssc := by show 1 < 2 ^ 64; decide
  level := by simp [fmtCfg, demoCfg]
  keys := by simp [fmtCfg, demoCfg]
  hkey := by simp [fmtCfg, demoCfg]
  nk := by simp [fmtCfg, demoCfg]
  nh := by simp [fmtCfg, demoCfg]

theorem fmt_made : makeObject fmtCfg 0 demoBuf = .ok (some demoBuf) := by
  simp [makeObject, demoBuf, fmtCfg, demoCfg, compress, maybeEncrypt, maybeCrypt]

theorem fmt_zero : makeObject fmtCfg 2 (zeros 512) = .ok none := by
  have : (zeros 512).all (· == 0) = true := by simp [zeros]
  simp only [makeObject, this, if_true]

theorem fmt_run (st0 : Name → Option Bytes) : ∃ ls s, Run fmtCfg (St.init fmtCfg st0) ls s ∧ s.phase = .done ∧
    s.got = upd (upd (fun _ => none) 2 (some (zeros 512))) 0 (some demoBuf) := by
  obtain ⟨b, hb⟩ : ∃ b, serializeMapping fmtCfg.P
      (entries fmtCfg.count (upd (upd (fun _ => none) 2 (some .zero)) 0 (some (.obj (fmtCfg.P.sha demoBuf))))) fmtCfg.hkey
        fmtCfg.keys = .ok b := ⟨_, rfl⟩
  obtain ⟨m, hm⟩ : ∃ m, archiveMeta fmtCfg = .ok m := ⟨_, rfl⟩
  have t0 : Run fmtCfg (St.init fmtCfg st0) [] (St.init fmtCfg st0) := .nil _
  have t1 := t0.snoc (.start _ rfl (by simp [fmtCfg, demoCfg, St.init]) rfl (by simp [fmtCfg, demoCfg, St.init]) true)
  have t2 := t1.snoc (.skip _ rfl (by simp [fmtCfg, demoCfg, St.init]) rfl)
  have t3 := t2.snoc (.start _ rfl (by simp [fmtCfg, demoCfg, St.init]) rfl (by simp [fmtCfg, demoCfg, St.init]) true)
  simp only [if_true, St.init] at t3
  have t4 := t3.snoc (.fetchDone _ rfl 2 (by simp) true (zeros 512) (by simp [fmtCfg, demoCfg]))
  simp only [if_true, upload, fmt_zero] at t4
  rw [if_neg (by simp)] at t4
  simp only at t4
  have t5 := t4.snoc (.fetchDone _ rfl 0 (by simp) true demoBuf (by simp [fmtCfg, demoCfg, demoBuf]))
  simp only [if_true, upload, fmt_made] at t5
  rw [if_neg (by simp)] at t5
  simp only [List.not_mem_nil, if_false, St.startPut] at t5
  have t6 := t5.snoc (.exec _ [] [] _ _ _ rfl)
  have t7 := t6.snoc (.putDone _ rfl [] [] _ _ true true rfl (fun _ => rfl))
  simp only [List.nil_append, decide_true, Nat.zero_add, Nat.zero_lt_one, Bool.and_self, if_true] at t7
  have t8 := t7.snoc (.finish _ rfl rfl (by simp) rfl)
  simp only [finish, hb, hm, St.startPut] at t8
  have t9 := t8.snoc (.exec _ [] [] _ _ _ rfl)
  have t10 := t9.snoc (.metaDone _ rfl [] [] _ true true rfl (fun _ => rfl))
  simp only [if_true, publish, hb, St.startPut, List.nil_append] at t10
  have t11 := t10.snoc (.exec _ [] [] _ _ _ rfl)
  have t12 := t11.snoc (.mapDone _ rfl [] [] _ true true rfl (fun _ => rfl))
  exact ⟨_, _, t12, rfl, rfl⟩

/-- The hypotheses of `C99_restore` and `C99_published` are met. -/
example : ∃ ls s, Fits fmtCfg toyP ∧ Run fmtCfg (St.init fmtCfg fun _ => none) ls s ∧ s.phase = .done ∧ NoCollision fmtCfg s := by
  obtain ⟨ls, s, h1, h2, h3⟩ := fmt_run fun _ => none
  have hm : ∀ o, Made fmtCfg s o → o = demoBuf := by
    rintro o ⟨id, buf, g1, g2⟩
    rw [h3] at g1
    simp only [upd] at g1
    split at g1
    · rename_i h; simp only [Option.some.injEq] at g1; subst g1; subst h; rw [fmt_made] at g2; simpa using g2.symm
    · split at g1
      · rename_i h; simp only [Option.some.injEq] at g1; subst g1; subst h; rw [fmt_zero] at g2; simp at g2
      · simp at g1
  exact ⟨ls, s, fmt_fits, h1, h2, fun o o' g g' _ => by rw [hm o g, hm o' g']⟩

end Verif.Formats
