import Verif.Proof.ArchiveDemo
import Mathlib.Data.Fintype.Card

/-! # C22–C27: archives -/

set_option maxRecDepth 8000

namespace Verif.Archive
open Verif Verif.Crypt Verif.Disk

variable {c : Cfg} {s : St} {st0 : Name → Option Bytes} {ls : List Lab}

/-! ## C26: compression framing -/

/-- **C26** Removing the frame gives the compressed bytes back; the framed length is a multiple of the sector size. -/
theorem C26_frame_round_trip {z f : Bytes} (h : frame z = .ok f) : unframe f = .ok z ∧ f.length % 512 = 0 :=
  ⟨unframe_frame h, frame_length h⟩

/-- **C26** Framing fails only for payloads of 4 GiB or more. -/
theorem C26_frame_total (z : Bytes) : (∃ f, frame z = .ok f) ↔ z.length < 2 ^ 32 := by
  constructor
  · rintro ⟨f, h⟩; exact (frame_ok h).1
  · intro h; exact ⟨_, if_pos h⟩

/-- **C26** A frame is accepted exactly when it has a header and the size in it fits the body; what is returned is then
the body's first bytes, as many as the header says. -/
theorem C26_unframe_iff (d z : Bytes) :
    unframe d = .ok z ↔ 4 ≤ d.length ∧ fromLe (d.take 4) + 4 ≤ d.length ∧ z = (d.drop 4).take (fromLe (d.take 4)) := by
  simp only [unframe, slice]
  split
  · simp; omega
  · split
    · simp; omega
    · simp only [Except.ok.injEq]
      constructor
      · rintro rfl; exact ⟨by omega, by omega, rfl⟩
      · rintro ⟨_, _, rfl⟩; rfl

/-- **C26** Decompression inverts compression, for both settings. -/
theorem C26_decompress_compress {P : Prims} (hP : P.Lawful) {k : Comp} {d z : Bytes} (h : compress P k d = .ok z) :
    decompress P k z = .ok d := (decompress_compress hP h).1

example : unframe (le 4 3 ++ [7, 8, 9, 0, 0]) = .ok [7, 8, 9] := by rfl
example : unframe (le 4 6 ++ [7, 8, 9, 0, 0]) = .error .archive := by rfl
example : ∃ f, frame [1, 2, 3] = .ok f ∧ f.length = 512 := ⟨_, rfl, by simp⟩

/-! ## C25: authenticated encodings -/

/-- **C25** Two archive descriptions with the same authenticated bytes agree in every authenticated field. -/
theorem C25_metadata_injective {a b : AMeta} (ha : a.InRange) (hb : b.InRange) (h : metaInput a = metaInput b) :
    a.version = b.version ∧ a.ssc = b.ssc ∧ a.encKey = b.encKey ∧ a.comp = b.comp := metaInput_inj ha hb h

/-- **C25** The authenticated bytes of a mapping determine version, length and contents, and are never those of a
description. -/
theorem C25_mapping_injective {v v' n n' : Nat} {p p' : Bytes} (h1 : v < 2 ^ 32) (h2 : v' < 2 ^ 32) (h3 : n < 2 ^ 64)
    (h4 : n' < 2 ^ 64) (m : AMeta) :
    (mapInput mapDomain v n p = mapInput mapDomain v' n' p' → v = v' ∧ n = n' ∧ p = p') ∧
      metaInput m ≠ mapInput mapDomain v n p :=
  ⟨mapInput_inj h1 h2 h3 h4, metaInput_ne_mapInput m v n p⟩

/-- The ambiguity a missing length prefix would allow: same bytes for key and rest split differently. Here the encodings
differ, as C25 says. -/
example : metaInput ⟨1, 8, some [0], .none, [], []⟩ ≠ metaInput ⟨1, 8, some [], .none, [], []⟩ := by decide

/-! ## C24: the index comes last -/

/-- **C24** No object is uploaded twice, whatever the pattern of duplicates. -/
theorem C24_uploaded_once (h : Run c (St.init c st0) ls s) : s.log.Nodup := (run_inv h).base.nodup

/-- **C24** From the moment the index (`stripe-mapping`) is handed to the store, every object it names is in the store
with the contents it was hashed from, and it names every stripe to be archived. -/
theorem C24_index_last (h : Run c (St.init c st0) ls s) (hm : mappingName ∈ s.log) :
    (∀ id hash, s.hashes id = some (.obj hash) → ∃ o, s.store (objectKey hash) = some o ∧ c.P.sha o = hash) ∧
    (∀ id, id < c.count → shouldArchive c id = .ok true → s.hashes id ≠ none) ∧
    ∀ b x, (mappingName, b, x) ∈ s.puts → serializeMapping c.P (entries c.count s.hashes) c.hkey c.keys = .ok b := by
  have hi := run_inv h
  have hc := hi.complete (.inr (.inr (.inr hm)))
  refine ⟨fun id hash hid => ?_, fun id hid => (hc.all id hid).2, hi.base.mapPut⟩
  obtain ⟨o, h1, -, h2⟩ := hc.stored id hash hid
  exact ⟨o, h2, h1⟩

/-- A failed read of a stripe, or a failed upload of one. -/
def Lab.isFailure : Lab → Prop
  | .fetched _ ok _ => ok = false
  | .uploaded n ok => ok = false ∧ n ≠ mappingName
  | .tau => False

/-- **C24** After a failed read or upload the index is never handed to the store, and the store keeps whatever index it
had before. -/
theorem C24_failure_aborts (h : Run c (St.init c st0) ls s) (hf : ∃ l ∈ ls, l.isFailure) :
    s.phase = .failed ∧ mappingName ∉ s.log ∧ s.store mappingName = st0 mappingName := by
  suffices ha : Aborted s from ⟨ha.1, ha.2, (run_inv h).base.storeLog _ ha.2⟩
  induction h with
  | nil => simp at hf
  | @snoc s' s'' ls l h1 h2 ih =>
    obtain ⟨l', hl, hf⟩ := hf
    rcases List.mem_append.1 hl with hl | hl
    · exact step_aborted h2 (ih ⟨l', hl, hf⟩)
    · simp only [List.mem_singleton] at hl
      subst hl
      have hi := run_inv h1
      cases h2 with
      | fetchDone hr id hid ok buf hb =>
        simp only [Lab.isFailure] at hf
        subst hf
        exact ⟨rfl, hi.nomap (.inl hr)⟩
      | putDone hr a b n d x ok h hx =>
        simp only [Lab.isFailure] at hf
        obtain ⟨rfl, -⟩ := hf
        exact ⟨rfl, hi.nomap (.inl hr)⟩
      | metaDone hr a b d x ok h hx =>
        simp only [Lab.isFailure] at hf
        obtain ⟨rfl, -⟩ := hf
        exact ⟨rfl, hi.nomap (.inr hr)⟩
      | mapDone hr a b d x ok h hx =>
        simp only [Lab.isFailure] at hf
        exact absurd rfl hf.2
      | _ => simp [Lab.isFailure] at hf

/-! ## C22: archive, then restore -/

theorem got_iff (h : Run c (St.init c st0) ls s) (id : Nat) (buf : Bytes) :
    s.got id = some buf ↔ Lab.fetched id true buf ∈ ls := by
  induction h with
  | nil => simp [St.init]
  | @snoc s' s'' ls l h1 h2 ih =>
    have hi := run_inv h1
    cases h2 with
    | fetchDone hr id' hid ok buf' hb =>
      cases ok with
      | false => simp [St.fail, ih]
      | true =>
        have hg := ((hi.running hr).1.fetching id' hid).2.2
        simp only [if_true, List.mem_append, List.mem_singleton, Lab.fetched.injEq, true_and]
        by_cases he : id = id'
        · subst he
          rw [hg] at ih
          simp only [upd_same, Option.some.injEq, true_and]
          constructor
          · intro e; exact .inr e.symm
          · rintro (e | e)
            · exact absurd (ih.2 e) (by simp)
            · exact e.symm
        · simp [upd_ne _ _ he, ih, he]
    | start hr hn h hf submitOk => cases submitOk <;> simp [St.fail, ih]
    | putDone hr a b n d x ok h hx => split <;> simp [St.fail, ih]
    | finish hr hn hf hi0 =>
      unfold finish
      split
      · simp [St.fail, ih]
      · split <;> simp [St.fail, St.startPut, ih]
    | metaDone hr a b d x ok h hx =>
      cases ok with
      | false => simp [St.fail, ih]
      | true =>
        simp only [if_true, publish]
        split <;> simp [St.fail, St.startPut, ih]
    | mapDone hr a b d x ok h hx => cases ok <;> simp [St.fail, ih]
    | _ => simp [St.fail, ih]

/-- Sizes that the types and key generation guarantee. -/
structure Cfg.Ok (c : Cfg) : Prop where
  lawful : c.P.Lawful
  count : c.count ≤ 2 ^ 64
  ssc : c.ssc < 2 ^ 64
  level : ∀ l, c.comp = .zstd l → l < 2 ^ 32
  keys : ∀ k, c.keys = some k → k.key1.length = 32 ∧ k.key2.length = 32
  hkey : c.hkey.length = 32
  nk : c.nk.length = 12
  nh : c.nh.length = 12

theorem liftCrypt_ok {α} {r : Except Crypt.Err α} {a : α} (h : liftCrypt r = .ok a) : r = .ok a := by
  unfold liftCrypt at h
  split at h <;> simp_all

theorem wrapped_len {g : Aead} (hg : g.Lawful) {kek : Kek} {nonce pt ct : Bytes} (hn : nonce.length = 12)
    (h : kek.encryptData g nonce pt = .ok ct) : ct.length ≤ pt.length + 28 := by
  unfold Kek.encryptData at h
  cases hm : kek.method with
  | none => simp only [hm, Except.ok.injEq] at h; subst h; omega
  | aes256Gcm =>
    simp only [hm, bind, Except.bind] at h
    cases hc : kek.context with
    | error e => simp [hc] at h
    | ok ka => simp only [hc] at h; have := (gcm_round_trip hg hn h).2; omega

/-- What the published description says. -/
theorem archiveMeta_ok (hc : c.Ok) {m : AMeta} (h : archiveMeta c = .ok m) :
    m.version = 1 ∧ m.ssc = c.ssc ∧ m.comp = c.comp ∧ m.InRange ∧ m.hmac = c.P.mac c.hkey (metaInput m) ∧
    unwrapHmacKey c.P c.kek m = .ok c.hkey ∧
    (c.keys = none → m.encKey = none) ∧
    (∀ k, c.keys = some k → ∃ e, m.encKey = some e ∧ Keys.unwrap c.P.aead c.kek e = .ok k) := by
  have hP := hc.lawful
  simp only [archiveMeta] at h
  cases hh : liftCrypt (c.kek.encryptData c.P.aead c.nh c.hkey) with
  | error e =>
    rw [hh] at h
    split at h <;> simp at h
  | ok hk =>
    rw [hh] at h
    have hh := liftCrypt_ok hh
    have hw := C21_unwrap_wrap hP.aead hc.nh hh
    have hl := wrapped_len hP.aead hc.nh hh
    cases hk' : c.keys with
    | none =>
      simp only [hk', Except.ok.injEq] at h
      subst h
      refine ⟨rfl, rfl, rfl, ⟨by show 1 < 2 ^ 32; decide, hc.ssc, by simp, hc.level, ?_, ?_⟩, rfl, ?_, by simp, by simp⟩
      · rw [hc.hkey] at hl; simp only; omega
      · simp only [hP.mac_len]; decide
      · simp only [unwrapHmacKey, hw, liftCrypt, hc.hkey, if_true]
    | some k =>
      obtain ⟨k1, k2⟩ := hc.keys k hk'
      simp only [hk'] at h
      cases hwk : liftCrypt (k.wrap c.P.aead c.kek c.nk) with
      | error e => simp [hwk] at h
      | ok b =>
        simp only [hwk, Except.ok.injEq] at h
        subst h
        have hwk := liftCrypt_ok hwk
        have hnew : Keys.new k.key1 k.key2 = .ok k := by
          simp [Keys.new, ensure32, k1, k2, bind, Except.bind, pure, Except.pure]
        have hu := (C21_disk_key (kek := c.kek) hP.aead hc.nk hc.nk hnew).2 b hwk
        have hl2 := wrapped_len hP.aead hc.nk hwk
        simp only [List.length_append, k1, k2] at hl2
        refine ⟨rfl, rfl, rfl, ⟨by show 1 < 2 ^ 32; decide, hc.ssc, ?_, hc.level, ?_, ?_⟩, rfl, ?_, by simp, ?_⟩
        · intro k' e; simp only [Option.some.injEq] at e; subst e; omega
        · rw [hc.hkey] at hl; simp only; omega
        · simp only [hP.mac_len]; decide
        · simp only [unwrapHmacKey, hw, liftCrypt, hc.hkey, if_true]
        · intro k' e; simp only [Option.some.injEq] at e; subst e; exact ⟨b, rfl, hu⟩

theorem entries_range (hc : c.Ok) (hh : Hashed c s) : MapInRange (entries c.count s.hashes) := by
  intro kv hkv
  simp only [entries, List.mem_filterMap, List.mem_range, Option.map_eq_some_iff] at hkv
  obtain ⟨i, hi, v, hv, rfl⟩ := hkv
  refine ⟨Nat.lt_of_lt_of_le hi hc.count, fun h e => ?_⟩
  obtain ⟨buf, -, -, -, h2⟩ := hh i v hv
  obtain ⟨o, -, rfl⟩ := h2 h e
  exact hc.lawful.sha_len o

/-- The reader opens what the archiver published. -/
theorem open_done (hc : c.Ok) (hi : Inv c st0 s) (hd : s.phase = .done)
    (hl : (c.P.encMap (entries c.count s.hashes)).length < 2 ^ 64) :
    openArchive c.P c.kek s.store = .ok { keys := c.keys, table := entries c.count s.hashes, ssc := c.ssc, comp := c.comp } := by
  obtain ⟨m, hm, hst, -⟩ := hi.metaDone (.inr hd)
  obtain ⟨b, hb, hbs, -⟩ := hi.mapDone hd
  have hcomp := hi.complete (.inr (.inr (.inl hd)))
  obtain ⟨h1, h2, h3, h4, h5, h6, h7, h8⟩ := archiveMeta_ok hc hm
  have hdes := mapping_round_trip hc.lawful (entries_range hc hcomp.hashed) hl hb
  have hv : verifyMeta c.P c.hkey m = .ok () := by
    simp only [verifyMeta, verifyTag, h5, hc.lawful.mac_len, ne_eq, not_true_eq_false, if_false, if_true]
  simp only [openArchive, hst, hc.lawful.decMeta_encMeta m h4, h1, ne_eq, not_true_eq_false, if_false, h6, hv, openKeys]
  cases hk : c.keys with
  | none =>
    rw [hk] at hdes
    simp only [h7 hk, hbs, hdes, h2, h3]
  | some k =>
    obtain ⟨e, he, hu⟩ := h8 k hk
    rw [hk] at hdes
    simp only [he, hu, liftCrypt, hbs, hdes, h2, h3]

theorem makeObject_read (hc : c.Ok) {id : Nat} {buf o : Bytes} (h : makeObject c id buf = .ok (some o))
    (table : List (Nat × Spec)) {len : Nat} (hl : buf.length ≤ len) :
    finishFetch c.P { keys := c.keys, table := table, ssc := c.ssc, comp := c.comp } id len o (c.P.sha o) =
      .ok (buf ++ zeros (len - buf.length)) := by
  simp only [makeObject] at h
  split at h
  · simp at h
  · cases hz : compress c.P c.comp buf with
    | error e => simp [hz] at h
    | ok z =>
      simp only [hz] at h
      obtain ⟨d1, d2⟩ := decompress_compress hc.lawful hz
      cases he : maybeEncrypt c id z with
      | error e => simp [he] at h
      | ok o' =>
        simp only [he, Except.ok.injEq, Option.some.injEq] at h
        subst h
        have hdec : maybeDecrypt c.P { keys := c.keys, table := table, ssc := c.ssc, comp := c.comp } id o' = .ok z := by
          simp only [maybeEncrypt, d2, ne_eq, not_true_eq_false, if_false, maybeCrypt] at he
          cases hk : c.keys with
          | none => simp only [hk, Except.ok.injEq] at he; subst he; simp [maybeDecrypt]
          | some k =>
            simp only [hk] at he
            have he := liftCrypt_ok he
            obtain ⟨e1, e2⟩ := decrypt_encrypt hc.lawful.xts d2 he
            simp only [maybeDecrypt, e2, liftCrypt]
            rw [if_neg (by omega)]
        simp only [finishFetch, ne_eq, not_true_eq_false, if_false, hdec, d1]
        rw [if_neg (by omega)]

theorem zeros_of_all {b : Bytes} (h : b.all (· == 0) = true) : b = zeros b.length := by
  induction b with
  | nil => rfl
  | cons x b ih =>
    simp only [List.all_cons, Bool.and_eq_true, beq_iff_eq] at h
    rw [h.1, List.length_cons]
    exact congrArg (List.cons (0 : UInt8)) (ih h.2)

/-- The hash does not collide on the objects of this archive. -/
def NoCollision (c : Cfg) (s : St) : Prop := ∀ o o', Made c s o → Made c s o' → c.P.sha o = c.P.sha o' → o = o'

/-- **C22** Once an archive is finished it can be opened with the same KEK, and reading any stripe of it, into a buffer
of any size not below the stripe size, gives: for a stripe that was fetched, the bytes that were fetched, then zeros; for
a stripe neither written nor in the source, zeros. Every stripe written or in the source was fetched exactly with some
contents. -/
theorem C22_restore (hc : c.Ok) (h : Run c (St.init c st0) ls s) (hd : s.phase = .done)
    (hl : (c.P.encMap (entries c.count s.hashes)).length < 2 ^ 64) (hn : NoCollision c s) :
    ∃ src, openArchive c.P c.kek s.store = .ok src ∧ src.ssc = c.ssc ∧ ∀ id, id < c.count →
      (shouldArchive c id = .ok true ∧ ∃ buf, Lab.fetched id true buf ∈ ls ∧ buf.length = c.ssc * 512 ∧
        ∀ len, c.ssc * 512 ≤ len → readStripe c.P src s.store id len = .ok (buf ++ zeros (len - c.ssc * 512))) ∨
      (shouldArchive c id = .ok false ∧ (∀ buf, Lab.fetched id true buf ∉ ls) ∧
        ∀ len, readStripe c.P src s.store id len = .ok (zeros len)) := by
  have hi := run_inv h
  have hcomp := hi.complete (.inr (.inr (.inl hd)))
  refine ⟨_, open_done hc hi hd hl, rfl, fun id hid => ?_⟩
  obtain ⟨ha, hb⟩ := hcomp.all id hid
  have htab : tableOf (entries c.count s.hashes) id = s.hashes id := by rw [tableOf_entries, if_pos hid]
  rcases ha with ha | ha
  · left
    refine ⟨ha, ?_⟩
    obtain ⟨v, hv⟩ := Option.ne_none_iff_exists'.1 (hb ha)
    obtain ⟨buf, h1, h2, h3, h4⟩ := hcomp.hashed id v hv
    refine ⟨buf, (got_iff h id buf).1 h1, h2, fun len hlen => ?_⟩
    cases v with
    | zero =>
      have hz := h3 rfl
      have hall : buf.all (· == 0) = true := by
        simp only [makeObject] at hz
        split at hz
        · assumption
        · split at hz
          · simp at hz
          · split at hz <;> simp at hz
      have hbz := zeros_of_all hall
      simp only [readStripe, htab, hv]
      rw [hbz, h2]
      simp only [zeros, List.replicate_append_replicate, Except.ok.injEq]
      congr 1; omega
    | obj hash =>
      obtain ⟨o, ho, hs⟩ := h4 hash rfl
      obtain ⟨o', g1, g2, g3⟩ := hcomp.stored id hash hv
      have : o' = o := hn o' o g2 ⟨id, buf, h1, ho⟩ (by rw [g1, hs])
      subst this
      subst hs
      simp only [readStripe, htab, hv, g3]
      rw [makeObject_read hc ho _ (by omega), h2]
  · right
    have hnone : s.hashes id = none := by
      cases hv : s.hashes id with
      | none => rfl
      | some v =>
        have := (hcomp.used id (by simp [hv])).2
        rw [ha] at this; simp at this
    refine ⟨ha, fun buf hb => ?_, fun len => by simp only [readStripe, htab, hnone]⟩
    exact fetched_should h hb ha
where
  fetched_should {c : Cfg} {s : St} {st0 : Name → Option Bytes} {ls : List Lab} {id : Nat} {buf : Bytes}
      (h : Run c (St.init c st0) ls s) (hb : Lab.fetched id true buf ∈ ls) (ha : shouldArchive c id = .ok false) : False := by
    induction h with
    | nil => simp at hb
    | @snoc s' s'' ls l h1 h2 ih =>
      rcases List.mem_append.1 hb with hb | hb
      · exact ih hb
      · simp only [List.mem_singleton] at hb
        subst hb
        cases h2 with
        | fetchDone hr id hid ok buf hb =>
          have := (((run_inv h1).running hr).1.fetching id hid).1
          rw [ha] at this; simp at this

theorem header_bits (x : UInt8) :
    (x &&& Metadata.WRITTEN != 0 || x &&& Metadata.HAS_SOURCE != 0) = (x.toBitVec[1] || x.toBitVec[2]) := by
  obtain ⟨b⟩ := x; revert b; decide +kernel

/-- **C22** Which stripes an archive has: a finished archive holds data for a stripe exactly when bit 1 (written) or bit 2 (in the source)
of the volume's header for it was set. -/
theorem C22_which (hc : c.Ok) (h : Run c (St.init c st0) ls s) (hd : s.phase = .done)
    (hl : (c.P.encMap (entries c.count s.hashes)).length < 2 ^ 64) (hn : NoCollision c s) {id : Nat} (hid : id < c.count) :
    ∃ x, c.headers[id]? = some x ∧ ((∃ buf, Lab.fetched id true buf ∈ ls) ↔ x.toBitVec[1] = true ∨ x.toBitVec[2] = true) := by
  obtain ⟨src, -, -, h3⟩ := C22_restore hc h hd hl hn
  cases hh : c.headers[id]? with
  | none => rcases h3 id hid with ⟨h4, -⟩ | ⟨h4, -⟩ <;> rw [shouldArchive, hh] at h4 <;> cases h4
  | some x =>
    refine ⟨x, rfl, ?_⟩
    rcases h3 id hid with ⟨h4, buf, h5, -⟩ | ⟨h4, h5, -⟩ <;> rw [shouldArchive, hh] at h4 <;> simp only [Except.ok.injEq] at h4 <;>
      rw [header_bits] at h4
    · exact ⟨fun _ => by simpa using h4, fun _ => ⟨buf, h5⟩⟩
    · exact ⟨fun ⟨b, hb⟩ => absurd hb (h5 b), fun g => by simp at h4; rcases g with g | g <;> simp_all⟩

/-! ## C23: tampering -/

/-- The strings the archiver has authenticated with its key: the description and the mapping it published. -/
def Authentic (c : Cfg) (s : St) (msg : Bytes) : Prop :=
  (∃ m, archiveMeta c = .ok m ∧ msg = metaInput m) ∨
  ∃ b f, s.store mappingName = some b ∧ c.P.decFile b = some f ∧ msg = mapInput f.domain f.version f.plaintextLen f.ciphertext

/-- What the adversary who chose `evil` cannot do. -/
structure Honest (c : Cfg) (s : St) (evil : Name → Option Bytes) : Prop where
  /-- If the blob in the stored description opens under the KEK, it is one the archiver sealed: the HMAC key or the disk
  key. -/
  sealed : ∀ b m pt, evil metadataName = some b → c.P.decMeta b = some m → c.kek.decryptData c.P.aead m.hmacKey = .ok pt →
    pt = c.hkey ∨ ∃ k, c.keys = some k ∧ pt = k.key1 ++ k.key2
  /-- Tags found in the stored description and mapping that verify are tags of authentic strings. -/
  metaTag : ∀ b m, evil metadataName = some b → c.P.decMeta b = some m → c.P.mac c.hkey (metaInput m) = m.hmac →
    Authentic c s (metaInput m)
  mapTag : ∀ b f, evil mappingName = some b → c.P.decFile b = some f →
    c.P.mac c.hkey (mapInput f.domain f.version f.plaintextLen f.ciphertext) = f.tag →
    Authentic c s (mapInput f.domain f.version f.plaintextLen f.ciphertext)
  /-- No stored object collides with an archived one. -/
  hash : ∀ n d o, evil (objectKey n) = some d → Made c s o → c.P.sha d = c.P.sha o → d = o

theorem serialized_file (hP : c.P.Lawful) {es : List (Nat × Spec)} {b : Bytes} (hl : (c.P.encMap es).length < 2 ^ 64)
    (h : serializeMapping c.P es c.hkey c.keys = .ok b) :
    ∃ f, c.P.decFile b = some f ∧ f.domain = mapDomain ∧ f.version = 1 ∧ f.InRange := by
  simp only [serializeMapping] at h
  split at h
  · simp at h
  · rename_i ct hct
    simp only [Except.ok.injEq] at h
    subst h
    have hrange : (MapFile.mk mapDomain 1 ct (c.P.encMap es).length
        (c.P.mac c.hkey (mapInput mapDomain 1 (c.P.encMap es).length ct))).InRange :=
      ⟨by show 1 < 2 ^ 32; decide, hl, by show mapDomain.length < 2 ^ 64; decide, hP.mac_len _ _⟩
    exact ⟨_, hP.decFile_encFile _ hrange, rfl, rfl, hrange⟩

/-- **C23** Replace any stored objects by any bytes: opening the archive fails, or every stripe read fails or returns
what the untouched archive returns. -/
theorem C23_tamper (hc : c.Ok) (h : Run c (St.init c st0) ls s) (hd : s.phase = .done)
    (hl : (c.P.encMap (entries c.count s.hashes)).length < 2 ^ 64) {evil : Name → Option Bytes} (he : Honest c s evil) :
    ∃ src, openArchive c.P c.kek s.store = .ok src ∧
      ((∃ e, openArchive c.P c.kek evil = .error e) ∨
       openArchive c.P c.kek evil = .ok src ∧ ∀ id len, (∃ e, readStripe c.P src evil id len = .error e) ∨
          readStripe c.P src evil id len = readStripe c.P src s.store id len) := by
  have hi := run_inv h
  have hP := hc.lawful
  have hcomp := hi.complete (.inr (.inr (.inl hd)))
  have hopen := open_done hc hi hd hl
  obtain ⟨m0, hm0, hst0, -⟩ := hi.metaDone (.inr hd)
  obtain ⟨b0, hb0, hbs0, -⟩ := hi.mapDone hd
  obtain ⟨f0, hf0, hfd, hfv, hfr⟩ := serialized_file hP hl hb0
  obtain ⟨a1, a2, a3, a4, a5, a6, a7, a8⟩ := archiveMeta_ok hc hm0
  refine ⟨_, hopen, ?_⟩
  cases ho : openArchive c.P c.kek evil with
  | error e => exact .inl ⟨e, rfl⟩
  | ok src =>
    right
    -- the description
    simp only [openArchive] at ho
    cases hmb : evil metadataName with
    | none => simp [hmb] at ho
    | some mb =>
    cases hdm : c.P.decMeta mb with
    | none => simp [hmb, hdm] at ho
    | some m =>
    simp only [hmb, hdm] at ho
    split at ho
    · simp at ho
    · rename_i hver
      cases hu : unwrapHmacKey c.P c.kek m with
      | error e => simp [hu] at ho
      | ok hk =>
      simp only [hu] at ho
      cases hv : verifyMeta c.P hk m with
      | error e => simp [hv] at ho
      | ok _ =>
      simp only [hv] at ho
      have hkey : hk = c.hkey := by
        simp only [unwrapHmacKey] at hu
        split at hu
        · simp at hu
        · rename_i k hk1
          split at hu
          · rename_i hk32
            simp only [Except.ok.injEq] at hu
            subst hu
            rcases he.sealed _ _ _ hmb hdm (liftCrypt_ok hk1) with e | ⟨k', e1, e2⟩
            · exact e
            · obtain ⟨l1, l2⟩ := hc.keys k' e1
              rw [e2] at hk32; simp [l1, l2] at hk32
          · simp at hu
      subst hkey
      have htag : c.P.mac c.hkey (metaInput m) = m.hmac := by
        simp only [verifyMeta, verifyTag] at hv
        split at hv
        · simp at hv
        · split at hv
          · assumption
          · simp at hv
      have hm : metaInput m = metaInput m0 := by
        rcases he.metaTag mb m hmb hdm htag with ⟨m', e1, e2⟩ | ⟨b, f, e1, e2, e3⟩
        · rw [hm0] at e1; simp only [Except.ok.injEq] at e1; subst e1; exact e2
        · rw [hbs0] at e1
          simp only [Option.some.injEq] at e1
          subst e1
          rw [hf0] at e2
          simp only [Option.some.injEq] at e2
          subst e2
          rw [hfd] at e3
          exact absurd e3 (metaInput_ne_mapInput _ _ _ _)
      obtain ⟨m1, m2, m3, m4⟩ := metaInput_inj (hP.decMeta_range _ _ hdm) a4 hm
      have hkeys : openKeys c.P c.kek m = .ok c.keys := by
        simp only [openKeys]
        rw [m3]
        cases hk : c.keys with
        | none => simp only [a7 hk]
        | some k => obtain ⟨e, e1, e2⟩ := a8 k hk; simp only [e1, e2, liftCrypt]
      rw [hkeys] at ho
      simp only at ho
      -- the mapping
      cases hbm : evil mappingName with
      | none => simp [hbm] at ho
      | some b =>
      simp only [hbm] at ho
      have hdes : ∀ t, deserializeMapping c.P b c.hkey c.keys = .ok t → t = entries c.count s.hashes := by
        intro t ht
        have hdes0 := mapping_round_trip hP (entries_range hc hcomp.hashed) hl hb0
        simp only [deserializeMapping] at ht hdes0
        cases hdf : c.P.decFile b with
        | none => simp [hdf] at ht
        | some f =>
        simp only [hdf] at ht
        simp only [hf0] at hdes0
        split at ht
        · simp at ht
        · split at ht
          · simp at ht
          · rename_i hdom
            have hdom : f.domain = mapDomain := Classical.byContradiction hdom
            split at ht
            · simp at ht
            · simp only [verifyTag] at ht
              by_cases hmac : c.P.mac c.hkey (mapInput f.domain f.version f.plaintextLen f.ciphertext) = f.tag
              · have hff : f.version = f0.version ∧ f.plaintextLen = f0.plaintextLen ∧ f.ciphertext = f0.ciphertext := by
                  rcases he.mapTag b f hbm hdf hmac with ⟨m', e1, e2⟩ | ⟨b', f', e1, e2, e3⟩
                  · rw [hdom] at e2; exact absurd e2.symm (metaInput_ne_mapInput _ _ _ _)
                  · rw [hbs0] at e1
                    simp only [Option.some.injEq] at e1
                    subst e1
                    rw [hf0] at e2
                    simp only [Option.some.injEq] at e2
                    subst e2
                    rw [hfd, hdom] at e3
                    have hr := hP.decFile_range _ _ hdf
                    exact mapInput_inj hr.version hfr.version hr.len hfr.len e3
                obtain ⟨v1, v2, v3⟩ := hff
                split at hdes0
                · simp at hdes0
                · split at hdes0
                  · simp at hdes0
                  · split at hdes0
                    · simp at hdes0
                    · simp only [verifyTag] at hdes0
                      split at hdes0
                      · simp at hdes0
                      · rw [if_pos hmac] at ht
                        simp only [v2, v3] at ht
                        rw [ht] at hdes0
                        simpa using hdes0
              · rw [if_neg hmac] at ht; simp at ht
      cases hdt : deserializeMapping c.P b c.hkey c.keys with
      | error e => simp [hdt] at ho
      | ok t =>
      have ht := hdes t hdt
      simp only [hdt, Except.ok.injEq] at ho
      rw [ht, m2, m4, a2, a3] at ho
      refine ⟨by rw [← ho], fun id len => ?_⟩
      -- the objects
      simp only [readStripe]
      cases htab : tableOf (entries c.count s.hashes) id with
      | none => exact .inr rfl
      | some v =>
        cases v with
        | zero => exact .inr rfl
        | obj hash =>
          simp only
          have hv : s.hashes id = some (.obj hash) := by
            rw [tableOf_entries] at htab
            split at htab
            · exact htab
            · simp at htab
          obtain ⟨o, g1, g2, g3⟩ := hcomp.stored id hash hv
          simp only [g3]
          cases hev : evil (objectKey hash) with
          | none => exact .inl ⟨_, rfl⟩
          | some d =>
            simp only
            by_cases hsha : c.P.sha d = hash
            · have : d = o := he.hash _ _ _ hev g2 (by rw [hsha, g1])
              subst this; exact .inr rfl
            · left; exact ⟨.archive, by simp only [finishFetch, ne_eq, hsha, not_false_eq_true, if_true]⟩

/-- Without a KEK the HMAC key is in the description in the clear, and nothing ties an archive to its reader: any other
finished archive, made with any keys, is accepted in its place. (So `Honest.sealed` is a real restriction.) -/
theorem C23_no_kek {c' : Cfg} {s' : St} {ls' : List Lab} {st0' : Name → Option Bytes} (hc' : c'.Ok) (hP : c'.P = c.P)
    (hk : c.kek = c'.kek) (h' : Run c' (St.init c' st0') ls' s') (hd' : s'.phase = .done)
    (hl' : (c'.P.encMap (entries c'.count s'.hashes)).length < 2 ^ 64) :
    ∃ src, openArchive c.P c.kek s'.store = .ok src := by
  rw [← hP, hk]
  exact ⟨_, open_done hc' (run_inv h') hd' hl'⟩

/-! ## C27: encryption tweaks -/

/-- Sector `j` of the object made of stripe `id` is encrypted under sector number `x`. -/
def DataTweak (c : Cfg) (s : St) (id j x : Nat) : Prop :=
  ∃ buf o, s.got id = some buf ∧ makeObject c id buf = .ok (some o) ∧ j < o.length / 512 ∧ x = id * c.ssc + j

/-- Sector `j` of the mapping is encrypted under sector number `x`. -/
def MapTweak (c : Cfg) (s : St) (j x : Nat) : Prop :=
  j < (padToSector (c.P.encMap (entries c.count s.hashes))).length / 512 ∧ x = 2 ^ 60 + j

/-- The sector numbers are those the cipher is called with. -/
theorem object_tweaks (hP : c.P.Lawful) {id : Nat} {buf o : Bytes} {k : Keys} (hk : c.keys = some k)
    (h : makeObject c id buf = .ok (some o)) :
    ∃ z, compress c.P c.comp buf = .ok z ∧ z.length = o.length ∧
      ∀ j, j < o.length / 512 → slice o (j * 512) 512 = c.P.xts.enc k.key2 k.key1 (tweak (id * c.ssc + j)) (slice z (j * 512) 512) := by
  simp only [makeObject] at h
  split at h
  · simp at h
  · cases hz : compress c.P c.comp buf with
    | error e => simp [hz] at h
    | ok z =>
      have hm := (decompress_compress hP hz).2
      simp only [hz] at h
      cases he : maybeEncrypt c id z with
      | error e => simp [he] at h
      | ok o' =>
        simp only [he, Except.ok.injEq, Option.some.injEq] at h
        subst h
        simp only [maybeEncrypt, hm, ne_eq, not_true_eq_false, if_false, maybeCrypt, hk] at he
        have he := liftCrypt_ok he
        obtain ⟨out, h1, h2, h3, -⟩ := encrypt_ok (p := c.P.xts) (k := k) (buf := z) (start := id * c.ssc)
          (count := z.length / 512) hP.xts (Nat.div_mul_le_self _ _)
        rw [h1] at he
        simp only [Except.ok.injEq] at he
        subst he
        refine ⟨z, rfl, h2.symm, fun j hj => ?_⟩
        have := congrArg Subtype.val (h3 j (by omega))
        have hb1 : (j + 1) * 512 ≤ out.length := by omega
        have hb2 : (j + 1) * 512 ≤ z.length := by omega
        simpa only [sectorAt, hb1, hb2, dif_pos, encS, encSector] using this

/-- The sector numbers of the mapping are those the cipher is called with. -/
theorem mapping_tweaks {P : Prims} (hP : P.Lawful) {es : List (Nat × Spec)} {hkey b : Bytes} {k : Keys}
    (h : serializeMapping P es hkey (some k) = .ok b) :
    ∃ f, b = P.encFile f ∧ f.ciphertext.length = (padToSector (P.encMap es)).length ∧
      ∀ j, j < (padToSector (P.encMap es)).length / 512 →
        slice f.ciphertext (j * 512) 512 =
          P.xts.enc k.key2 k.key1 (tweak (2 ^ 60 + j)) (slice (padToSector (P.encMap es)) (j * 512) 512) := by
  simp only [serializeMapping] at h
  split at h
  · simp at h
  · rename_i ct hct
    simp only [Except.ok.injEq] at h
    subst h
    simp only [maybeCrypt] at hct
    have he := liftCrypt_ok hct
    obtain ⟨out, h1, h2, h3, -⟩ := encrypt_ok (p := P.xts) (k := k) (buf := padToSector (P.encMap es)) (start := mapSector)
      (count := (padToSector (P.encMap es)).length / 512) hP.xts (Nat.div_mul_le_self _ _)
    rw [h1] at he
    simp only [Except.ok.injEq] at he
    subst he
    refine ⟨_, rfl, h2, fun j hj => ?_⟩
    have := congrArg Subtype.val (h3 j (by omega))
    have hb1 : (j + 1) * 512 ≤ out.length := by omega
    have hb2 : (j + 1) * 512 ≤ (padToSector (P.encMap es)).length := by omega
    simpa only [sectorAt, hb1, hb2, dif_pos, encS, encSector, mapSector] using this

/-- **C27, uncompressed archives** (`_partial`: with compression the claim is false, see `C27_false_with_compression`;
what is missing is a bound on the size of compressed objects). If no object is longer than a stripe, no two encrypted
sectors of the archive share a sector number; for uncompressed archives no object is. -/
theorem C27_tweaks_distinct_partial (hsz : ∀ id buf o, s.got id = some buf → makeObject c id buf = .ok (some o) →
      id < c.count ∧ o.length ≤ c.ssc * 512) (hfit : c.count * c.ssc ≤ 2 ^ 60) :
    (∀ id j id' j' x, DataTweak c s id j x → DataTweak c s id' j' x → id = id' ∧ j = j') ∧
    (∀ id j j' x x', DataTweak c s id j x → MapTweak c s j' x' → x ≠ x') ∧
    (∀ j j' x, MapTweak c s j x → MapTweak c s j' x → j = j') := by
  refine ⟨?_, ?_, ?_⟩
  · rintro id j id' j' x ⟨buf, o, h1, h2, h3, h4⟩ ⟨buf', o', g1, g2, g3, g4⟩
    have l1 := (hsz _ _ _ h1 h2).2
    have l2 := (hsz _ _ _ g1 g2).2
    have j1 : j < c.ssc := by omega
    have j2 : j' < c.ssc := by omega
    have e : id * c.ssc + j = id' * c.ssc + j' := by omega
    have hd : (id * c.ssc + j) / c.ssc = (id' * c.ssc + j') / c.ssc := by rw [e]
    rw [Nat.mul_comm id, Nat.mul_comm id', Nat.mul_add_div (by omega), Nat.mul_add_div (by omega),
      Nat.div_eq_of_lt j1, Nat.div_eq_of_lt j2] at hd
    have : id = id' := by omega
    subst this
    exact ⟨rfl, by omega⟩
  · rintro id j j' x x' ⟨buf, o, h1, h2, h3, rfl⟩ ⟨g1, rfl⟩
    obtain ⟨hid, l1⟩ := hsz _ _ _ h1 h2
    have j1 : j < c.ssc := by omega
    have : (id + 1) * c.ssc ≤ c.count * c.ssc := Nat.mul_le_mul_right _ hid
    rw [Nat.add_mul] at this
    omega
  · rintro j j' x ⟨h1, h2⟩ ⟨g1, g2⟩; omega

/-- Uncompressed archives meet the size hypothesis of `C27_tweaks_distinct_partial` at every moment of every run. -/
theorem C27_uncompressed_partial (h : Run c (St.init c st0) ls s) (hp : s.phase = .done) (hP : c.P.Lawful) (hcomp : c.comp = .none) :
    ∀ id buf o, s.got id = some buf → makeObject c id buf = .ok (some o) → id < c.count ∧ o.length ≤ c.ssc * 512 := by
  intro id buf o hg ho
  have hi := run_inv h
  have hc := hi.complete (.inr (.inr (.inl hp)))
  have hb : id < c.count ∧ buf.length = c.ssc * 512 := got_len h hg
  refine ⟨hb.1, ?_⟩
  simp only [makeObject] at ho
  split at ho
  · simp at ho
  · have hz : ∀ z, compress c.P c.comp buf = .ok z → z = buf := by
      intro z hz
      simp only [compress, hcomp] at hz
      split at hz
      · simp at hz
      · simpa using hz.symm
    cases hcz : compress c.P c.comp buf with
    | error e => simp [hcz] at ho
    | ok z =>
      have := hz z hcz
      subst this
      simp only [hcz] at ho
      cases he : maybeEncrypt c id z with
      | error e => simp [he] at ho
      | ok o' =>
        simp only [he, Except.ok.injEq, Option.some.injEq] at ho
        subst ho
        simp only [maybeEncrypt] at he
        split at he
        · simp at he
        · rename_i hm
          cases hk : c.keys with
          | none => simp only [hk, maybeCrypt, Except.ok.injEq] at he; subst he; omega
          | some k =>
            simp only [hk, maybeCrypt] at he
            obtain ⟨e1, -⟩ := decrypt_encrypt hP.xts (by omega) (liftCrypt_ok he)
            omega
where
  got_len {c : Cfg} {s : St} {st0 : Name → Option Bytes} {ls : List Lab} {id : Nat} {buf : Bytes}
      (h : Run c (St.init c st0) ls s) (hb : s.got id = some buf) : id < c.count ∧ buf.length = c.ssc * 512 := by
    rw [got_iff h] at hb
    induction h with
    | nil => simp at hb
    | @snoc s' s'' ls l h1 h2 ih =>
      rcases List.mem_append.1 hb with hb | hb
      · exact ih hb
      · simp only [List.mem_singleton] at hb
        subst hb
        cases h2 with
        | fetchDone hr id hid ok buf hb =>
          have r := ((run_inv h1).running hr).1
          refine ⟨?_, hb⟩
          rcases Nat.lt_or_ge id s'.next with h | h
          · exact Nat.lt_of_lt_of_le h r.next
          · exact absurd hid (r.future id h).1

/-! ### C27 is false with compression -/

/-- Bijective base-256 numeration. -/
def num : Bytes → Nat
  | [] => 0
  | x :: l => x.toNat + 1 + 256 * num l

theorem num_inj {a b : Bytes} (h : num a = num b) : a = b := by
  induction a generalizing b with
  | nil =>
    cases b with
    | nil => rfl
    | cons y b => simp only [num] at h; omega
  | cons x a ih =>
    cases b with
    | nil => simp only [num] at h; omega
    | cons y b =>
      simp only [num] at h
      have hx := x.toNat_lt
      have hy := y.toNat_lt
      have e : x = y := UInt8.toNat_inj.1 (by omega)
      subst e
      have e : num a = num b := by omega
      rw [ih e]

theorem num_bound (l : Bytes) : 255 * num l + 256 ≤ 256 ^ (l.length + 1) := by
  induction l with
  | nil => simp [num]
  | cons x l ih =>
    have hx := x.toNat_lt
    simp only [num, List.length_cons]
    rw [Nat.pow_succ 256 (l.length + 1)]
    omega

/-- A lossless compressor does not shorten every non-zero input of a given length. -/
theorem incompressible {f : Bytes → Option Bytes} {g : Bytes → Option Bytes} (hfg : ∀ b z, f b = some z → g z = some b) {n : Nat}
    (hn : 0 < n) (htot : ∀ b : Bytes, b.length = n → ∃ z, f b = some z) :
    ∃ b z, b.length = n ∧ b.all (· == 0) = false ∧ f b = some z ∧ n ≤ z.length := by
  apply Classical.byContradiction
  intro hno
  have hsmall : ∀ b z, b.length = n → b.all (· == 0) = false → f b = some z → z.length < n := by
    intro b z h1 h2 h3
    rcases Nat.lt_or_ge z.length n with h | h
    · exact h
    · exact absurd ⟨b, z, h1, h2, h3, h⟩ hno
  -- distinct non-zero inputs 1 .. 256^n - 1 would have distinct codes below (256^n) / 255
  have hle : ∀ x, 0 < x → x < 256 ^ n → (le n x).all (· == 0) = false := by
    intro x h1 h2
    cases hc : (le n x).all (· == 0) with
    | false => rfl
    | true =>
      have hz := zeros_of_all hc
      have h3 : fromLe (le n x) = x := fromLe_le_of_lt h2
      have h4 : le n x = le n 0 := by
        have h0 : (le n 0) = zeros n := by
          have : ∀ n, le n 0 = zeros n := by
            intro n
            induction n with
            | zero => rfl
            | succ n ih => simp only [le]; rw [show 0 / 256 = 0 from rfl, ih]; rfl
          exact this n
        rw [h0]; simpa using hz
      have := le_inj h2 (by have := Nat.pow_pos (n := n) (show 0 < 256 by omega); omega) h4
      omega
  have hex : ∀ x : Fin (256 ^ n - 1), ∃ z, f (le n (x.val + 1)) = some z ∧ num z < 256 ^ n / 255 := by
    intro x
    obtain ⟨z, hz⟩ := htot (le n (x.val + 1)) (by simp)
    have hlen := hsmall _ z (by simp) (hle _ (by omega) (by omega)) hz
    refine ⟨z, hz, ?_⟩
    have h1 := num_bound z
    have h2 : 256 ^ (z.length + 1) ≤ 256 ^ n := Nat.pow_le_pow_right (by omega) hlen
    omega
  let F : Fin (256 ^ n - 1) → Fin (256 ^ n / 255) := fun x => ⟨num (hex x).choose, (hex x).choose_spec.2⟩
  have hinj : Function.Injective F := by
    intro x y h
    have h1 := num_inj (congrArg Fin.val h)
    have hx := hfg _ _ (hex x).choose_spec.1
    have hy := hfg _ _ (hex y).choose_spec.1
    rw [h1, hy] at hx
    have := le_inj (n := n) (by omega) (by omega) (Option.some.inj hx)
    exact Fin.ext (by omega)
  have hcard := Fintype.card_le_of_injective F hinj
  simp only [Fintype.card_fin] at hcard
  have hb : 256 ≤ 256 ^ n := by
    calc 256 = 256 ^ 1 := rfl
      _ ≤ 256 ^ n := Nat.pow_le_pow_right (by omega) hn
  omega

/-- **C27 fails with compression**, whatever lossless compressor is used: if the first two stripes are to be archived,
some contents of theirs make the archiver encrypt a sector of the first object and a sector of the second under the
same sector number. -/
theorem C27_false_with_compression {c : Cfg} (hP : c.P.Lawful) {l : Nat} (hz : c.comp = .zstd l) {k : Keys}
    (hk : c.keys = some k) (hssc : 0 < c.ssc) (hcount : 2 ≤ c.count) (hconc : 2 ≤ c.conc)
    (h0 : shouldArchive c 0 = .ok true) (h1 : shouldArchive c 1 = .ok true)
    (htot : ∀ d : Bytes, d.length = c.ssc * 512 → ∃ z, c.P.zenc l d = some z ∧ z.length < 2 ^ 32) (st0 : Name → Option Bytes) :
    ∃ ls s, Run c (St.init c st0) ls s ∧ DataTweak c s 0 c.ssc c.ssc ∧ DataTweak c s 1 0 c.ssc := by
  obtain ⟨b, z, hb, hnz, hbz, hlen⟩ := incompressible (hP.zdec_zenc l) (n := c.ssc * 512) (by omega)
    (fun d hd => (htot d hd).imp fun _ h => h.1)
  have hz32 : z.length < 2 ^ 32 := by
    obtain ⟨z', h1, h2⟩ := htot b hb
    rw [h1] at hbz; simp only [Option.some.injEq] at hbz; subst hbz; exact h2
  obtain ⟨f, hf⟩ := (C26_frame_total z).2 hz32
  have hfl : c.ssc * 512 + 4 ≤ f.length ∧ f.length % 512 = 0 := by
    obtain ⟨-, he⟩ := frame_ok hf
    refine ⟨?_, frame_length hf⟩
    rw [he]; simp; omega
  have hmade : ∀ id, ∃ o, makeObject c id b = .ok (some o) ∧ o.length = f.length := by
    intro id
    obtain ⟨out, e1, e2, -⟩ := encrypt_ok (p := c.P.xts) (k := k) (buf := f) (start := id * c.ssc)
          (count := f.length / 512) hP.xts (Nat.div_mul_le_self _ _)
    refine ⟨out, ?_, e2⟩
    have hb512 : b.length % 512 = 0 := by omega
    simp only [makeObject, hnz, Bool.false_eq_true, if_false, compress, hb512, ne_eq, not_true_eq_false, hz, hbz, hf,
      maybeEncrypt, hfl.2, maybeCrypt, hk, e1, liftCrypt]
  have t0 : Run c (St.init c st0) [] (St.init c st0) := .nil _
  have t1 := t0.snoc (.start _ rfl (by simp only [St.init]; omega) h0 (by simp only [St.init]; omega) true)
  simp only [if_true, St.init] at t1
  have t2 := t1.snoc (.start _ rfl (by show 0 + 1 < _; omega) h1 (by show 0 < _ - 1; omega) true)
  simp only [if_true] at t2
  have t3 := t2.snoc (.fetchDone _ rfl 0 (by simp) true b hb)
  obtain ⟨o0, m0, l0⟩ := hmade 0
  obtain ⟨o1, m1, l1⟩ := hmade 1
  simp only [if_true, upload, m0] at t3
  rw [if_neg (by simp)] at t3
  simp only [List.not_mem_nil, if_false, St.startPut] at t3
  have t4 := t3.snoc (.fetchDone _ rfl 1 (by simp) true b hb)
  refine ⟨_, _, t4, ⟨b, o0, ?_, m0, by omega, by omega⟩, ⟨b, o1, ?_, m1, by omega, by omega⟩⟩
  · simp [upd]
  · simp [upd]

/-- The text that sets the tag of the description apart (hmac.rs:39). -/
theorem metaDomain_text : metaDomain = "ARCHIVE_METADATA_HMAC_V1".toList.map (fun c => UInt8.ofNat c.toNat) := by decide +kernel

/-! ## Concrete cases -/

theorem demoCfg_ok : demoCfg.Ok where
  lawful := toyP_lawful
  count := by simp [demoCfg]
  ssc := by simp [demoCfg]
  level := by simp [demoCfg]
  keys := by simp [demoCfg]
  hkey := by simp [demoCfg]
  nk := by simp [demoCfg]
  nh := by simp [demoCfg]

theorem demo_only_made {s : St} {o : Bytes}
    (hg : s.got = upd (upd (fun _ => none) 2 (some (zeros 512))) 0 (some demoBuf)) (h : Made demoCfg s o) : o = demoBuf := by
  obtain ⟨id, buf, h1, h2⟩ := h
  rw [hg] at h1
  simp only [upd] at h1
  split at h1
  · rename_i h; simp only [Option.some.injEq] at h1; subst h1; subst h; rw [demo_made] at h2; simpa using h2.symm
  · split at h1
    · rename_i h; simp only [Option.some.injEq] at h1; subst h1; subst h; rw [demo_zero] at h2; simp at h2
    · simp at h1

theorem demo_entries {s : St} (hh : s.hashes = upd (upd (fun _ => none) 2 (some .zero)) 0 (some (.obj (toyP.sha demoBuf)))) :
    entries demoCfg.count s.hashes = [(0, .obj (toyP.sha demoBuf)), (2, .zero)] := by rw [hh]; rfl

theorem demo_len {s : St} (hh : s.hashes = upd (upd (fun _ => none) 2 (some .zero)) 0 (some (.obj (toyP.sha demoBuf)))) :
    (demoCfg.P.encMap (entries demoCfg.count s.hashes)).length < 2 ^ 64 := by
  rw [demo_entries hh]
  simp [demoCfg, toyP, encEntries, encSpec, zeros]

/-- C22: a finished archive of three stripes; all three read back. -/
example : ∃ ls s src, Run demoCfg (St.init demoCfg fun _ => none) ls s ∧ s.phase = .done ∧
    openArchive toyP demoCfg.kek s.store = .ok src ∧ readStripe toyP src s.store 0 1024 = .ok (demoBuf ++ zeros 512) ∧
    readStripe toyP src s.store 1 512 = .ok (zeros 512) ∧ readStripe toyP src s.store 2 512 = .ok (zeros 512) := by
  obtain ⟨s, hr, hd, hh, hg⟩ := demo_run fun _ => none
  have hn : NoCollision demoCfg s := fun o o' h h' _ => by rw [demo_only_made hg h, demo_only_made hg h']
  obtain ⟨src, h1, -, h2⟩ := C22_restore demoCfg_ok hr hd (demo_len hh) hn
  refine ⟨_, s, src, hr, hd, h1, ?_, ?_, ?_⟩
  · rcases h2 0 (by simp [demoCfg]) with ⟨-, buf, e1, -, e2⟩ | ⟨e, -⟩
    · rw [← got_iff hr, hg] at e1
      simp only [upd_same, Option.some.injEq] at e1
      subst e1
      exact e2 1024 (by simp [demoCfg])
    · exact absurd e (by simp [shouldArchive, demoCfg, Metadata.WRITTEN])
  · rcases h2 1 (by simp [demoCfg]) with ⟨e, -⟩ | ⟨-, -, e⟩
    · exact absurd e (by simp [shouldArchive, demoCfg])
    · exact e 512
  · rcases h2 2 (by simp [demoCfg]) with ⟨-, buf, e1, -, e2⟩ | ⟨e, -⟩
    · rw [← got_iff hr, hg] at e1
      simp [upd] at e1
      subst e1
      have e2 := e2 512 (by simp [demoCfg])
      rw [show demoCfg.ssc * 512 = 512 from rfl, Nat.sub_self, show zeros 0 = [] from rfl, List.append_nil] at e2
      exact e2
    · exact absurd e (by simp [shouldArchive, demoCfg, Metadata.HAS_SOURCE])

/-- C24: a failed read is a run; the index found before stays. -/
example : ∃ s, Run demoCfg (St.init demoCfg fun _ => some [1]) [.tau, .fetched 0 false (zeros 512)] s ∧
    s.store mappingName = some [1] := by
  have t0 : Run demoCfg (St.init demoCfg fun _ => some [1]) [] (St.init demoCfg fun _ => some [1]) := .nil _
  have t1 := t0.snoc (.start _ rfl (by simp [demoCfg, St.init]) rfl (by simp [demoCfg, St.init]) true)
  have t2 := t1.snoc (.fetchDone _ rfl 0 (by simp [St.init]) false (zeros 512) (by simp [demoCfg]))
  exact ⟨_, t2, (C24_failure_aborts t2 ⟨.fetched 0 false (zeros 512), by simp, rfl⟩).2.2⟩

/-- A compressed, encrypted configuration. -/
noncomputable def demoZ : Cfg :=
  { demoCfg with comp := .zstd 3, keys := some toyKeys, headers := [Metadata.WRITTEN, Metadata.WRITTEN, 0] }

/-- C27: a compressed, encrypted archive of the toy instance meets the hypotheses of the counterexample. -/
example : ∃ ls s, Run demoZ (St.init demoZ fun _ => none) ls s ∧ DataTweak demoZ s 0 1 1 ∧ DataTweak demoZ s 1 0 1 :=
  C27_false_with_compression (c := demoZ) (k := toyKeys) (l := 3)
    toyP_lawful rfl rfl (by simp [demoZ, demoCfg]) (by simp [demoZ, demoCfg]) (by simp [demoZ, demoCfg])
    (by simp [demoZ, shouldArchive, Metadata.WRITTEN]) (by simp [demoZ, shouldArchive, Metadata.WRITTEN])
    (fun d hd => ⟨d, rfl, by rw [hd]; simp [demoZ, demoCfg]⟩) _

/-- C23: the finished archive with its one data object replaced by other bytes meets the hypotheses. -/
example : ∃ ls s evil, Run demoCfg (St.init demoCfg fun _ => none) ls s ∧ s.phase = .done ∧ Honest demoCfg s evil ∧
    evil ≠ s.store := by
  obtain ⟨s, hr, hd, hh, hg⟩ := demo_run fun _ => none
  have hi := run_inv hr
  obtain ⟨m, hm, hst, -⟩ := hi.metaDone (.inr hd)
  obtain ⟨b, hb, hbs, -⟩ := hi.mapDone hd
  obtain ⟨a1, a2, a3, a4, a5, a6, a7, a8⟩ := archiveMeta_ok demoCfg_ok hm
  have hcomp := hi.complete (.inr (.inr (.inl hd)))
  obtain ⟨o, g1, g2, g3⟩ := hcomp.stored 0 (toyP.sha demoBuf) (by rw [hh]; simp)
  have hdm := demoCfg_ok.lawful.decMeta_encMeta m a4
  have ho := demo_only_made hg g2
  refine ⟨_, s, fun n => if n = objectKey (toyP.sha demoBuf) then some [] else if n = metadataName ∨ n = mappingName then s.store n else none,
    hr, hd, ⟨?_, ?_, ?_, ?_⟩, ?_⟩
  · intro b' m' pt h1 h2 h3
    rw [if_neg (objectKey_ne_metadata _).symm, if_pos (.inl rfl), hst, Option.some.injEq] at h1
    subst h1
    rw [hdm, Option.some.injEq] at h2
    subst h2
    simp only [unwrapHmacKey, h3, liftCrypt] at a6
    split at a6
    · left; simpa using a6
    · simp at a6
  · intro b' m' h1 h2 h3
    rw [if_neg (objectKey_ne_metadata _).symm, if_pos (.inl rfl), hst, Option.some.injEq] at h1
    subst h1
    rw [hdm, Option.some.injEq] at h2
    subst h2
    exact .inl ⟨m, hm, rfl⟩
  · intro b' f h1 h2 h3
    rw [if_neg (objectKey_ne_mapping _).symm, if_pos (.inr rfl)] at h1
    exact .inr ⟨b', f, h1, h2, rfl⟩
  · intro n d o' h1 h2 h3
    have ho' := demo_only_made hg h2
    subst ho'
    -- the hash of the stored bytes starts with a 7 only if they are the object's
    exfalso
    have hsha : (toyP.sha demoBuf)[0]? = some 7 := by simp [toyP, demoBuf, List.getElem?_take]
    have h3 : toyP.sha d = toyP.sha demoBuf := h3
    rw [← h3] at hsha
    simp only [toyP] at hsha
    split at h1
    · simp only [Option.some.injEq] at h1; subst h1
      simp [zeros] at hsha
    · rw [if_neg (fun h => h.elim (objectKey_ne_metadata n) (objectKey_ne_mapping n))] at h1
      simp at h1
  · intro e
    have := congrFun e (objectKey (toyP.sha demoBuf))
    rw [if_pos rfl, g3, ho] at this
    simp [demoBuf] at this

end Verif.Archive
