import Verif.Proof.Base64
import Verif.Spec.LegacyConfig
import Verif.Props.Secrets
import Verif.Props.Migration

/-! # C77: key material written as text arrives unchanged -/

namespace Verif.LegacyConfig
open Verif Verif.Config
set_option maxRecDepth 8000

/-- **C77** What is read from text is exactly what the text means: a text that is not the base64 of anything is refused. -/
theorem C77_base64 (t b : Bytes) : Base64.decode t = some b ↔ Base64.Denotes t b := by
  constructor
  · intro h
    rw [Base64.encode_decode t b h]; exact Base64.denotes_encode b
  · intro h
    rw [Base64.denotes_unique h (Base64.denotes_encode b)]; exact Base64.decode_encode b

/-- **C77** Every string of bytes has exactly one text, which is what is written, and its length is known. -/
theorem C77_text (b : Bytes) : Base64.Denotes (Base64.encode b) b ∧ (∀ t, Base64.Denotes t b → t = Base64.encode b) ∧
    (Base64.encode b).length = (b.length + 2) / 3 * 4 :=
  ⟨Base64.denotes_encode b, fun _ h => Base64.denotes_unique h (Base64.denotes_encode b), Base64.encode_length b⟩

/-- **C77** A text means at most one string of bytes. -/
theorem C77_one_meaning {t b b' : Bytes} (h : Base64.Denotes t b) (h' : Base64.Denotes t b') : b = b' := by
  rw [← C77_base64] at h h'
  rw [h] at h'; exact Option.some.inj h'

/-- `Zm9vYmE=` is `fooba`; it is not the text of anything without its padding, and `Zm9vYmF=` has a bit left over. -/
example : Base64.encode [102, 111, 111, 98, 97] = [90, 109, 57, 118, 89, 109, 69, 61] ∧
    Base64.decode [90, 109, 57, 118, 89, 109, 69, 61] = some [102, 111, 111, 98, 97] ∧
    Base64.decode [90, 109, 57, 118, 89, 109, 69] = none ∧ Base64.decode [90, 109, 57, 118, 89, 109, 70, 61] = none := by
  decide +kernel

/-- **C77** The keys of an archive read back as they were written. -/
theorem C77_archive_keys (k : ArchiveKeys) : k.write.read = some k := by
  obtain ⟨e, h, m⟩ := k
  cases e <;>
    simp [ArchiveKeys.write, ArchiveTexts.read, encodeOptKey, decodeOptKey, readKey, encodeKey, decodeKey, Base64.decode_encode]

/-- **C77** Keys read from `metadata.json` are exactly what its texts mean; only a missing or null encryption key is no key, and a
missing tag or tag key is empty. -/
theorem C77_archive_keys_only (t : ArchiveTexts) (k : ArchiveKeys) :
    t.read = some k ↔ OptText t.encryption k.encryption ∧ Base64.Denotes (t.hmac.getD []) k.hmac ∧
      Base64.Denotes (t.metadataHmac.getD []) k.metadataHmac := by
  obtain ⟨te, th, tm⟩ := t
  obtain ⟨e, h, m⟩ := k
  have hk : ∀ (o : Option Bytes) (b : Bytes), readKey o = some b ↔ Base64.Denotes (o.getD []) b := by
    intro o b
    rw [← C77_base64]
    cases o with
    | none => simp [readKey, Base64.decode]
    | some t => rfl
  have he : decodeOptKey te = some e ↔ OptText te e := by
    cases te with
    | none => cases e <;> simp [decodeOptKey, OptText]
    | some t => cases e <;> simp [decodeOptKey, OptText, ← C77_base64]
  simp only [ArchiveTexts.read, ← hk, ← he, Option.bind_eq_bind, Option.bind_eq_some_iff, Option.pure_def, Option.some.injEq,
    ArchiveKeys.mk.injEq]
  constructor
  · rintro ⟨a, h1, b, h2, c, h3, rfl, rfl, rfl⟩; exact ⟨h1, h2, h3⟩
  · rintro ⟨h1, h2, h3⟩; exact ⟨e, h1, h, h2, m, h3, rfl, rfl, rfl⟩

example : (ArchiveTexts.mk none (some [90, 109, 56, 61]) none).read = some ⟨none, [102, 111], []⟩ := by decide +kernel

/-- No text ends in white space. -/
theorem text_end {t b : Bytes} (h : Base64.Denotes t b) (y : UInt8) (hy : t.getLast? = some y) : white y = false := by
  obtain ⟨ss, p, z, h1, _, _, _, rfl, _⟩ := h
  have hm := List.mem_of_getLast? hy
  rw [List.mem_append, List.mem_map] at hm
  rcases hm with ⟨s, hs, rfl⟩ | hm
  · have : ∀ n : Fin 64, white (Base64.alphabet.getD n.val 0) = false := by decide +kernel
    exact this ⟨s, h1 s hs⟩
  · rw [List.eq_of_mem_replicate hm]; rfl

/-- **C77** A secret given as base64 text, in the configuration, the environment or a file, with white space after it or not, is what
its text means. A file may be 10929 bytes long, which is enough for the text of every secret allowed (8192 bytes) and five more
characters. -/
theorem C77_secret (w : World) (hw : w.b64 = Base64.decode) (dz : DangerZone) (defs : List (String × SecretDef))
    (hn : (defs.map Prod.fst).Nodup) {n : String} {d : SecretDef} (hd : (n, d) ∈ defs) (hb64 : d.base64 = true)
    (hk : d.encryptedBy = none) {t s ws b : Bytes} (ht : sourceText w d.source = some t) (hs : t = s ++ ws)
    (hws : ∀ c ∈ ws, white c = true) (hb : Base64.Denotes s b) {m : List (String × Bytes)}
    (h : resolveSecrets w dz defs = .ok m) : m.lookup n = some b ∧ b.length ≤ 8192 := by
  obtain ⟨hv, hp⟩ := C45_values hn h
  obtain ⟨b', hl⟩ : ∃ b', SecretValue w dz defs n b' :=
    (C45_succeeds_iff hn).mp ⟨m, h⟩ n (List.mem_map.mpr ⟨(n, d), hd, rfl⟩)
  have key : b' = b ∧ b'.length ≤ 8192 := by
    cases hl with
    | wrapped g1 g2 _ _ _ _ _ _ _ => rw [def_unique hn g1 hd, hk] at g2; cases g2
    | plain g1 _ _ g4 g5 =>
      rw [def_unique hn g1 hd] at g4
      obtain ⟨t', ht', h'⟩ := g4
      rw [ht] at ht'; cases ht'
      rcases h' with ⟨h', _⟩ | ⟨_, s', hs', hb'⟩
      · rw [hb64] at h'; cases h'
      · have hst : Stripped t s := ⟨ws, hs, hws, text_end hb⟩
        rw [stripped_unique hs' hst, hw, C77_base64] at hb'
        exact ⟨C77_one_meaning hb' hb, g5⟩
  obtain ⟨rfl, h8⟩ := key
  exact ⟨(hv n b').mpr hl, h8⟩

/-- **C77** The text of every allowed secret and five more characters fit in what is read of a file. -/
theorem C77_secret_fits {s b : Bytes} (hb : Base64.Denotes s b) (h8 : b.length ≤ 8192) : s.length + 5 ≤ 10929 := by
  rw [(C77_text b).2.1 s hb, (C77_text b).2.2]; omega

/-- Unwrapping gives the disk key of a legacy volume. -/
theorem unwrap_iff (dec : Bytes → Bytes → Bytes → Bytes → Option Bytes) (k : Bytes × Bytes) (kek : Remote.LegacyKek) (key : Bytes) :
    Remote.unwrapXtsKey dec k kek = some key ↔ DiskKey dec k.1 k.2 kek key := by
  obtain ⟨gcm, kk, iv, aad⟩ := kek
  have hinto : ∀ b r : Bytes, Remote.intoKey b = some r ↔ r = b ∧ b.length = 32 := by
    intro b r
    unfold Remote.intoKey
    split
    · rename_i hl; simp [hl, eq_comm]
    · rename_i hl; simp [hl]
  constructor
  · intro h
    cases gcm with
    | false =>
      simp only [Remote.unwrapXtsKey, Bool.false_eq_true, if_false, Option.bind_eq_bind, Option.bind_eq_some_iff, hinto,
        Option.some.injEq] at h
      obtain ⟨a, ⟨rfl, h1⟩, b, ⟨rfl, h2⟩, rfl⟩ := h
      exact .stored h1 h2
    | true =>
      simp only [Remote.unwrapXtsKey, if_true, Option.bind_eq_bind, Option.bind_eq_some_iff] at h
      obtain ⟨q, rfl, v, rfl, h⟩ := h
      by_cases hq : q.length ≠ 32
      · rw [if_pos hq] at h; cases h
      · rw [if_neg hq] at h
        by_cases hv : v.length ≠ 12
        · rw [if_pos hv] at h; cases h
        · rw [if_neg hv] at h
          simp only [Remote.decryptKey, Option.bind_eq_some_iff, hinto, Option.some.injEq] at h
          obtain ⟨a, ⟨a', d1, rfl, l1⟩, b, ⟨b', d2, rfl, l2⟩, rfl⟩ := h
          exact .wrapped (by omega) (by omega) l1 l2 d1 d2
  · intro h
    cases h with
    | stored h1 h2 => simp [Remote.unwrapXtsKey, Remote.intoKey, h1, h2]
    | wrapped hk hv h1 h2 d1 d2 => simp [Remote.unwrapXtsKey, Remote.intoKey, Remote.decryptKey, hk, hv, h1, h2, d1, d2]

theorem diskKey_length {dec : Bytes → Bytes → Bytes → Bytes → Option Bytes} {k1 k2 : Bytes} {kek : Remote.LegacyKek} {key : Bytes}
    (h : DiskKey dec k1 k2 kek key) : key.length = 64 := by
  cases h with
  | stored h1 h2 => simp [h1, h2]
  | wrapped _ _ h1 h2 _ _ => simp [h1, h2]

/-- The configuration made, for use in proofs. -/
def made (o : Options) (e : Option String) (s : List (String × Bytes)) : Config :=
  { device := { dataPath := o.path, metadataPath := o.metadataPath, vhostSocket := none, rpcSocket := none,
                deviceId := "ubiblk", trackWritten := o.trackWritten },
    tuning := { Tuning.default with queueSize := 128 }, encryption := e, danger := danger,
    source := o.imagePath.map fun p => .raw p false false, secrets := s }

/-- **C77** Migrating a volume: its configuration is made exactly when the volume has no key or its key can be had. The key arrives
unchanged, as a 64-byte secret the disk is encrypted with; a volume without a key is not encrypted. Data, image and metadata
are where the old configuration has them, and writes are tracked when it says so. The result passes every check the program
makes of a current configuration. -/
theorem C77_legacy (w : World) (hw : w.b64 = Base64.decode) (o : Options) (kek : Option Remote.LegacyKek) :
    ((∃ c, load w o kek = .ok c) ↔
      ∀ k1 k2, o.encryptionKey = some (k1, k2) → ∃ key, DiskKey w.gcm.openAt k1 k2 (kek.getD ⟨false, none, none, none⟩) key) ∧
    ∀ c, load w o kek = .ok c →
      (o.encryptionKey = none → c.encryption = none) ∧
      (∀ k1 k2 key, o.encryptionKey = some (k1, k2) → DiskKey w.gcm.openAt k1 k2 (kek.getD ⟨false, none, none, none⟩) key →
        ∃ r, c.encryption = some r ∧ c.secrets.lookup r = some key ∧ key.length = 64) ∧
      c.device.dataPath = o.path ∧ c.device.metadataPath = o.metadataPath ∧ c.device.trackWritten = o.trackWritten ∧
      c.source = o.imagePath.map (fun p => StripeSource.raw p false false) ∧
      c.tuning.validate = true ∧ sourceOk c.source c.danger c.secrets = true ∧
      checkEncryption c.encryption c.danger c.secrets = .ok () := by
  have hres : ∀ key : Bytes, key.length = 64 → ∃ m, resolveSecrets w danger
      [(KEY_ID, { source := .inline (Base64.encode key), base64 := true, encryptedBy := none })] = .ok m ∧ m.lookup KEY_ID = some key := by
    intro key hlen
    have hv : SecretValue w danger [(KEY_ID, { source := .inline (Base64.encode key), base64 := true, encryptedBy := none })] KEY_ID key := by
      refine .plain (List.mem_singleton.mpr rfl) rfl (fun _ => ⟨rfl, rfl⟩) ?_ (by omega)
      refine ⟨_, rfl, .inr ⟨rfl, _, ⟨[], (List.append_nil _).symm, by simp, text_end (C77_text key).1⟩, ?_⟩⟩
      rw [hw, C77_base64]; exact (C77_text key).1
    obtain ⟨m, hm⟩ := (C45_succeeds_iff (w := w) (dz := danger) (defs := [(KEY_ID, { source := .inline (Base64.encode key), base64 := true, encryptedBy := none })])
      (by simp)).mpr (by intro n hn; simp only [List.map_cons, List.map_nil, List.mem_singleton] at hn; subst hn; exact ⟨key, hv⟩)
    exact ⟨m, hm, ((C45_values (by simp) hm).1 _ _).mpr hv⟩
  have hsrc : ∀ (x : Option (List Char)) (s : List (String × Bytes)),
      sourceOk (x.map (fun p => StripeSource.raw p false false)) danger s = true := by
    intro x s
    cases x <;> rfl
  have htun : ({ Tuning.default with queueSize := 128 } : Tuning).validate = true := by decide +kernel
  cases hk : o.encryptionKey with
  | none =>
    have hl : load w o kek = .ok (made o none []) := by simp only [load, keySection, hk]; rfl
    rw [hl]
    refine ⟨by simp, ?_⟩
    rintro c hc
    cases hc
    exact ⟨fun _ => rfl, (by intro _ _ _ h; cases h), rfl, rfl, rfl, rfl, htun, hsrc _ _, rfl⟩
  | some k =>
    cases hu : Remote.unwrapXtsKey w.gcm.openAt k (kek.getD ⟨false, none, none, none⟩) with
    | none =>
      have hl : load w o kek = .error .unwrap := by simp only [load, keySection, hk, noKek, hu]
      rw [hl]
      constructor
      · simp only [reduceCtorEq, exists_false, Option.some.injEq, false_iff]
        intro h
        obtain ⟨key, hk⟩ := h k.1 k.2 rfl
        rw [← unwrap_iff, hu] at hk; cases hk
      · rintro c hc; cases hc
    | some key =>
      have hd := (unwrap_iff _ _ _ _).mp hu
      have h64 := diskKey_length hd
      obtain ⟨m, hm, hlk⟩ := hres key h64
      have hl : load w o kek = .ok (made o (some KEY_ID) m) := by simp only [load, keySection, hk, noKek, hu, hm]; rfl
      rw [hl]
      constructor
      · simp only [Except.ok.injEq, exists_eq', true_iff, Option.some.injEq]
        intro k1 k2 hk; subst hk; exact ⟨key, hd⟩
      · intro c hc
        cases hc
        refine ⟨(by intro h; cases h), ?_, rfl, rfl, rfl, rfl, htun, hsrc _ _, ?_⟩
        · intro k1 k2 key' hk hd'
          cases hk
          have hd' := (unwrap_iff w.gcm.openAt (k1, k2) _ key').mpr hd'
          rw [hu] at hd'
          cases hd'
          exact ⟨KEY_ID, rfl, hlk, h64⟩
        · simp only [made, checkEncryption, secretOk, hlk]
          simp [h64]

/-- **C77** Keys that were encrypted are not taken for the disk key when the key file is left out: with its tag a wrapped key is 48
bytes long, and the volume is not served. -/
theorem C77_legacy_forgotten (w : World) (hw : w.b64 = Base64.decode) (hg : w.gcm.Lawful) (o : Options) (key iv aad a b k1 k2 : Bytes)
    (ho : o.encryptionKey = some (k1, k2)) (ha : a.length = 32) (h1 : w.gcm.sealAt key iv aad a = some k1)
    (h2 : w.gcm.sealAt key iv aad b = some k2) : ¬ ∃ c, load w o none = .ok c := by
  rw [(C77_legacy w hw o none).1]
  intro h
  obtain ⟨x, hx⟩ := h k1 k2 ho
  have := hg.sealAt_len _ _ _ _ _ h1
  cases hx with
  | stored l1 l2 => omega

/-- A world whose cipher appends sixteen zeros. -/
def demoWorld : World :=
  { file := fun p => if p = ['k'] then some ⟨false, some [90, 109, 56, 61, 10]⟩ else none, env := fun _ => none,
    b64 := Base64.decode,
    gcm := ⟨fun _ _ _ p => some (p ++ zeros 16), fun _ _ _ c => if 16 ≤ c.length then some (c.take (c.length - 16)) else none⟩,
    utf8 := fun _ => [] }

theorem demo_lawful : demoWorld.gcm.Lawful := by
  constructor
  · intro key nonce aad pt ct h
    simp only [demoWorld, Option.some.injEq] at h ⊢
    subst h
    rw [if_pos (by simp [zeros])]
    simp [zeros]
  · intro key nonce aad pt ct h
    simp only [demoWorld, Option.some.injEq] at h
    subst h
    simp [zeros]

/-- A legacy volume whose two keys are wrapped under a key file. -/
def demoOptions : Options :=
  ⟨['d'], some ['i'], some ['m'], true, some (List.replicate 32 1 ++ zeros 16, List.replicate 32 2 ++ zeros 16)⟩

def demoKek : Remote.LegacyKek := ⟨true, some (List.replicate 32 9), some (List.replicate 12 8), none⟩

/-- The hypotheses of `C77_legacy` and `C77_legacy_forgotten` are met: with the key file the volume is served under its key, without it
it is not. -/
example : (∃ c r, load demoWorld demoOptions (some demoKek) = .ok c ∧ c.encryption = some r ∧
      c.secrets.lookup r = some (List.replicate 32 1 ++ List.replicate 32 2)) ∧
    ¬ ∃ c, load demoWorld demoOptions none = .ok c := by
  have hd : DiskKey demoWorld.gcm.openAt (List.replicate 32 1 ++ zeros 16) (List.replicate 32 2 ++ zeros 16) demoKek
      (List.replicate 32 1 ++ List.replicate 32 2) := by
    refine .wrapped (by rfl) (by rfl) (by rfl) (by rfl) ?_ ?_ <;> decide +kernel
  constructor
  · obtain ⟨c, hc⟩ := (C77_legacy demoWorld rfl demoOptions (some demoKek)).1.mpr (by
      intro k1 k2 h; cases h; exact ⟨_, hd⟩)
    obtain ⟨r, h1, h2, _⟩ := ((C77_legacy demoWorld rfl demoOptions (some demoKek)).2 c hc).2.1 _ _ _ rfl hd
    exact ⟨c, r, hc, h1, h2⟩
  · exact C77_legacy_forgotten demoWorld rfl demo_lawful demoOptions [] [] [] (List.replicate 32 1) (List.replicate 32 2) _ _ rfl rfl
      rfl rfl

/-- The hypotheses of `C77_secret` are met: a file with `Zm8=` and a line feed is `fo`. -/
example : ∃ m, resolveSecrets demoWorld DangerZone.off [("k", ⟨.file ['k'], true, none⟩)] = .ok m ∧ m.lookup "k" = some [102, 111] := by
  have ht : Base64.Denotes [90, 109, 56, 61] [102, 111] := (C77_base64 _ _).mp (by decide +kernel)
  obtain ⟨m, hm⟩ := (C45_succeeds_iff (w := demoWorld) (dz := DangerZone.off) (defs := [("k", ⟨.file ['k'], true, none⟩)]) (by simp)).mpr (by
    intro n hn
    simp only [List.map_cons, List.map_nil, List.mem_singleton] at hn; subst hn
    refine ⟨[102, 111], .plain (List.mem_singleton.mpr rfl) rfl ?_ ⟨[90, 109, 56, 61, 10], rfl, .inr ⟨rfl, [90, 109, 56, 61],
      ⟨[10], rfl, by decide, text_end ht⟩, by decide +kernel⟩⟩ (by decide)⟩
    intro f hf hr
    simp only [demoWorld, if_true, Option.some.injEq] at hf
    subst hf; cases hr)
  exact ⟨m, hm, (C77_secret demoWorld rfl DangerZone.off _ (by simp) (List.mem_singleton.mpr rfl) rfl rfl (t := [90, 109, 56, 61, 10])
    (s := [90, 109, 56, 61]) (ws := [10]) rfl rfl (by decide) ht hm).1⟩

end Verif.LegacyConfig
