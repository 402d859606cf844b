import Verif.Proof.Load

/-! # C44, C47, C58, C59: what an accepted configuration is -/

namespace Verif.Config
open Verif

theorem ok_bind {ε α β : Type} {x : Except ε α} {f : α → Except ε β} {b : β} : (x >>= f) = .ok b ↔ ∃ a, x = .ok a ∧ f a = .ok b := by
  cases x <;> simp [bind, Except.bind]

theorem secretOk_iff {secrets : List (String × Bytes)} {n : String} {p : Bytes → Bool} :
    secretOk secrets n p = true ↔ ∃ b, secrets.lookup n = some b ∧ p b = true := by
  unfold secretOk
  cases secrets.lookup n <;> simp

theorem loadMerged_ok {e : Env} {root m : Tbl} {ks : List String} (h : loadMerged e root ks = .ok m) :
    resolveIncludes e.ws e.files e.dir root = .ok m ∧ known m ks = true := by
  unfold loadMerged at h
  split at h
  · cases h
  · split at h
    · cases h; exact ⟨by assumption, by assumption⟩
    · cases h

theorem merged_has {e : Env} {root m : Tbl} (hd : Docs e root) (h : resolveIncludes e.ws e.files e.dir root = .ok m) (p : List String) (x : Setting) :
    settings m p = some x ↔ Has e root p x := by
  obtain ⟨l, hl, _, _⟩ := (resolve_eq ..).mp h
  rw [C46_settings hd.1 hd.2 h hl]
  constructor
  · intro h'; exact ⟨l, hl, h'⟩
  · rintro ⟨l', hl', h'⟩
    rw [hl] at hl'; cases hl'; exact h'

theorem merged_wf {e : Env} {root m : Tbl} (hd : Docs e root) (h : resolveIncludes e.ws e.files e.dir root = .ok m) : m.Wf := by
  obtain ⟨l, _, _, h3⟩ := (resolve_eq ..).mp h
  exact ((includeAll_spec e.files e.dir hd.2 l _ (wf_remove _ _ hd.1)).2 m h3).2.2.1

theorem optSection_ok {α : Type} {m : Tbl} {k : String} {dec : Tbl → Option α} {o : Option α} (h : optSection m k dec = .ok o) :
    (o = none ∧ m.get k = none) ∨ ∃ t x, o = some x ∧ m.get k = some (.table t) ∧ dec t = some x := by
  unfold optSection at h
  split at h
  · cases h; exact Or.inl ⟨rfl, by assumption⟩
  · split at h
    · cases h; exact Or.inr ⟨_, _, rfl, by assumption, by assumption⟩
    · cases h
  · cases h

theorem reqSection_ok {α : Type} {m : Tbl} {k : String} {dec : Tbl → Option α} {x : α} (h : reqSection m k dec = .ok x) :
    ∃ t, m.get k = some (.table t) ∧ dec t = some x := by
  unfold reqSection at h
  split at h
  · cases h
  · cases h
  · rename_i h'
    cases h
    rcases optSection_ok h' with ⟨h0, _⟩ | ⟨t, y, h1, h2, h3⟩
    · cases h0
    · cases h1; exact ⟨t, h2, h3⟩

/-- What `load_common` has decoded. -/
structure Common (e : Env) (m : Tbl) (dz : DangerZone) (secrets : List (String × Bytes)) (defs : List (String × SecretDef)) : Prop where
  danger : (dz = .off ∧ m.get "danger_zone" = none) ∨ ∃ t, m.get "danger_zone" = some (.table t) ∧ decodeDanger t = some dz
  decoded : (defs = [] ∧ m.get "secrets" = none) ∨ ∃ t, m.get "secrets" = some (.table t) ∧ decodeSecrets e.world.utf8 t = some defs
  resolved : resolveSecrets e.world dz (defs.map fun p => (p.1, p.2.resolve e.dir)) = .ok secrets

theorem loadCommon_ok {e : Env} {m : Tbl} {dz : DangerZone} {secrets : List (String × Bytes)} (h : loadCommon e m = .ok (dz, secrets)) :
    ∃ defs, Common e m dz secrets defs := by
  unfold loadCommon at h
  split at h
  · cases h
  · rename_i odz hdz
    split at h
    · cases h
    · rename_i odefs hdefs
      split at h
      · cases h
      · rename_i sec hsec
        cases h
        refine ⟨odefs.getD [], ?_, ?_, hsec⟩
        · rcases optSection_ok hdz with ⟨rfl, h⟩ | ⟨t, y, rfl, h, h'⟩
          · exact Or.inl ⟨rfl, h⟩
          · exact Or.inr ⟨t, h, h'⟩
        · rcases optSection_ok hdefs with ⟨rfl, h⟩ | ⟨t, y, rfl, h, h'⟩
          · exact Or.inl ⟨rfl, h⟩
          · exact Or.inr ⟨t, h, h'⟩

/-- What `Config::load` has decoded. -/
structure Loaded (e : Env) (m : Tbl) (c : Config) : Prop where
  common : ∃ defs, Common e m c.danger c.secrets defs
  known : known m ["device", "tuning", "encryption", "danger_zone", "stripe_source", "secrets"] = true
  device : ∃ t d, m.get "device" = some (.table t) ∧ decodeDevice t = some d ∧ c.device = d.resolve e.dir
  tuning : (c.tuning = Tuning.default ∧ m.get "tuning" = none) ∨ ∃ t, m.get "tuning" = some (.table t) ∧ decodeTuning t = some c.tuning
  tuningOk : c.tuning.validate = true
  encryption : (c.encryption = none ∧ m.get "encryption" = none) ∨
    ∃ t k, c.encryption = some k ∧ m.get "encryption" = some (.table t) ∧ decodeEncryption t = some k
  encryptionOk : checkEncryption c.encryption c.danger c.secrets = .ok ()
  source : (c.source = none ∧ m.get "stripe_source" = none) ∨
    ∃ t s, c.source = some (s.resolve e.dir) ∧ m.get "stripe_source" = some (.table t) ∧ decodeSource t = some s ∧
      (s.resolve e.dir).validate c.danger c.secrets = true

theorem load_ok {e : Env} {root : Tbl} {c : Config} (h : Config.load e root = .ok c) :
    ∃ m, resolveIncludes e.ws e.files e.dir root = .ok m ∧ Loaded e m c := by
  simp only [Config.load, ok_bind] at h
  obtain ⟨m, hm, ⟨dz, secrets⟩, hc, dev, hdev, tun, htun, h⟩ := h
  simp only at h
  split at h
  · simp only [ok_bind] at h; obtain ⟨_, h, _⟩ := h; cases h
  rename_i htv
  simp only [ok_bind] at h
  obtain ⟨enc, henc, src, hsrc, h⟩ := h
  split at h
  · simp only [ok_bind] at h; obtain ⟨_, h, _⟩ := h; cases h
  rename_i hsv
  simp only [ok_bind] at h
  obtain ⟨_, hce, h⟩ := h
  cases h
  obtain ⟨h1, h2⟩ := loadMerged_ok hm
  obtain ⟨t, ht, hdec⟩ := reqSection_ok hdev
  refine ⟨m, h1, ⟨loadCommon_ok hc, h2, ⟨t, dev, ht, hdec, rfl⟩, ?_, by simpa using htv, ?_, hce, ?_⟩⟩
  · rcases optSection_ok htun with ⟨rfl, h⟩ | ⟨t, y, rfl, h, h'⟩
    · exact Or.inl ⟨rfl, h⟩
    · exact Or.inr ⟨t, h, h'⟩
  · rcases optSection_ok henc with ⟨rfl, h⟩ | ⟨t, y, rfl, h, h'⟩
    · exact Or.inl ⟨rfl, h⟩
    · exact Or.inr ⟨t, y, rfl, h, h'⟩
  · rcases optSection_ok hsrc with ⟨rfl, h⟩ | ⟨t, y, rfl, h, h'⟩
    · exact Or.inl ⟨rfl, h⟩
    · exact Or.inr ⟨t, y, rfl, h, h', by simpa [sourceOk] using hsv⟩

theorem target_ok {e : Env} {root : Tbl} {c : TargetConfig} (h : TargetConfig.load e root = .ok c) :
    ∃ m, resolveIncludes e.ws e.files e.dir root = .ok m ∧ known m ["target", "danger_zone", "secrets"] = true ∧
      (∃ defs, Common e m c.danger c.secrets defs) ∧ ∃ t, m.get "target" = some (.table t) ∧ decodeStorage t = some c.target ∧
        c.target.validate c.secrets = true := by
  simp only [TargetConfig.load, ok_bind] at h
  obtain ⟨m, hm, ⟨dz, secrets⟩, hc, s, hs, h⟩ := h
  simp only at h
  split at h
  · simp only [ok_bind] at h; obtain ⟨_, h, _⟩ := h; cases h
  rename_i hv
  cases h
  obtain ⟨h1, h2⟩ := loadMerged_ok hm
  obtain ⟨t, ht, hdec⟩ := reqSection_ok hs
  exact ⟨m, h1, h2, loadCommon_ok hc, t, ht, hdec, by simpa using hv⟩

theorem export_ok {e : Env} {root : Tbl} {c : ExportConfig} (h : ExportConfig.load e root = .ok c) :
    ∃ m, resolveIncludes e.ws e.files e.dir root = .ok m ∧ known m ["archive", "danger_zone", "secrets"] = true ∧
      (∃ defs, Common e m c.danger c.secrets defs) ∧ ∃ t s, m.get "archive" = some (.table t) ∧ decodeStorage t = some s ∧
        c.archive = s.resolve e.dir ∧ c.archive.validate c.secrets = true := by
  simp only [ExportConfig.load, ok_bind] at h
  obtain ⟨m, hm, ⟨dz, secrets⟩, hc, s, hs, h⟩ := h
  simp only at h
  split at h
  · simp only [ok_bind] at h; obtain ⟨_, h, _⟩ := h; cases h
  rename_i hv
  cases h
  obtain ⟨h1, h2⟩ := loadMerged_ok hm
  obtain ⟨t, ht, hdec⟩ := reqSection_ok hs
  exact ⟨m, h1, h2, loadCommon_ok hc, t, s, ht, hdec, rfl, by simpa using hv⟩

theorem server_ok {e : Env} {root : Tbl} {c : ServerConfig} (h : ServerConfig.load e root = .ok c) :
    ∃ m, resolveIncludes e.ws e.files e.dir root = .ok m ∧ known m ["server", "danger_zone", "secrets"] = true ∧
      (∃ defs, Common e m c.danger c.secrets defs) ∧ ∃ t, m.get "server" = some (.table t) ∧ decodeRemote t = some c.server ∧
        c.server.validate c.danger c.secrets = true := by
  simp only [ServerConfig.load, ok_bind] at h
  obtain ⟨m, hm, ⟨dz, secrets⟩, hc, s, hs, h⟩ := h
  simp only at h
  split at h
  · simp only [ok_bind] at h; obtain ⟨_, h, _⟩ := h; cases h
  rename_i hv
  cases h
  obtain ⟨h1, h2⟩ := loadMerged_ok hm
  obtain ⟨t, ht, hdec⟩ := reqSection_ok hs
  exact ⟨m, h1, h2, loadCommon_ok hc, t, ht, hdec, by simpa using hv⟩

theorem accepted_common {e : Env} {root : Tbl} {secrets : List (String × Bytes)} (h : Accepted e root secrets) :
    ∃ m dz defs, resolveIncludes e.ws e.files e.dir root = .ok m ∧ Common e m dz secrets defs := by
  rcases h with ⟨c, h, rfl⟩ | ⟨c, h, rfl⟩ | ⟨c, h, rfl⟩ | ⟨c, h, rfl⟩
  · obtain ⟨m, hm, hl⟩ := load_ok h; obtain ⟨defs, hc⟩ := hl.common; exact ⟨m, _, defs, hm, hc⟩
  · obtain ⟨m, hm, _, ⟨defs, hc⟩, _⟩ := target_ok h; exact ⟨m, _, defs, hm, hc⟩
  · obtain ⟨m, hm, _, ⟨defs, hc⟩, _⟩ := export_ok h; exact ⟨m, _, defs, hm, hc⟩
  · obtain ⟨m, hm, _, ⟨defs, hc⟩, _⟩ := server_ok h; exact ⟨m, _, defs, hm, hc⟩

/-! ## The danger zone -/

/-- The flags are what the documents say. -/
theorem common_flags {e : Env} {m : Tbl} {dz : DangerZone} {secrets : List (String × Bytes)} {defs : List (String × SecretDef)}
    (h : Common e m dz secrets defs) :
    (dz.enabled = true ↔ settings m ["danger_zone", "enabled"] = some (.value (.bool true))) ∧
    (dz.unencryptedDisk = true ↔ settings m ["danger_zone", "allow_unencrypted_disk"] = some (.value (.bool true))) ∧
    (dz.inlinePlaintext = true ↔ settings m ["danger_zone", "allow_inline_plaintext_secrets"] = some (.value (.bool true))) ∧
    (dz.regularFile = true ↔ settings m ["danger_zone", "allow_secret_over_regular_file"] = some (.value (.bool true))) ∧
    (dz.unencryptedConnection = true ↔ settings m ["danger_zone", "allow_unencrypted_connection"] = some (.value (.bool true))) ∧
    (dz.envSecrets = true ↔ settings m ["danger_zone", "allow_env_secrets"] = some (.value (.bool true))) := by
  rcases h.danger with ⟨rfl, hn⟩ | ⟨t, ht, hdec⟩
  · simp only [settings_none _ _ _ hn, DangerZone.off]; simp
  · simp only [settings_sub _ _ _ _ ht, settings_one]
    exact decodeDanger_fields hdec

variable {e : Env} {root : Tbl}

theorem common_names {m : Tbl} {dz : DangerZone} {secrets : List (String × Bytes)} {defs : List (String × SecretDef)} (hw : m.Wf)
    (h : Common e m dz secrets defs) : ((defs.map fun p => (p.1, p.2.resolve e.dir)).map Prod.fst).Nodup := by
  rw [List.map_map]
  show (defs.map Prod.fst).Nodup
  rcases h.decoded with ⟨rfl, _⟩ | ⟨t, ht, hdec⟩
  · exact List.nodup_nil
  · rw [decodeSecrets_keys hdec]; exact keys_nodup _ (wf_get hw ht)

/-- Every secret of an accepted configuration is allowed by the flags. -/
theorem common_allowed {m : Tbl} {dz : DangerZone} {secrets : List (String × Bytes)} {defs : List (String × SecretDef)} (hw : m.Wf)
    (h : Common e m dz secrets defs) {n : String} {d : SecretDef} (hd : (n, d) ∈ defs) : Allowed e.world dz (d.resolve e.dir) := by
  have hn := common_names hw h
  have hin : (n, d.resolve e.dir) ∈ defs.map fun p => (p.1, p.2.resolve e.dir) := List.mem_map.mpr ⟨_, hd, rfl⟩
  obtain ⟨b, hb⟩ := (C45_succeeds_iff hn).mp ⟨secrets, h.resolved⟩ n (List.mem_map.mpr ⟨_, hin, rfl⟩)
  cases hb with
  | plain g1 _ g3 _ _ => rwa [def_unique hn g1 hin] at g3
  | wrapped g1 _ _ g4 _ _ _ _ _ => rwa [def_unique hn g1 hin] at g4

/-- A secret the documents define is among the definitions. -/
theorem common_def {m : Tbl} {dz : DangerZone} {secrets : List (String × Bytes)} {defs : List (String × SecretDef)}
    (h : Common e m dz secrets defs) {n : String} {p : List String} {x : Setting} (hs : settings m ("secrets" :: n :: p) = some x) :
    ∃ u d, decodeSecretDef e.world.utf8 u = some d ∧ (n, d) ∈ defs ∧ ∀ q, settings m ("secrets" :: n :: q) = settings u q := by
  rcases h.decoded with ⟨_, hn⟩ | ⟨t, ht, hdec⟩
  · rw [settings_none _ _ _ hn] at hs; cases hs
  · rw [settings_sub _ _ _ _ ht] at hs
    cases hg : t.get n with
    | none => rw [settings_none _ _ _ hg] at hs; cases hs
    | some v =>
      obtain ⟨u, d, rfl, h1, h2⟩ := decodeSecrets_get hdec hg
      exact ⟨u, d, h1, h2, fun q => by rw [settings_sub _ _ _ _ ht, settings_sub _ _ _ _ hg]⟩

/-- The source of a secret is the one the documents give. -/
theorem def_source {utf8 : String → Bytes} {u : Tbl} {d : SecretDef} (h : decodeSecretDef utf8 u = some d) {kind : String} {v : String}
    (hs : settings u ["source", kind] = some (.value (.str v))) :
    (kind = "file" ∧ d.source = .file v.toList) ∨ (kind = "inline" ∧ d.source = .inline (utf8 v)) ∨ (kind = "env" ∧ d.source = .env v) := by
  obtain ⟨_, ⟨w, hw, hdec⟩, _, _⟩ := decodeSecretDef_some h
  rw [settings_sub _ _ _ _ hw] at hs
  rcases decodeSecretSource_some hdec with ⟨v', h1, h2, h3⟩ | ⟨v', h1, h2, h3⟩ | ⟨v', h1, h2, h3⟩
  all_goals
    obtain rfl := one_key h1 hs
    rw [(settings_one w _ _)] at hs
    rw [h2] at hs
    cases hs
    simp [h3]

/-- C44: a secret from the environment needs the danger zone and its flag. -/
theorem C44_env {secrets : List (String × Bytes)} (hd : Docs e root) (h : Accepted e root secrets) {n v : String}
    (hs : Says e root ["secrets", n, "source", "env"] (.str v)) : Allows e root "allow_env_secrets" := by
  obtain ⟨m, dz, defs, hm, hc⟩ := accepted_common h
  have hs := (merged_has hd hm _ _).mpr hs
  obtain ⟨u, d, h1, h2, h3⟩ := common_def hc hs
  have ha := common_allowed (merged_wf hd hm) hc h2
  rw [h3] at hs
  rcases def_source h1 hs with ⟨hk, _⟩ | ⟨hk, _⟩ | ⟨_, hsrc⟩
  · exact absurd hk (by decide)
  · exact absurd hk (by decide)
  · simp only [Allowed, SecretDef.resolve, hsrc] at ha
    obtain ⟨f1, _, _, _, _, f6⟩ := common_flags hc
    exact ⟨(merged_has hd hm _ _).mp (f1.mp ha.1), (merged_has hd hm _ _).mp (f6.mp ha.2)⟩

/-- C44: a secret in the configuration itself that is not encrypted needs the danger zone and its flag. -/
theorem C44_inline {secrets : List (String × Bytes)} (hd : Docs e root) (h : Accepted e root secrets) {n v : String}
    (hs : Says e root ["secrets", n, "source", "inline"] (.str v)) (hk : Silent e root ["secrets", n, "encrypted_by"]) :
    Allows e root "allow_inline_plaintext_secrets" := by
  obtain ⟨m, dz, defs, hm, hc⟩ := accepted_common h
  have hs := (merged_has hd hm _ _).mpr hs
  obtain ⟨u, d, h1, h2, h3⟩ := common_def hc hs
  have ha := common_allowed (merged_wf hd hm) hc h2
  rw [h3] at hs
  rcases def_source h1 hs with ⟨hk, _⟩ | ⟨_, hsrc⟩ | ⟨hk, _⟩
  · exact absurd hk (by decide)
  · simp only [Allowed, SecretDef.resolve, hsrc] at ha
    have henc : d.encryptedBy = none := by
      obtain ⟨_, _, _, h4⟩ := decodeSecretDef_some h1
      rcases refAt_some h4 with ⟨h, _⟩ | ⟨s, r, _, h, _⟩
      · exact h
      · exfalso
        apply hk .table
        rw [← merged_has hd hm, h3, settings_sub _ _ _ _ h]; rfl
    obtain ⟨f1, _, f3, _, _, _⟩ := common_flags hc
    have ha := ha henc
    exact ⟨(merged_has hd hm _ _).mp (f1.mp ha.1), (merged_has hd hm _ _).mp (f3.mp ha.2)⟩
  · exact absurd hk (by decide)

/-- C44: a secret from a regular file needs the danger zone and its flag. -/
theorem C44_regular_file {secrets : List (String × Bytes)} (hd : Docs e root) (h : Accepted e root secrets) {n v : String}
    (hs : Says e root ["secrets", n, "source", "file"] (.str v)) {f : SecretFile} (hf : e.world.file (resolvePath e.dir v.toList) = some f)
    (hr : f.regular = true) : Allows e root "allow_secret_over_regular_file" := by
  obtain ⟨m, dz, defs, hm, hc⟩ := accepted_common h
  have hs := (merged_has hd hm _ _).mpr hs
  obtain ⟨u, d, h1, h2, h3⟩ := common_def hc hs
  have ha := common_allowed (merged_wf hd hm) hc h2
  rw [h3] at hs
  rcases def_source h1 hs with ⟨_, hsrc⟩ | ⟨hk, _⟩ | ⟨hk, _⟩
  · simp only [Allowed, SecretDef.resolve, hsrc] at ha
    obtain ⟨f1, _, _, f4, _, _⟩ := common_flags hc
    have ha := ha f hf hr
    exact ⟨(merged_has hd hm _ _).mp (f1.mp ha.1), (merged_has hd hm _ _).mp (f4.mp ha.2)⟩
  · exact absurd hk (by decide)
  · exact absurd hk (by decide)

/-- C44: a disk without an encryption section needs the danger zone and its flag. -/
theorem C44_unencrypted_disk (hd : Docs e root) {c : Config} (h : Config.load e root = .ok c) (hn : Silent e root ["encryption"]) :
    Allows e root "allow_unencrypted_disk" := by
  obtain ⟨m, hm, hl⟩ := load_ok h
  obtain ⟨defs, hc⟩ := hl.common
  obtain ⟨f1, f2, _⟩ := common_flags hc
  have henc : c.encryption = none := by
    rcases hl.encryption with ⟨h, _⟩ | ⟨t, k, _, h, _⟩
    · exact h
    · exact absurd ((merged_has hd hm _ .table).mp (by rw [settings_sub _ _ _ _ h]; rfl)) (hn .table)
  have hok := hl.encryptionOk
  rw [henc, checkEncryption] at hok
  have hb : c.danger.enabled = true ∧ c.danger.unencryptedDisk = true := by
    cases h1 : c.danger.enabled <;> cases h2 : c.danger.unencryptedDisk <;> simp [h1, h2] at hok ⊢
  exact ⟨(merged_has hd hm _ _).mp (f1.mp hb.1), (merged_has hd hm _ _).mp (f2.mp hb.2)⟩

/-- C44: with an encryption section, the key it names is a secret of 64 bytes, and it is the one in effect. -/
theorem C44_key (hd : Docs e root) {c : Config} (h : Config.load e root = .ok c) {x : Setting} (hx : Has e root ["encryption"] x) :
    ∃ k b, Says e root ["encryption", "xts_key", "ref"] (.str k) ∧ c.encryption = some k ∧ c.secrets.lookup k = some b ∧ b.length = 64 := by
  obtain ⟨m, hm, hl⟩ := load_ok h
  rcases hl.encryption with ⟨_, h⟩ | ⟨t, k, hk, h, hdec⟩
  · have := (merged_has hd hm _ _).mpr hx
    rw [settings_none _ _ _ h] at this; cases this
  · simp only [decodeEncryption, bind_some, guard_some] at hdec
    obtain ⟨_, _, hdec⟩ := hdec
    obtain ⟨r, h1, h2, h3⟩ := reqRef_some hdec
    have hok := hl.encryptionOk
    rw [hk, checkEncryption] at hok
    split at hok
    · rename_i hso
      obtain ⟨b, hlk, hb⟩ := secretOk_iff.mp hso
      refine ⟨k, b, (merged_has hd hm _ _).mp ?_, hk, hlk, by simpa using hb⟩
      rw [settings_sub _ _ _ _ h, settings_sub _ _ _ _ h1, settings_one]; exact h3
    · cases hok

theorem pskAt_some {t : Tbl} {k : String} {o : Option Psk} (h : pskAt t k = some o) :
    (o = none ∧ t.get k = none) ∨ ∃ q u, o = some q ∧ t.get k = some (.table u) ∧ decodePsk u = some q := by
  unfold pskAt at h
  split at h
  · cases h; exact Or.inl ⟨rfl, by assumption⟩
  · rw [Option.map_eq_some_iff] at h
    obtain ⟨q, hq, rfl⟩ := h
    exact Or.inr ⟨q, _, rfl, by assumption, hq⟩
  · cases h

theorem decodeRemote_psk {t : Tbl} {r : Remote} (h : decodeRemote t = some r) : pskAt t "psk" = some r.psk := by
  simp only [decodeRemote, bind_some, guard_some] at h
  obtain ⟨_, hk, v0, h0, v1, h1, v2, h2, v3, h3, v4, h4, v5, h5, h⟩ := h
  cases h
  exact h1

/-- The remote settings, wherever they are: without a PSK the switches are set; with one, its secret has 16 bytes or more. -/
theorem remote_checked {m t : Tbl} {dz : DangerZone} {secrets : List (String × Bytes)} {defs : List (String × SecretDef)}
    (hc : Common e m dz secrets defs) {r : Remote} (hr : decodeRemote t = some r) (hv : r.validate dz secrets = true) :
    (t.get "psk" = none → dz.enabled = true ∧ dz.unencryptedConnection = true) ∧
    (t.get "psk" ≠ none → ∃ q b, r.psk = some q ∧ settings t ["psk", "secret", "ref"] = some (.value (.str q.secret)) ∧
      secrets.lookup q.secret = some b ∧ 16 ≤ b.length) := by
  simp only [Remote.validate, Bool.and_eq_true] at hv
  obtain ⟨⟨⟨⟨h1, h2⟩, _⟩, _⟩, _⟩ := hv
  rcases pskAt_some (decodeRemote_psk hr) with ⟨hp, hg⟩ | ⟨q, u, hp, hg, hq⟩
  · refine ⟨fun _ => ?_, fun h => absurd hg h⟩
    rw [hp] at h1
    cases ha : dz.enabled <;> cases hb : dz.unencryptedConnection <;> simp [ha, hb] at h1 ⊢
  · refine ⟨fun h => (by rw [hg] at h; cases h), fun _ => ?_⟩
    rw [hp] at h2
    simp only [Option.map_some, optSecretOk, secretOk] at h2
    simp only [decodePsk, bind_some, guard_some] at hq
    obtain ⟨_, _, v0, h0, v1, h1', hq⟩ := hq
    cases hq
    obtain ⟨w, g1, g2, g3⟩ := reqRef_some h1'
    cases hl : secrets.lookup v1 with
    | none => rw [hl] at h2; cases h2
    | some b =>
      rw [hl] at h2
      refine ⟨_, b, hp, ?_, hl, by simpa using h2⟩
      rw [settings_sub _ _ _ _ hg, settings_sub _ _ _ _ g1, settings_one]; exact g3

theorem decodeSource_remote {t : Tbl} {s : StripeSource} (hd : decodeSource t = some s) (ht : settings t ["type"] = some (.value (.str "remote"))) :
    ∃ r, s = .remote r ∧ decodeRemote (t.remove "type") = some r := by
  simp only [decodeSource, bind_some] at hd
  obtain ⟨x, hx, hd⟩ := hd
  have := reqStr_some hx
  rw [(settings_one ..).mp ht] at this
  cases this
  simp only [String.reduceEq, if_false, if_true] at hd
  rw [Option.map_eq_some_iff] at hd
  obtain ⟨r, hr, rfl⟩ := hd
  exact ⟨r, rfl, hr⟩

/-- C44: stripes fetched from a server without a PSK need the danger zone and its flag; a PSK has at least 16 bytes. -/
theorem C44_connection (hd : Docs e root) {c : Config} (h : Config.load e root = .ok c)
    (hr : Says e root ["stripe_source", "type"] (.str "remote")) :
    (Silent e root ["stripe_source", "psk"] → Allows e root "allow_unencrypted_connection") ∧
    ((∃ x, Has e root ["stripe_source", "psk"] x) → ∃ k b, Says e root ["stripe_source", "psk", "secret", "ref"] (.str k) ∧
      c.secrets.lookup k = some b ∧ 16 ≤ b.length) := by
  obtain ⟨m, hm, hl⟩ := load_ok h
  obtain ⟨defs, hc⟩ := hl.common
  obtain ⟨f1, _, _, _, f5, _⟩ := common_flags hc
  have hr := (merged_has hd hm _ _).mpr hr
  rcases hl.source with ⟨_, hg⟩ | ⟨t, s, hs, hg, hdec, hv⟩
  · rw [settings_none _ _ _ hg] at hr; cases hr
  · have hw := wf_get (merged_wf hd hm) hg
    rw [settings_sub _ _ _ _ hg] at hr
    obtain ⟨r, rfl, hrem⟩ := decodeSource_remote hdec hr
    obtain ⟨k1, k2⟩ := remote_checked hc hrem hv
    have hrm : ∀ p, settings (t.remove "type") ("psk" :: p) = settings t ("psk" :: p) := by
      intro p; rw [settings_cons, get_remove _ _ hw, if_neg (by decide), ← settings_cons]
    have hgp : (t.remove "type").get "psk" = t.get "psk" := by rw [get_remove _ _ hw, if_neg (by decide)]
    rw [hgp] at k1 k2
    constructor
    · intro hn
      have : t.get "psk" = none := by
        cases hg' : t.get "psk" with
        | none => rfl
        | some v =>
          exfalso
          cases v with
          | atom a => exact hn (.value a) ((merged_has hd hm _ _).mp (by rw [settings_sub _ _ _ _ hg, settings_one]; exact hg'))
          | table u => exact hn .table ((merged_has hd hm _ _).mp (by rw [settings_sub _ _ _ _ hg, settings_sub _ _ _ _ hg']; rfl))
      obtain ⟨a, b⟩ := k1 this
      exact ⟨(merged_has hd hm _ _).mp (f1.mp a), (merged_has hd hm _ _).mp (f5.mp b)⟩
    · rintro ⟨x, hx⟩
      have hx := (merged_has hd hm _ _).mpr hx
      have : t.get "psk" ≠ none := by
        intro h0; rw [settings_sub _ _ _ _ hg, settings_none _ _ _ h0] at hx; cases hx
      obtain ⟨q, b, _, g1, g2, g3⟩ := k2 this
      rw [hrm] at g1
      exact ⟨q.secret, b, (merged_has hd hm _ _).mp (by rw [settings_sub _ _ _ _ hg]; exact g1), g2, g3⟩

/-- C44: the same for a stripe server. -/
theorem C44_server_connection (hd : Docs e root) {c : ServerConfig} (h : ServerConfig.load e root = .ok c) :
    (Silent e root ["server", "psk"] → Allows e root "allow_unencrypted_connection") ∧
    ((∃ x, Has e root ["server", "psk"] x) → ∃ k b, Says e root ["server", "psk", "secret", "ref"] (.str k) ∧
      c.secrets.lookup k = some b ∧ 16 ≤ b.length) := by
  obtain ⟨m, hm, _, ⟨defs, hc⟩, t, hg, hdec, hv⟩ := server_ok h
  obtain ⟨f1, _, _, _, f5, _⟩ := common_flags hc
  obtain ⟨k1, k2⟩ := remote_checked hc hdec hv
  constructor
  · intro hn
    have : t.get "psk" = none := by
      cases hg' : t.get "psk" with
      | none => rfl
      | some v =>
        exfalso
        cases v with
        | atom a => exact hn (.value a) ((merged_has hd hm _ _).mp (by rw [settings_sub _ _ _ _ hg, settings_one]; exact hg'))
        | table u => exact hn .table ((merged_has hd hm _ _).mp (by rw [settings_sub _ _ _ _ hg, settings_sub _ _ _ _ hg']; rfl))
    obtain ⟨a, b⟩ := k1 this
    exact ⟨(merged_has hd hm _ _).mp (f1.mp a), (merged_has hd hm _ _).mp (f5.mp b)⟩
  · rintro ⟨x, hx⟩
    have hx := (merged_has hd hm _ _).mpr hx
    have : t.get "psk" ≠ none := by
      intro h0; rw [settings_sub _ _ _ _ hg, settings_none _ _ _ h0] at hx; cases hx
    obtain ⟨q, b, _, g1, g2, g3⟩ := k2 this
    exact ⟨q.secret, b, (merged_has hd hm _ _).mp (by rw [settings_sub _ _ _ _ hg]; exact g1), g2, g3⟩

/-! ## C47: tuning -/

/-- The documented ranges of `[tuning]`. -/
def InRange (t : Tuning) : Prop :=
  (1 ≤ t.numQueues ∧ t.numQueues ≤ 63) ∧ (∃ k, k ≤ 16 ∧ t.queueSize = 2 ^ k) ∧ (1 ≤ t.segSizeMax ∧ t.segSizeMax ≤ 1048576) ∧
    (1 ≤ t.segCountMax ∧ t.segCountMax ≤ 256) ∧ (∀ c, t.cpus = some c → c.length = t.numQueues) ∧ t.pollTimeoutUs ≤ 10000000

theorem countOnes_zero (n : Nat) : countOnes n = 0 ↔ n = 0 := by
  induction n using Nat.strongRecOn with
  | ind n ih =>
    rw [countOnes]
    split
    · simp [*]
    · have := ih (n / 2) (by omega)
      omega

theorem countOnes_one (n : Nat) : countOnes n = 1 ↔ ∃ k, n = 2 ^ k := by
  induction n using Nat.strongRecOn with
  | ind n ih =>
    rw [countOnes]
    by_cases h0 : n = 0
    · rw [if_pos h0]
      constructor
      · intro h; cases h
      · rintro ⟨k, hk⟩; have := Nat.pow_pos (n := k) (show 0 < 2 by decide); omega
    · rw [if_neg h0]
      have hz := countOnes_zero (n / 2)
      have hi := ih (n / 2) (by omega)
      by_cases h2 : n % 2 = 0
      · rw [h2, Nat.zero_add, hi]
        constructor
        · rintro ⟨k, hk⟩; exact ⟨k + 1, by rw [Nat.pow_succ]; omega⟩
        · rintro ⟨k, hk⟩
          cases k with
          | zero => rw [Nat.pow_zero] at hk; omega
          | succ k => rw [Nat.pow_succ] at hk; exact ⟨k, by omega⟩
      · constructor
        · intro h; exact ⟨0, by rw [Nat.pow_zero]; have := hz.mp (by omega); omega⟩
        · rintro ⟨k, hk⟩
          cases k with
          | zero => rw [Nat.pow_zero] at hk; have := hz.mpr (by omega); omega
          | succ k => rw [Nat.pow_succ] at hk; omega

/-- C47: a tuning section is accepted exactly if every field is in its documented range. -/
theorem C47_accepted_iff (t : Tuning) : t.validate = true ↔ InRange t := by
  have hq : (!(t.queueSize = 0 || t.queueSize > 65536 || !(countOnes t.queueSize = 1))) = true ↔ ∃ k, k ≤ 16 ∧ t.queueSize = 2 ^ k := by
    simp only [Bool.not_eq_true', Bool.or_eq_false_iff, decide_eq_false_iff_not, Bool.not_eq_false', decide_eq_true_eq, countOnes_one]
    constructor
    · rintro ⟨⟨h1, h2⟩, k, hk⟩
      refine ⟨k, ?_, hk⟩
      apply Nat.le_of_not_lt
      intro h
      have := Nat.pow_le_pow_right (show 1 ≤ 2 by decide) (show 17 ≤ k by omega)
      omega
    · rintro ⟨k, h, hk⟩
      have h1 := Nat.pow_le_pow_right (show 1 ≤ 2 by decide) h
      have h2 := Nat.pow_pos (n := k) (show 0 < 2 by decide)
      exact ⟨⟨by omega, by omega⟩, k, hk⟩
  have hc : t.cpusOk = true ↔ ∀ c, t.cpus = some c → c.length = t.numQueues := by
    unfold Tuning.cpusOk; cases t.cpus <;> simp
  unfold Tuning.validate InRange
  simp only [Bool.and_eq_true]
  rw [hc, hq]
  simp only [Bool.not_eq_true', Bool.or_eq_false_iff, decide_eq_false_iff_not]
  constructor
  · rintro ⟨⟨⟨⟨⟨h1, h2⟩, h3⟩, h4⟩, h5⟩, h6⟩
    exact ⟨⟨by omega, by omega⟩, h2, ⟨by omega, by omega⟩, ⟨by omega, by omega⟩, h5, by omega⟩
  · rintro ⟨h1, h2, h3, h4, h5, h6⟩
    exact ⟨⟨⟨⟨⟨⟨by omega, by omega⟩, h2⟩, ⟨by omega, by omega⟩⟩, ⟨by omega, by omega⟩⟩, h5⟩, by omega⟩

/-- A number of the documents, or the default if they have none. -/
def SaysNat (e : Env) (root : Tbl) (p : List String) (default n : Nat) : Prop :=
  Says e root p (.int n) ∨ Silent e root p ∧ n = default

theorem silent_none {m : Tbl} (hd : Docs e root) (hm : resolveIncludes e.ws e.files e.dir root = .ok m) {p : List String} (h : settings m p = none) :
    Silent e root p := by
  intro x hx
  rw [← merged_has hd hm, h] at hx; cases hx

theorem says_nat {m t : Tbl} (hd : Docs e root) (hm : resolveIncludes e.ws e.files e.dir root = .ok m) {s k : String} (hg : m.get s = some (.table t))
    {lim d n : Nat} (h : natAt lim t k d = some n) : SaysNat e root [s, k] d n := by
  rcases natAt_some h with ⟨hn, h'⟩ | ⟨h', _⟩
  · exact Or.inr ⟨silent_none hd hm (by rw [settings_sub _ _ _ _ hg, settings_none _ _ _ h']), hn⟩
  · exact Or.inl ((merged_has hd hm _ _).mp (by rw [settings_sub _ _ _ _ hg, settings_one]; exact h'))

/-- C47: the tuning of an accepted configuration is in range, and is what the documents say, with the documented defaults. -/
theorem C47_in_effect (hd : Docs e root) {c : Config} (h : Config.load e root = .ok c) :
    InRange c.tuning ∧ SaysNat e root ["tuning", "num_queues"] 1 c.tuning.numQueues ∧ SaysNat e root ["tuning", "queue_size"] 64 c.tuning.queueSize ∧
      SaysNat e root ["tuning", "seg_size_max"] 65536 c.tuning.segSizeMax ∧ SaysNat e root ["tuning", "seg_count_max"] 4 c.tuning.segCountMax ∧
      SaysNat e root ["tuning", "poll_timeout_us"] 1000 c.tuning.pollTimeoutUs ∧
      (c.tuning.writeThrough = true ↔ Says e root ["tuning", "write_through"] (.bool true)) := by
  obtain ⟨m, hm, hl⟩ := load_ok h
  refine ⟨(C47_accepted_iff _).mp hl.tuningOk, ?_⟩
  rcases hl.tuning with ⟨ht, hg⟩ | ⟨t, hg, hdec⟩
  · have hs : ∀ k, Silent e root ["tuning", k] := fun k => silent_none hd hm (settings_none _ _ _ hg)
    rw [ht]
    refine ⟨Or.inr ⟨hs _, rfl⟩, Or.inr ⟨hs _, rfl⟩, Or.inr ⟨hs _, rfl⟩, Or.inr ⟨hs _, rfl⟩, Or.inr ⟨hs _, rfl⟩, ?_⟩
    constructor
    · intro h; cases h
    · intro h; exact absurd h (hs _ _)
  · simp only [decodeTuning, bind_some, guard_some] at hdec
    obtain ⟨_, hk, v0, h0, v1, h1, v2, h2, v3, h3, v4, h4, v5, h5, v6, h6, v7, h7, hdec⟩ := hdec
    have hc := Option.some.inj hdec
    rw [← hc]
    refine ⟨says_nat hd hm hg h0, says_nat hd hm hg h1, says_nat hd hm hg h2, says_nat hd hm hg h3, says_nat hd hm hg h4, ?_⟩
    rw [Says, ← merged_has hd hm, settings_sub _ _ _ _ hg, settings_one]
    exact boolAt_true h7

/-! ## C58: relative paths -/

theorem walk_nil_piece (d : List (List Char)) : walk d [[]] = d := rfl

theorem walk_join (cwd : List (List Char)) (dir p : List Char) (hp : isAbsolute p = false) :
    walk cwd (pieces (join dir p)) = walk (walk cwd (pieces dir)) (pieces p) := by
  unfold join
  rw [hp]
  simp only [Bool.false_eq_true, if_false]
  by_cases hd : dir = []
  · rw [if_pos hd, hd]; rfl
  · rw [if_neg hd]
    by_cases hl : dir.getLast? = some '/'
    · rw [if_pos hl]
      obtain ⟨d, rfl⟩ : ∃ d, dir = d ++ ['/'] := by
        obtain ⟨h, h'⟩ := List.getLast?_eq_some_iff.mp hl
        exact ⟨h, h'⟩
      rw [List.append_assoc, List.singleton_append, pieces_append, pieces_append, walk_append, walk_append]
      rfl
    · rw [if_neg hl, pieces_append, walk_append]

theorem resolvePath_leads (dir : List Char) (p : String) : Leads dir p (resolvePath dir p.toList) := by
  unfold Leads resolvePath
  split
  · rename_i h
    rw [if_pos (by simpa [isAbsolute] using h)]
  · rename_i h
    have ha : isAbsolute p.toList = false := by simpa [isAbsolute] using h
    rw [if_neg (by rw [ha]; decide)]
    intro cwd
    exact walk_join cwd dir _ ha

theorem says_atom {m t : Tbl} (hd : Docs e root) (hm : resolveIncludes e.ws e.files e.dir root = .ok m) {s k : String} (hg : m.get s = some (.table t))
    (a : Atom) : Says e root [s, k] a ↔ t.get k = some (.atom a) := by
  rw [Says, ← merged_has hd hm, settings_sub _ _ _ _ hg, settings_one]

theorem strAt_says {t : Tbl} {k : String} {o : Option String} (h : strAt t k = some o) {p : String} (hp : t.get k = some (.atom (.str p))) : o = some p := by
  rcases strAt_some h with ⟨_, h'⟩ | ⟨s, hs, h'⟩
  · rw [hp] at h'; cases h'
  · rw [hp] at h'; cases h'; exact hs

/-- C58: the paths of the device section mean files relative to the configuration's directory. -/
theorem C58_device_partial (hd : Docs e root) {c : Config} (h : Config.load e root = .ok c) :
    (∃ p, Says e root ["device", "data_path"] (.str p) ∧ Leads e.dir p c.device.dataPath) ∧
    (∀ p, Says e root ["device", "metadata_path"] (.str p) → ∃ r, c.device.metadataPath = some r ∧ Leads e.dir p r) ∧
    (∀ p, Says e root ["device", "vhost_socket"] (.str p) → ∃ r, c.device.vhostSocket = some r ∧ Leads e.dir p r) ∧
    (∀ p, Says e root ["device", "rpc_socket"] (.str p) → ∃ r, c.device.rpcSocket = some r ∧ Leads e.dir p r) := by
  obtain ⟨m, hm, hl⟩ := load_ok h
  obtain ⟨t, d, hg, hdec, hc⟩ := hl.device
  simp only [decodeDevice, bind_some, guard_some] at hdec
  obtain ⟨_, hk, v0, h0, v1, h1, v2, h2, v3, h3, v4, h4, v5, h5, hdec⟩ := hdec
  have hd' := Option.some.inj hdec
  rw [hc, ← hd']
  refine ⟨⟨v0, (says_atom hd hm hg _).mpr (reqStr_some h0), resolvePath_leads _ _⟩, ?_, ?_, ?_⟩
  · intro p hp
    rw [strAt_says h1 ((says_atom hd hm hg _).mp hp)]; exact ⟨_, rfl, resolvePath_leads _ _⟩
  · intro p hp
    rw [strAt_says h2 ((says_atom hd hm hg _).mp hp)]; exact ⟨_, rfl, resolvePath_leads _ _⟩
  · intro p hp
    rw [strAt_says h3 ((says_atom hd hm hg _).mp hp)]; exact ⟨_, rfl, resolvePath_leads _ _⟩

theorem decodeStorage_fs {t : Tbl} {s : Storage} (h : decodeStorage t = some s) (hs : t.get "storage" = some (.atom (.str "filesystem"))) :
    ∃ p kek a, s = .filesystem p kek a ∧ ∃ q, t.get "path" = some (.atom (.str q)) ∧ p = q.toList := by
  simp only [decodeStorage, bind_some] at h
  obtain ⟨x, hx, h⟩ := h
  have := reqStr_some hx
  rw [hs] at this; cases this
  rw [if_pos rfl] at h
  simp only [decodeFs, bind_some, guard_some] at h
  obtain ⟨_, hk, v0, h0, v1, h1, v2, h2, h⟩ := h
  cases h
  exact ⟨_, _, _, rfl, v0, reqStr_some h0, rfl⟩

/-- C58: so does the image of a raw stripe source. -/
theorem C58_raw_source_partial (hd : Docs e root) {c : Config} (h : Config.load e root = .ok c) (ht : Says e root ["stripe_source", "type"] (.str "raw")) :
    ∃ p r a cor, Says e root ["stripe_source", "image_path"] (.str p) ∧ c.source = some (.raw r a cor) ∧ Leads e.dir p r := by
  obtain ⟨m, hm, hl⟩ := load_ok h
  rcases hl.source with ⟨_, hg⟩ | ⟨t, s, hs, hg, hdec, _⟩
  · have := (merged_has hd hm _ _).mpr ht
    rw [settings_none _ _ _ hg] at this; cases this
  · have hw := wf_get (merged_wf hd hm) hg
    have ht := (says_atom hd hm hg _).mp ht
    simp only [decodeSource, bind_some] at hdec
    obtain ⟨x, hx, hdec⟩ := hdec
    have := reqStr_some hx
    rw [ht] at this; cases this
    rw [if_pos rfl] at hdec
    simp only [decodeRaw, bind_some, guard_some] at hdec
    obtain ⟨_, hk, v0, h0, v1, h1, v2, h2, hdec⟩ := hdec
    cases hdec
    have := reqStr_some h0
    rw [get_remove _ _ hw, if_neg (by decide)] at this
    exact ⟨v0, _, v1, v2, (says_atom hd hm hg _).mpr this, hs, resolvePath_leads _ _⟩

/-- C58: so does the directory of an archive used as stripe source. -/
theorem C58_archive_source_partial (hd : Docs e root) {c : Config} (h : Config.load e root = .ok c) (ht : Says e root ["stripe_source", "type"] (.str "archive"))
    (hst : Says e root ["stripe_source", "storage"] (.str "filesystem")) :
    ∃ p r kek a, Says e root ["stripe_source", "path"] (.str p) ∧ c.source = some (.archive (.filesystem r kek a)) ∧ Leads e.dir p r := by
  obtain ⟨m, hm, hl⟩ := load_ok h
  rcases hl.source with ⟨_, hg⟩ | ⟨t, s, hs, hg, hdec, _⟩
  · have := (merged_has hd hm _ _).mpr ht
    rw [settings_none _ _ _ hg] at this; cases this
  · have hw := wf_get (merged_wf hd hm) hg
    have ht := (says_atom hd hm hg _).mp ht
    have hst := (says_atom hd hm hg _).mp hst
    simp only [decodeSource, bind_some] at hdec
    obtain ⟨x, hx, hdec⟩ := hdec
    have := reqStr_some hx
    rw [ht] at this; cases this
    rw [if_neg (by decide), if_pos rfl, Option.map_eq_some_iff] at hdec
    obtain ⟨st, hdec, rfl⟩ := hdec
    obtain ⟨p, kek, a, rfl, q, hq, rfl⟩ := decodeStorage_fs hdec (by rw [get_remove _ _ hw, if_neg (by decide)]; exact hst)
    rw [get_remove _ _ hw, if_neg (by decide)] at hq
    exact ⟨q, _, kek, a, (says_atom hd hm hg _).mpr hq, hs, resolvePath_leads _ _⟩

/-- C58: so does the directory of an archive to export. -/
theorem C58_export_partial (hd : Docs e root) {c : ExportConfig} (h : ExportConfig.load e root = .ok c)
    (hst : Says e root ["archive", "storage"] (.str "filesystem")) :
    ∃ p r kek a, Says e root ["archive", "path"] (.str p) ∧ c.archive = .filesystem r kek a ∧ Leads e.dir p r := by
  obtain ⟨m, hm, _, _, t, s, hg, hdec, hc, _⟩ := export_ok h
  obtain ⟨p, kek, a, rfl, q, hq, rfl⟩ := decodeStorage_fs hdec ((says_atom hd hm hg _).mp hst)
  exact ⟨q, _, kek, a, (says_atom hd hm hg _).mpr hq, hc, resolvePath_leads _ _⟩

/-- C58: so does the file of a secret. -/
theorem C58_secret_file_partial {secrets : List (String × Bytes)} (hd : Docs e root) (h : Accepted e root secrets) {n p : String}
    (hs : Says e root ["secrets", n, "source", "file"] (.str p)) : ∃ r f, Leads e.dir p r ∧ e.world.file r = some f ∧ f.contents ≠ none := by
  obtain ⟨m, dz, defs, hm, hc⟩ := accepted_common h
  have hs := (merged_has hd hm _ _).mpr hs
  obtain ⟨u, d, h1, h2, h3⟩ := common_def hc hs
  rw [h3] at hs
  rcases def_source h1 hs with ⟨_, hsrc⟩ | ⟨hk, _⟩ | ⟨hk, _⟩
  · have hn := common_names (merged_wf hd hm) hc
    have hin : (n, d.resolve e.dir) ∈ defs.map fun p => (p.1, p.2.resolve e.dir) := List.mem_map.mpr ⟨_, h2, rfl⟩
    obtain ⟨b, hb⟩ := (C45_succeeds_iff hn).mp ⟨secrets, hc.resolved⟩ n (List.mem_map.mpr ⟨_, hin, rfl⟩)
    have hat : ∃ b, AtSource e.world (d.resolve e.dir) b := by
      cases hb with
      | plain g1 _ _ g4 _ => rw [def_unique hn g1 hin] at g4; exact ⟨_, g4⟩
      | wrapped g1 _ _ _ g5 _ _ _ _ => rw [def_unique hn g1 hin] at g5; exact ⟨_, g5⟩
    obtain ⟨b, x, hx, _⟩ := hat
    simp only [SecretDef.resolve, hsrc, sourceText] at hx
    cases hf : e.world.file (resolvePath e.dir p.toList) with
    | none => rw [hf] at hx; cases hx
    | some f =>
      rw [hf] at hx
      refine ⟨_, f, resolvePath_leads _ _, hf, ?_⟩
      intro h0
      rw [Option.bind_some, h0] at hx; cases hx
  · exact absurd hk (by decide)
  · exact absurd hk (by decide)

/-- C58 is false of the target of an archive: its path is used as it is written, so it means a file relative to the directory the
program was started in. -/
theorem C58_target_not_resolved (hd : Docs e root) {c : TargetConfig} (h : TargetConfig.load e root = .ok c)
    (hst : Says e root ["target", "storage"] (.str "filesystem")) :
    ∃ p kek a, Says e root ["target", "path"] (.str p) ∧ c.target = .filesystem p.toList kek a := by
  obtain ⟨m, hm, _, _, t, hg, hdec, _⟩ := target_ok h
  obtain ⟨p, kek, a, hc, q, hq, rfl⟩ := decodeStorage_fs hdec ((says_atom hd hm hg _).mp hst)
  exact ⟨q, kek, a, (says_atom hd hm hg _).mpr hq, hc⟩

/-! ## C59: no setting is ignored -/

theorem sourceKey_resolve (dir : List Char) (s : StripeSource) (p : List String) : sourceKey (s.resolve dir) p ↔ sourceKey s p := by
  cases s with
  | archive st => cases st <;> exact Iff.rfl
  | _ => exact Iff.rfl

theorem storageKey_resolve (dir : List Char) (s : Storage) (p : List String) : storageKey (s.resolve dir) p ↔ storageKey s p := by
  cases s <;> exact Iff.rfl

theorem common_danger_key {m : Tbl} {dz : DangerZone} {secrets : List (String × Bytes)} {defs : List (String × SecretDef)}
    (hc : Common e m dz secrets defs) {q : List String} {x : Setting} (hs : settings m ("danger_zone" :: q) = some x) :
    commonKey ("danger_zone" :: q) := by
  rcases hc.danger with ⟨_, hg⟩ | ⟨t, hg, hdec⟩
  · rw [settings_none _ _ _ hg] at hs; cases hs
  · rw [settings_sub _ _ _ _ hg] at hs
    exact Or.inr (Or.inl ⟨q, decodeDanger_paths hdec hs, rfl⟩)

theorem common_secrets_key {m : Tbl} {dz : DangerZone} {secrets : List (String × Bytes)} {defs : List (String × SecretDef)}
    (hc : Common e m dz secrets defs) {q : List String} {x : Setting} (hs : settings m ("secrets" :: q) = some x) :
    commonKey ("secrets" :: q) := by
  cases q with
  | nil => exact Or.inr (Or.inr (Or.inl rfl))
  | cons n q =>
    obtain ⟨u, d, h1, _, h3⟩ := common_def hc hs
    rw [h3] at hs
    exact Or.inr (Or.inr (Or.inr ⟨n, q, decodeSecretDef_paths h1 hs, rfl⟩))

/-- C59: in an accepted device configuration every key is a known one, of the kind of stripe source and storage it has. -/
theorem C59_config (hd : Docs e root) {c : Config} (h : Config.load e root = .ok c) {p : List String} {x : Setting} (hp : Has e root p x) :
    commonKey p ∨ (∃ q ∈ devicePaths, p = "device" :: q) ∨ (∃ q ∈ tuningPaths, p = "tuning" :: q) ∨ (∃ q ∈ encryptionPaths, p = "encryption" :: q) ∨
      ∃ s q, c.source = some s ∧ sourceKey s q ∧ p = "stripe_source" :: q := by
  obtain ⟨m, hm, hl⟩ := load_ok h
  obtain ⟨defs, hc⟩ := hl.common
  have hs := (merged_has hd hm _ _).mpr hp
  rcases known_paths hl.known hs with rfl | ⟨k, hk, q, rfl⟩
  · exact Or.inl (Or.inl rfl)
  · simp only [List.mem_cons, List.not_mem_nil, or_false] at hk
    rcases hk with rfl | rfl | rfl | rfl | rfl | rfl
    · obtain ⟨t, d, hg, hdec, _⟩ := hl.device
      rw [settings_sub _ _ _ _ hg] at hs
      exact Or.inr (Or.inl ⟨q, decodeDevice_paths hdec hs, rfl⟩)
    · rcases hl.tuning with ⟨_, hg⟩ | ⟨t, hg, hdec⟩
      · rw [settings_none _ _ _ hg] at hs; cases hs
      · rw [settings_sub _ _ _ _ hg] at hs
        exact Or.inr (Or.inr (Or.inl ⟨q, decodeTuning_paths hdec hs, rfl⟩))
    · rcases hl.encryption with ⟨_, hg⟩ | ⟨t, d, _, hg, hdec⟩
      · rw [settings_none _ _ _ hg] at hs; cases hs
      · rw [settings_sub _ _ _ _ hg] at hs
        exact Or.inr (Or.inr (Or.inr (Or.inl ⟨q, decodeEncryption_paths hdec hs, rfl⟩)))
    · exact Or.inl (common_danger_key hc hs)
    · rcases hl.source with ⟨_, hg⟩ | ⟨t, s, hsrc, hg, hdec, _⟩
      · rw [settings_none _ _ _ hg] at hs; cases hs
      · rw [settings_sub _ _ _ _ hg] at hs
        exact Or.inr (Or.inr (Or.inr (Or.inr ⟨_, q, hsrc,
          (sourceKey_resolve _ _ _).mpr (decodeSource_paths (wf_get (merged_wf hd hm) hg) hdec hs), rfl⟩)))
    · exact Or.inl (common_secrets_key hc hs)

/-- C59 for the target of an archive. -/
theorem C59_target (hd : Docs e root) {c : TargetConfig} (h : TargetConfig.load e root = .ok c) {p : List String} {x : Setting} (hp : Has e root p x) :
    commonKey p ∨ ∃ q, storageKey c.target q ∧ p = "target" :: q := by
  obtain ⟨m, hm, hk, ⟨defs, hc⟩, t, hg, hdec, _⟩ := target_ok h
  have hs := (merged_has hd hm _ _).mpr hp
  rcases known_paths hk hs with rfl | ⟨k, hk, q, rfl⟩
  · exact Or.inl (Or.inl rfl)
  · simp only [List.mem_cons, List.not_mem_nil, or_false] at hk
    rcases hk with rfl | rfl | rfl
    · rw [settings_sub _ _ _ _ hg] at hs
      exact Or.inr ⟨q, decodeStorage_paths hdec hs, rfl⟩
    · exact Or.inl (common_danger_key hc hs)
    · exact Or.inl (common_secrets_key hc hs)

/-- C59 for an archive to export. -/
theorem C59_export (hd : Docs e root) {c : ExportConfig} (h : ExportConfig.load e root = .ok c) {p : List String} {x : Setting} (hp : Has e root p x) :
    commonKey p ∨ ∃ q, storageKey c.archive q ∧ p = "archive" :: q := by
  obtain ⟨m, hm, hk, ⟨defs, hc⟩, t, s, hg, hdec, hca, _⟩ := export_ok h
  have hs := (merged_has hd hm _ _).mpr hp
  rcases known_paths hk hs with rfl | ⟨k, hk, q, rfl⟩
  · exact Or.inl (Or.inl rfl)
  · simp only [List.mem_cons, List.not_mem_nil, or_false] at hk
    rcases hk with rfl | rfl | rfl
    · rw [settings_sub _ _ _ _ hg] at hs
      rw [hca]
      exact Or.inr ⟨q, (storageKey_resolve _ _ _).mpr (decodeStorage_paths hdec hs), rfl⟩
    · exact Or.inl (common_danger_key hc hs)
    · exact Or.inl (common_secrets_key hc hs)

/-- C59 for a stripe server. -/
theorem C59_server (hd : Docs e root) {c : ServerConfig} (h : ServerConfig.load e root = .ok c) {p : List String} {x : Setting} (hp : Has e root p x) :
    commonKey p ∨ ∃ q ∈ remotePaths, p = "server" :: q := by
  obtain ⟨m, hm, hk, ⟨defs, hc⟩, t, hg, hdec, _⟩ := server_ok h
  have hs := (merged_has hd hm _ _).mpr hp
  rcases known_paths hk hs with rfl | ⟨k, hk, q, rfl⟩
  · exact Or.inl (Or.inl rfl)
  · simp only [List.mem_cons, List.not_mem_nil, or_false] at hk
    rcases hk with rfl | rfl | rfl
    · rw [settings_sub _ _ _ _ hg] at hs
      exact Or.inr ⟨q, decodeRemote_paths hdec hs, rfl⟩
    · exact Or.inl (common_danger_key hc hs)
    · exact Or.inl (common_secrets_key hc hs)

/-! ## Examples -/

/-- The error of a refused configuration. -/
def errOf {α : Type} : Except CErr α → Option CErr
  | .ok _ => none
  | .error e => some e

/-- The directory `/etc/u` holds a pipe `k` with 64 bytes and an included file with the encryption section. -/
def demoEnv : Env where
  ws := fun c => c = ' '
  files p := if p = "/etc/u/enc.toml".toList then .ok (.sub "encryption" (.sub "xts_key" (.leaf "ref" (.str "k") .nil) .nil) .nil) else .notFound
  dir := "/etc/u".toList
  world := { demoWorld with file := fun p => if p = "/etc/u/k".toList then some ⟨false, some (List.replicate 64 7)⟩ else none }

/-- A configuration with a relative data path, two queues and a key from the pipe. -/
def demoConf : Tbl :=
  .leaf "include" (.strings ["enc.toml".toList])
    (.sub "device" (.leaf "data_path" (.str "disk.raw") .nil)
      (.sub "tuning" (.leaf "num_queues" (.int 2) (.leaf "queue_size" (.int 128) .nil))
        (.sub "secrets" (.sub "k" (.sub "source" (.leaf "file" (.str "k") .nil) .nil) .nil) .nil)))

theorem demo_docs : Docs demoEnv demoConf := by
  refine ⟨by simp [demoConf, Tbl.Wf, Tbl.get], ?_⟩
  intro p t h
  simp only [demoEnv] at h
  split at h
  · cases h; simp [Tbl.Wf, Tbl.get]
  · cases h

/-- C44, C47, C58, C59: it is accepted without any flag. -/
example : Docs demoEnv demoConf ∧ (Config.load demoEnv demoConf).toBool = true := ⟨demo_docs, by decide +kernel⟩

/-- Without the included file there is no encryption section, and it is refused. -/
example : errOf (Config.load demoEnv (demoConf.remove "include")) = some .unencryptedDisk := by decide +kernel

/-- With only one of the two flags it is still refused; with both it is accepted. -/
example :
    errOf (Config.load demoEnv (.sub "danger_zone" (.leaf "allow_unencrypted_disk" (.bool true) .nil) (demoConf.remove "include"))) =
      some .unencryptedDisk ∧
    (Config.load demoEnv (.sub "danger_zone" (.leaf "enabled" (.bool true) (.leaf "allow_unencrypted_disk" (.bool true) .nil))
      (demoConf.remove "include"))).toBool = true := ⟨by decide +kernel, by decide +kernel⟩

/-- C44, C59: a remote source without a pre-shared key, a server with one. -/
def demoServer : Tbl :=
  .sub "server" (.leaf "address" (.str "h:1") (.sub "psk" (.leaf "identity" (.str "i") (.sub "secret" (.leaf "ref" (.str "k") .nil) .nil)) .nil))
    (.sub "secrets" (.sub "k" (.sub "source" (.leaf "file" (.str "k") .nil) .nil) .nil) .nil)

example : (ServerConfig.load demoEnv demoServer).toBool = true := by decide +kernel

/-- C58: the target of an archive with a relative path is accepted, and is not below the configuration's directory. -/
example : (TargetConfig.load demoEnv (.sub "target" (.leaf "storage" (.str "filesystem") (.leaf "path" (.str "out") .nil)) .nil)).toBool = true ∧
    ¬Leads demoEnv.dir "out" "out".toList := by
  refine ⟨by decide +kernel, ?_⟩
  intro h
  unfold Leads at h
  rw [if_neg (by decide)] at h
  exact absurd (h []) (by decide)

/-- C59: a misspelt key is refused. -/
example : errOf (Config.load demoEnv (.sub "tuning" (.leaf "num_queue" (.int 2) .nil) (demoConf.remove "tuning"))) = some .decode := by
  decide +kernel

end Verif.Config
