import Verif.Proof.Accept

/-! # C82: exactly the configurations written as documented are accepted -/

namespace Verif.Config
open Verif
variable {e : Env} {root : Tbl}

/-! ## Secrets and flags -/

theorem decodeSecrets_of {utf8 : String → Bytes} (t : Tbl) (hw : t.Wf)
    (h : ∀ n v, t.get n = some v → ∃ u d, v = .table u ∧ decodeSecretDef utf8 u = some d) : ∃ defs, decodeSecrets utf8 t = some defs := by
  induction t with
  | nil => exact ⟨_, rfl⟩
  | leaf k a r ih =>
    obtain ⟨u, d, h0, _⟩ := h k (.atom a) (by simp [Tbl.get])
    cases h0
  | sub k t r _ ih =>
    obtain ⟨h1, _, h3⟩ := hw
    obtain ⟨u, d, h0, hd⟩ := h k (.table t) (by simp [Tbl.get])
    cases h0
    obtain ⟨ds, hds⟩ := ih h3 (by
      intro n v hg
      refine h n v ?_
      rw [Tbl.get, if_neg]
      · exact hg
      · rintro rfl; rw [h1] at hg; cases hg)
    exact ⟨(k, d) :: ds, by rw [decodeSecrets, hd, hds]⟩

theorem secretValue_mono {w : World} {dz : DangerZone} {defs defs' : List (String × SecretDef)} (h : ∀ x, x ∈ defs → x ∈ defs') {n : String}
    {b : Bytes} (hv : SecretValue w dz defs n b) : SecretValue w dz defs' n b := by
  induction hv with
  | plain g1 g2 g3 g4 g5 => exact .plain (h _ g1) g2 g3 g4 g5
  | wrapped g1 g2 _ g4 g5 g6 g7 g8 g9 ih => exact .wrapped (h _ g1) g2 ih g4 g5 g6 g7 g8 g9

theorem optSection_none {α : Type} {m : Tbl} {k : String} {dec : Tbl → Option α} (h : m.get k = none) : optSection m k dec = .ok none := by
  unfold optSection; rw [h]

theorem optSection_table {α : Type} {m t : Tbl} {k : String} {dec : Tbl → Option α} {x : α} (h : m.get k = some (.table t)) (hd : dec t = some x) :
    optSection m k dec = .ok (some x) := by
  unfold optSection
  rw [h]
  simp only [hd]

theorem reqSection_table {α : Type} {m t : Tbl} {k : String} {dec : Tbl → Option α} {x : α} (h : m.get k = some (.table t)) (hd : dec t = some x) :
    reqSection m k dec = .ok x := by
  unfold reqSection; rw [optSection_table h hd]

/-- A section whose view is at most a table. -/
theorem get_table {m : Tbl} (hd : Docs e root) (hm : resolveIncludes e.ws e.files e.dir root = .ok m) {k : String}
    (ht : View.Table (Has.below e root []) [k]) : m.get k = none ∨ ∃ t, m.get k = some (.table t) := by
  cases hg : m.get k with
  | none => exact Or.inl rfl
  | some v =>
    cases v with
    | table t => exact Or.inr ⟨t, rfl⟩
    | atom a => exact absurd (ht _ ((merged_has hd hm _ _).mp ((settings_one _ _ _).mpr hg))) (by simp)

theorem get_sub {m : Tbl} (hd : Docs e root) (hm : resolveIncludes e.ws e.files e.dir root = .ok m) {k j : String} {p : List String} {x : Setting}
    (h : Has e root (k :: j :: p) x) : ∃ t, m.get k = some (.table t) := by
  have hs := (merged_has hd hm _ _).mpr h
  cases hg : m.get k with
  | none => rw [settings_none _ _ _ hg] at hs; cases hs
  | some v =>
    cases v with
    | atom a => exact absurd (settings_atom hg hs).1 (by simp)
    | table u => exact ⟨u, rfl⟩

theorem secretIs_has {utf8 : String → Bytes} {dir : List Char} {H : View} {d : SecretDef} (h : SecretIs utf8 dir H d) : ∃ j x, H ["source", j] x := by
  have := h.source
  split at this
  · obtain ⟨s, h, _⟩ := this; exact ⟨_, _, h⟩
  · obtain ⟨s, h, _⟩ := this; exact ⟨_, _, h⟩
  · exact ⟨_, _, this⟩

theorem danger_off {d : DangerZone} (h1 : d.enabled = false) (h2 : d.unencryptedDisk = false) (h3 : d.inlinePlaintext = false)
    (h4 : d.regularFile = false) (h5 : d.unencryptedConnection = false) (h6 : d.envSecrets = false) : DangerZone.off = d := by
  cases d; simp_all [DangerZone.off]

theorem tuning_default {t : Tuning} (h1 : t.numQueues = 1) (h2 : t.queueSize = 64) (h3 : t.segSizeMax = 65536) (h4 : t.segCountMax = 4)
    (h5 : t.pollTimeoutUs = 1000) (h6 : t.cpus = none) (h7 : t.sync = false) (h8 : t.writeThrough = false) : Tuning.default = t := by
  cases t; simp_all [Tuning.default]

theorem common_of (hd : Docs e root) {dz : DangerZone} {defs : List (String × SecretDef)} {secrets : List (String × Bytes)}
    (h : CommonWritten e root dz defs secrets) (hk1 : ∀ p x, Has e root ("danger_zone" :: p) x → p ∈ dangerPaths)
    (hk2 : ∀ n p x, Has e root ("secrets" :: n :: p) x → p ∈ secretPaths) :
    ∃ m secrets', resolveIncludes e.ws e.files e.dir root = .ok m ∧ loadCommon e m = .ok (dz, secrets') ∧
      ∀ n, secrets'.lookup n = secrets.lookup n := by
  obtain ⟨m, hm⟩ := (C46_accepted_iff hd.1 hd.2).mpr h.included
  have hw := merged_wf hd hm
  -- the flags
  have hdz : ∃ o, optSection m "danger_zone" decodeDanger = .ok o ∧ o.getD .off = dz := by
    rcases get_table hd hm h.danger_table with hg | ⟨t, hg⟩
    · refine ⟨none, optSection_none hg, ?_⟩
      have hn : ∀ p x, ¬Has.below e root ["danger_zone"] p x := fun p x hx => silent_none hd hm (settings_none _ _ _ hg) x hx
      have f : ∀ p b, (Has.below e root ["danger_zone"]).Switch p b → b = false := fun p b hb => hb.elim (fun h => absurd h (hn _ _)) And.right
      have := h.danger
      obtain ⟨h1, h2, h3, h4, h5, h6⟩ := this
      have h1 := f _ _ h1
      have h2 := f _ _ h2
      have h3 := f _ _ h3
      have h4 := f _ _ h4
      have h5 := f _ _ h5
      have h6 := f _ _ h6
      exact danger_off h1 h2 h3 h4 h5 h6
    · exact ⟨some dz, optSection_table hg (danger_of (sec_of (wf_get hw hg) (below_iff hd hm hg) hk1 (by decide)) h.danger), rfl⟩
  -- the definitions of secrets
  have hdefs : ∃ o, optSection m "secrets" (decodeSecrets e.world.utf8) = .ok o ∧ ((o.getD []).map Prod.fst).Nodup ∧
      ∀ x, x ∈ ((o.getD []).map fun p => (p.1, p.2.resolve e.dir)) ↔ x ∈ defs := by
    rcases get_table hd hm h.secrets_table with hg | ⟨t, hg⟩
    · refine ⟨none, optSection_none hg, List.nodup_nil, ?_⟩
      rintro ⟨n, d⟩
      constructor
      · intro h0; cases h0
      · intro h0
        obtain ⟨j, x, hx⟩ := secretIs_has (h.says n d h0)
        have := (merged_has hd hm _ _).mpr hx
        rw [show ["secrets", n] ++ ["source", j] = "secrets" :: [n, "source", j] from rfl, settings_none _ _ _ hg] at this
        cases this
    · have hwt := wf_get hw hg
      have hview : ∀ n u, t.get n = some (.table u) → ∀ p x, Has.below e root ["secrets", n] p x ↔ settings u p = some x := by
        intro n u hu p x
        show Has e root ("secrets" :: n :: p) x ↔ _
        rw [← merged_has hd hm, settings_sub _ _ _ _ hg, settings_sub _ _ _ _ hu]
      have hget : ∀ n d, (n, d) ∈ defs → ∃ u d', t.get n = some (.table u) ∧ decodeSecretDef e.world.utf8 u = some d' ∧ d'.resolve e.dir = d := by
        intro n d h0
        have hi := h.says n d h0
        obtain ⟨j, x, hx⟩ := secretIs_has hi
        have hs := (merged_has hd hm _ _).mpr hx
        rw [show ["secrets", n] ++ ["source", j] = "secrets" :: n :: ["source", j] from rfl, settings_sub _ _ _ _ hg] at hs
        have hu : ∃ u, t.get n = some (.table u) := by
          cases hgn : t.get n with
          | none => rw [settings_none _ _ _ hgn] at hs; cases hs
          | some v =>
            cases v with
            | atom a => exact absurd (settings_atom hgn hs).1 (by simp)
            | table u => exact ⟨u, rfl⟩
        obtain ⟨u, hu⟩ := hu
        obtain ⟨d', h1, h2⟩ := secret_of e.world.utf8 e.dir (wf_get hwt hu) (hview n u hu) (hk2 n) hi
        exact ⟨u, d', hu, h1, h2⟩
      have hdef : ∀ n v, t.get n = some v → ∃ d, (n, d) ∈ defs := by
        intro n v hgn
        obtain ⟨x, hx⟩ := settings_some_of_get hgn
        refine h.defined n x ((merged_has hd hm _ _).mp ?_)
        rw [settings_sub _ _ _ _ hg]; exact hx
      obtain ⟨ds, hds⟩ := decodeSecrets_of (utf8 := e.world.utf8) t hwt (by
        intro n v hgn
        obtain ⟨d, h0⟩ := hdef n v hgn
        obtain ⟨u, d', hu, h1, _⟩ := hget n d h0
        rw [hu] at hgn
        cases hgn
        exact ⟨u, d', rfl, h1⟩)
      refine ⟨some ds, optSection_table hg hds, by show (ds.map Prod.fst).Nodup; rw [decodeSecrets_keys hds]; exact keys_nodup _ hwt, ?_⟩
      rintro ⟨n, d⟩
      show _ ∈ ds.map _ ↔ _
      constructor
      · intro h0
        obtain ⟨⟨n', d'⟩, hmem, heq⟩ := List.mem_map.mp h0
        cases heq
        obtain ⟨u, hu, hdec⟩ := decodeSecrets_mem hwt hds hmem
        obtain ⟨d2, hd2⟩ := hdef n' _ hu
        obtain ⟨u', d3, hu', h1, h2⟩ := hget n' d2 hd2
        rw [hu] at hu'; cases hu'
        rw [hdec] at h1; cases h1
        rw [h2]; exact hd2
      · intro h0
        obtain ⟨u, d', hu, h1, h2⟩ := hget n d h0
        obtain ⟨u', d2, hv, g1, g2⟩ := decodeSecrets_get hds hu
        cases hv
        rw [h1] at g1; cases g1
        exact List.mem_map.mpr ⟨(n, d'), g2, by rw [h2]⟩
  obtain ⟨o1, h1, rfl⟩ := hdz
  obtain ⟨o2, h2, hnd, hmem⟩ := hdefs
  have hn : (((o2.getD []).map fun p => (p.1, p.2.resolve e.dir)).map Prod.fst).Nodup := by rw [List.map_map]; exact hnd
  obtain ⟨secrets', hr⟩ := (C45_succeeds_iff (w := e.world) (dz := o1.getD .off) hn).mpr (by
    intro n hin
    obtain ⟨⟨n', d⟩, hx, rfl⟩ := List.mem_map.mp hin
    obtain ⟨b, hb⟩ := h.resolvable _ _ ((hmem _).mp hx)
    exact ⟨b, secretValue_mono (fun x hx => (hmem x).mpr hx) hb⟩)
  refine ⟨m, secrets', hm, ?_, ?_⟩
  · unfold loadCommon
    simp only [h1, h2, hr]
  · intro n
    apply Option.ext
    intro b
    rw [(C45_values hn hr).1 n b, h.values n b]
    exact ⟨secretValue_mono fun x hx => (hmem x).mp hx, secretValue_mono fun x hx => (hmem x).mpr hx⟩

theorem storageGood_congr {s1 s2 : List (String × Bytes)} (h : ∀ n, s1.lookup n = s2.lookup n) (s : Storage) : StorageGood s1 s ↔ StorageGood s2 s := by
  cases s <;> simp only [StorageGood, h]

theorem remoteGood_congr {s1 s2 : List (String × Bytes)} (h : ∀ n, s1.lookup n = s2.lookup n) (r : Remote) : RemoteGood s1 r ↔ RemoteGood s2 r := by
  simp only [RemoteGood, h]

theorem merged_known {m : Tbl} (hd : Docs e root) (hm : resolveIncludes e.ws e.files e.dir root = .ok m) {ks : List String}
    (h : ∀ k x, Has e root [k] x → k ∈ ks) : loadMerged e root ks = .ok m := by
  unfold loadMerged
  rw [hm]
  show (if known m ks = true then _ else _) = _
  rw [if_pos (known_of fun i x hx => h i x ((merged_has hd hm _ _).mp hx))]

/-! ## What is written is accepted -/

theorem storage_section (hd : Docs e root) {m : Tbl} (hm : resolveIncludes e.ws e.files e.dir root = .ok m) {k : String} {s : Storage}
    {R : List Char → String → Prop} (hkeys : ∀ q x, Has e root (k :: q) x → storageKey s q)
    (h : StorageSays (fun H p r => ∃ q, H.Str p q ∧ R r q) (Has.below e root [k]) s) (hf : StorageFits s) (hr : RateTable (Has.below e root [k]) s) :
    ∃ s', reqSection m k decodeStorage = .ok s' ∧ ∀ secrets dir, StorageGood secrets s ↔ StorageGood secrets s' ∧ StorageGood secrets (s'.resolve dir) := by
  have hg : ∃ t, m.get k = some (.table t) := by
    cases s with
    | filesystem r kek a => exact get_sub hd hm h.1
    | s3 s => exact get_sub hd hm h.1
  obtain ⟨t, hg⟩ := hg
  have hty : ["type"] ∉ storagePaths s := by cases s <;> simp [storagePaths, fsPaths, s3Paths]
  obtain ⟨s', h1, h2⟩ := storage_of (sec_of (wf_get (merged_wf hd hm) hg) (below_iff hd hm hg)
    (fun p x hx => (storagePaths_iff _ _).mpr (hkeys p x hx)) hty) h hf hr
  exact ⟨s', reqSection_table hg h1, h2⟩

theorem commonKey_danger {p : List String} (h : commonKey ("danger_zone" :: p)) : p ∈ dangerPaths := by
  rcases h with h | ⟨q, hq, h⟩ | h | ⟨n, q, _, h⟩
  · cases h
  · rw [(List.cons.inj h).2]; exact hq
  · exact absurd (List.cons.inj h).1 (by decide)
  · exact absurd (List.cons.inj h).1 (by decide)

theorem commonKey_secrets {n : String} {p : List String} (h : commonKey ("secrets" :: n :: p)) : p ∈ secretPaths := by
  rcases h with h | ⟨q, hq, h⟩ | h | ⟨n', q, hq, h⟩
  · cases h
  · exact absurd (List.cons.inj h).1 (by decide)
  · exact absurd (List.cons.inj h).2 (by simp)
  · have := (List.cons.inj (List.cons.inj h).2).2
    rw [this]; exact hq

theorem commonKey_one {k : String} {p : List String} (h : commonKey (k :: p)) : k = "danger_zone" ∨ k = "secrets" := by
  rcases h with h | ⟨q, hq, h⟩ | h | ⟨n', q, hq, h⟩
  · cases h
  · exact Or.inl (List.cons.inj h).1
  · exact Or.inr (List.cons.inj h).1
  · exact Or.inr (List.cons.inj h).1

theorem cons_ne {j k : String} {p q : List String} (h : j :: p = k :: q) (hn : j ≠ k) : False := hn (List.cons.inj h).1

theorem target_accepted (hd : Docs e root) {c : TargetConfig} {defs : List (String × SecretDef)} (h : TargetWritten e root c defs) :
    ∃ c', TargetConfig.load e root = .ok c' := by
  have hk1 : ∀ p x, Has e root ("danger_zone" :: p) x → p ∈ dangerPaths := by
    intro p x hx
    rcases h.keys _ _ hx with h0 | ⟨q, _, h0⟩
    · exact commonKey_danger h0
    · exact (cons_ne h0 (by decide)).elim
  have hk2 : ∀ n p x, Has e root ("secrets" :: n :: p) x → p ∈ secretPaths := by
    intro n p x hx
    rcases h.keys _ _ hx with h0 | ⟨q, _, h0⟩
    · exact commonKey_secrets h0
    · exact (cons_ne h0 (by decide)).elim
  obtain ⟨m, secrets', hm, hc, hl⟩ := common_of hd h.common hk1 hk2
  obtain ⟨s', h1, h2⟩ := storage_section hd hm (k := "target") (by
    intro q x hx
    rcases h.keys _ _ hx with h0 | ⟨q', g, h0⟩
    · rcases commonKey_one h0 with h0 | h0 <;> exact absurd h0 (by decide)
    · rw [(List.cons.inj h0).2]; exact g) h.target h.right.1.2 h.right.2
  have hv : s'.validate secrets' = true := storage_valid ((h2 secrets' []).mp ((storageGood_congr hl _).mpr h.right.1.1)).1
  refine ⟨⟨s', c.danger, secrets'⟩, ?_⟩
  simp only [TargetConfig.load, ok_bind]
  refine ⟨m, merged_known hd hm ?_, (c.danger, secrets'), hc, s', h1, ?_⟩
  · intro k x hx
    rcases h.keys _ _ hx with h0 | ⟨q', g, h0⟩
    · rcases commonKey_one h0 with rfl | rfl <;> decide
    · rw [(List.cons.inj h0).1]; decide
  · simp [hv]; rfl

theorem export_accepted (hd : Docs e root) {c : ExportConfig} {defs : List (String × SecretDef)} (h : ExportWritten e root c defs) :
    ∃ c', ExportConfig.load e root = .ok c' := by
  have hk1 : ∀ p x, Has e root ("danger_zone" :: p) x → p ∈ dangerPaths := by
    intro p x hx
    rcases h.keys _ _ hx with h0 | ⟨q, _, h0⟩
    · exact commonKey_danger h0
    · exact (cons_ne h0 (by decide)).elim
  have hk2 : ∀ n p x, Has e root ("secrets" :: n :: p) x → p ∈ secretPaths := by
    intro n p x hx
    rcases h.keys _ _ hx with h0 | ⟨q, _, h0⟩
    · exact commonKey_secrets h0
    · exact (cons_ne h0 (by decide)).elim
  obtain ⟨m, secrets', hm, hc, hl⟩ := common_of hd h.common hk1 hk2
  obtain ⟨s', h1, h2⟩ := storage_section hd hm (k := "archive") (R := fun r q => Leads e.dir q r) (by
    intro q x hx
    rcases h.keys _ _ hx with h0 | ⟨q', g, h0⟩
    · rcases commonKey_one h0 with h0 | h0 <;> exact absurd h0 (by decide)
    · rw [(List.cons.inj h0).2]; exact g) h.archive h.right.1.2 h.right.2
  have hv : (s'.resolve e.dir).validate secrets' = true :=
    storage_valid ((h2 secrets' e.dir).mp ((storageGood_congr hl _).mpr h.right.1.1)).2
  refine ⟨⟨s'.resolve e.dir, c.danger, secrets'⟩, ?_⟩
  simp only [ExportConfig.load, ok_bind]
  refine ⟨m, merged_known hd hm ?_, (c.danger, secrets'), hc, s', h1, ?_⟩
  · intro k x hx
    rcases h.keys _ _ hx with h0 | ⟨q', g, h0⟩
    · rcases commonKey_one h0 with rfl | rfl <;> decide
    · rw [(List.cons.inj h0).1]; decide
  · simp [hv]; rfl

theorem server_accepted (hd : Docs e root) {c : ServerConfig} {defs : List (String × SecretDef)} (h : ServerWritten e root c defs) :
    ∃ c', ServerConfig.load e root = .ok c' := by
  have hk1 : ∀ p x, Has e root ("danger_zone" :: p) x → p ∈ dangerPaths := by
    intro p x hx
    rcases h.keys _ _ hx with h0 | ⟨q, _, h0⟩
    · exact commonKey_danger h0
    · exact (cons_ne h0 (by decide)).elim
  have hk2 : ∀ n p x, Has e root ("secrets" :: n :: p) x → p ∈ secretPaths := by
    intro n p x hx
    rcases h.keys _ _ hx with h0 | ⟨q, _, h0⟩
    · exact commonKey_secrets h0
    · exact (cons_ne h0 (by decide)).elim
  obtain ⟨m, secrets', hm, hc, hl⟩ := common_of hd h.common hk1 hk2
  obtain ⟨t, hg⟩ := get_sub hd hm (k := "server") h.server.address
  have hdec : decodeRemote t = some c.server := by
    refine remote_of (sec_of (wf_get (merged_wf hd hm) hg) (below_iff hd hm hg) ?_ (by simp [remotePaths])) h.server h.right.2.1
    intro p x hx
    rcases h.keys _ _ hx with h0 | ⟨q', g, h0⟩
    · rcases commonKey_one h0 with h0 | h0 <;> exact absurd h0 (by decide)
    · rw [show p = q' from (List.cons.inj h0).2]; exact g
  have hv : c.server.validate c.danger secrets' = true := remote_valid ((remoteGood_congr hl _).mpr h.right.1) h.right.2.2
  refine ⟨⟨c.server, c.danger, secrets'⟩, ?_⟩
  simp only [ServerConfig.load, ok_bind]
  refine ⟨m, merged_known hd hm ?_, (c.danger, secrets'), hc, c.server, reqSection_table hg hdec, ?_⟩
  · intro k x hx
    rcases h.keys _ _ hx with h0 | ⟨q', g, h0⟩
    · rcases commonKey_one h0 with rfl | rfl <;> decide
    · rw [(List.cons.inj h0).1]; decide
  · simp [hv]; rfl

theorem config_accepted (hd : Docs e root) {c : Config} {defs : List (String × SecretDef)} (h : ConfigWritten e root c defs) :
    ∃ c', Config.load e root = .ok c' := by
  -- which section a key is in
  have key : ∀ k p x, Has e root (k :: p) x → (k = "danger_zone" ∨ k = "secrets") ∧ commonKey (k :: p) ∨ k = "device" ∧ p ∈ devicePaths ∨
      k = "tuning" ∧ p ∈ tuningPaths ∨ k = "encryption" ∧ p ∈ encryptionPaths ∨ k = "stripe_source" ∧ ∃ s, c.source = some s ∧ sourceKey s p := by
    intro k p x hx
    rcases h.keys _ _ hx with h0 | ⟨q, g, h0⟩ | ⟨q, g, h0⟩ | ⟨q, g, h0⟩ | ⟨s, q, g1, g2, h0⟩
    · exact Or.inl ⟨commonKey_one h0, h0⟩
    all_goals obtain ⟨rfl, rfl⟩ := List.cons.inj h0
    · exact Or.inr (Or.inl ⟨rfl, g⟩)
    · exact Or.inr (Or.inr (Or.inl ⟨rfl, g⟩))
    · exact Or.inr (Or.inr (Or.inr (Or.inl ⟨rfl, g⟩)))
    · exact Or.inr (Or.inr (Or.inr (Or.inr ⟨rfl, s, g1, g2⟩)))
  have hk1 : ∀ p x, Has e root ("danger_zone" :: p) x → p ∈ dangerPaths := by
    intro p x hx
    rcases key _ _ _ hx with ⟨_, h0⟩ | ⟨h0, _⟩ | ⟨h0, _⟩ | ⟨h0, _⟩ | ⟨h0, _⟩
    · exact commonKey_danger h0
    all_goals exact absurd h0 (by decide)
  have hk2 : ∀ n p x, Has e root ("secrets" :: n :: p) x → p ∈ secretPaths := by
    intro n p x hx
    rcases key _ _ _ hx with ⟨_, h0⟩ | ⟨h0, _⟩ | ⟨h0, _⟩ | ⟨h0, _⟩ | ⟨h0, _⟩
    · exact commonKey_secrets h0
    all_goals exact absurd h0 (by decide)
  have kdev : ∀ p x, Has e root ("device" :: p) x → p ∈ devicePaths := by
    intro p x hx
    rcases key _ _ _ hx with ⟨h0 | h0, _⟩ | ⟨_, h0⟩ | ⟨h0, _⟩ | ⟨h0, _⟩ | ⟨h0, _⟩
    · exact absurd h0 (by decide)
    · exact absurd h0 (by decide)
    · exact h0
    all_goals exact absurd h0 (by decide)
  have ktun : ∀ p x, Has e root ("tuning" :: p) x → p ∈ tuningPaths := by
    intro p x hx
    rcases key _ _ _ hx with ⟨h0 | h0, _⟩ | ⟨h0, _⟩ | ⟨_, h0⟩ | ⟨h0, _⟩ | ⟨h0, _⟩
    · exact absurd h0 (by decide)
    · exact absurd h0 (by decide)
    · exact absurd h0 (by decide)
    · exact h0
    all_goals exact absurd h0 (by decide)
  have kenc : ∀ p x, Has e root ("encryption" :: p) x → p ∈ encryptionPaths := by
    intro p x hx
    rcases key _ _ _ hx with ⟨h0 | h0, _⟩ | ⟨h0, _⟩ | ⟨h0, _⟩ | ⟨_, h0⟩ | ⟨h0, _⟩
    · exact absurd h0 (by decide)
    · exact absurd h0 (by decide)
    · exact absurd h0 (by decide)
    · exact absurd h0 (by decide)
    · exact h0
    · exact absurd h0 (by decide)
  have ksrc : ∀ p x, Has e root ("stripe_source" :: p) x → ∃ s, c.source = some s ∧ sourceKey s p := by
    intro p x hx
    rcases key _ _ _ hx with ⟨h0 | h0, _⟩ | ⟨h0, _⟩ | ⟨h0, _⟩ | ⟨h0, _⟩ | ⟨_, h0⟩
    · exact absurd h0 (by decide)
    · exact absurd h0 (by decide)
    · exact absurd h0 (by decide)
    · exact absurd h0 (by decide)
    · exact absurd h0 (by decide)
    · exact h0
  obtain ⟨m, secrets', hm, hc, hl⟩ := common_of hd h.common hk1 hk2
  have hw := merged_wf hd hm
  -- [device]
  have hdev : ∃ d, reqSection m "device" decodeDevice = .ok d := by
    obtain ⟨s, hs, _⟩ := h.device.data_path
    obtain ⟨t, hg⟩ := get_sub hd hm (k := "device") hs
    obtain ⟨d, hdec⟩ := device_of e.dir (sec_of (wf_get hw hg) (below_iff hd hm hg) kdev (by simp [devicePaths])) h.device
    exact ⟨d, reqSection_table hg hdec⟩
  obtain ⟨d, hdev⟩ := hdev
  -- [tuning]
  have htun : ∃ o, optSection m "tuning" decodeTuning = .ok o ∧ o.getD Tuning.default = c.tuning := by
    rcases get_table hd hm h.tuning_table with hg | ⟨t, hg⟩
    · refine ⟨none, optSection_none hg, ?_⟩
      have hn : ∀ p x, ¬Has.below e root ["tuning"] p x := fun p x hx => silent_none hd hm (settings_none _ _ _ hg) x hx
      obtain ⟨⟨h1, h2, h3, h4, h5, h6, h7, h8⟩, _⟩ := h.tuning
      have f : ∀ p dflt n, (Has.below e root ["tuning"]).NatOr p dflt n → n = dflt := fun p _ n hb => hb.elim (fun h => absurd h (hn _ _)) And.right
      have h1 := f _ _ _ h1
      have h2 := f _ _ _ h2
      have h3 := f _ _ _ h3
      have h4 := f _ _ _ h4
      have h5 := f _ _ _ h5
      have h7 : c.tuning.sync = false := h7.elim (fun h => absurd h (hn _ _)) And.right
      have h8 : c.tuning.writeThrough = false := h8.elim (fun h => absurd h (hn _ _)) And.right
      have h6 : c.tuning.cpus = none := by
        cases hcp : c.tuning.cpus with
        | none => rfl
        | some l =>
          rw [hcp] at h6
          rcases h6 with h6 | ⟨_, h6⟩ <;> exact absurd h6 (hn _ _)
      exact tuning_default h1 h2 h3 h4 h5 h6 h7 h8
    · exact ⟨some c.tuning, optSection_table hg (tuning_of (sec_of (wf_get hw hg) (below_iff hd hm hg) ktun (by simp [tuningPaths])) h.tuning.1 h.tuning.2), rfl⟩
  obtain ⟨ot, htun, hot⟩ := htun
  have htv : (ot.getD Tuning.default).validate = true := by rw [hot]; exact (C47_accepted_iff _).mpr h.tuning.2
  -- [encryption]
  have henc : optSection m "encryption" decodeEncryption = .ok c.encryption ∧ checkEncryption c.encryption c.danger secrets' = .ok () := by
    have he := h.encryption
    cases hce : c.encryption with
    | none =>
      rw [hce] at he
      obtain ⟨h1, h2, h3⟩ := he
      constructor
      · refine optSection_none ?_
        cases hg : m.get "encryption" with
        | none => rfl
        | some v =>
          obtain ⟨x, hx⟩ := settings_some_of_get hg
          exact absurd ((merged_has hd hm _ _).mp hx) (h1 x)
      · simp [checkEncryption, h2, h3]
    | some k =>
      rw [hce] at he
      obtain ⟨h1, b, h2, h3⟩ := he
      obtain ⟨t, hg⟩ := get_sub hd hm (k := "encryption") h1
      refine ⟨optSection_table hg (encryption_of (sec_of (wf_get hw hg) (below_iff hd hm hg) kenc (by simp [encryptionPaths, refPaths])) h1), ?_⟩
      have : secretOk secrets' k (fun b => decide (b.length = 64)) = true := secretOk_of ⟨b, by rw [hl]; exact h2, by simpa using h3⟩
      simp [checkEncryption, this]
  -- [stripe_source]
  have hsrc : ∃ o, optSection m "stripe_source" decodeSource = .ok o ∧
      sourceOk (o.map (StripeSource.resolve e.dir)) c.danger secrets' = true := by
    have hs := h.source
    cases hcs : c.source with
    | none =>
      rw [hcs] at hs
      refine ⟨none, optSection_none ?_, rfl⟩
      cases hg : m.get "stripe_source" with
      | none => rfl
      | some v =>
        obtain ⟨x, hx⟩ := settings_some_of_get hg
        exact absurd ((merged_has hd hm _ _).mp hx) (hs x)
    | some s =>
      rw [hcs] at hs
      have ksrc' : ∀ p x, Has e root ("stripe_source" :: p) x → sourceKey s p := by
        intro p x hx
        obtain ⟨s', h1, h2⟩ := ksrc p x hx
        rw [hcs] at h1; cases h1; exact h2
      obtain ⟨hsay, hgood⟩ := hs
      have hg : ∃ t ty, m.get "stripe_source" = some (.table t) ∧ Has e root ["stripe_source", "type"] (.value (.str ty)) := by
        cases s with
        | raw => obtain ⟨t, hg⟩ := get_sub hd hm (k := "stripe_source") hsay.1; exact ⟨t, _, hg, hsay.1⟩
        | archive => obtain ⟨t, hg⟩ := get_sub hd hm (k := "stripe_source") hsay.1; exact ⟨t, _, hg, hsay.1⟩
        | remote => obtain ⟨t, hg⟩ := get_sub hd hm (k := "stripe_source") hsay.1; exact ⟨t, _, hg, hsay.1⟩
      obtain ⟨t, _, hg, _⟩ := hg
      have hwt := wf_get hw hg
      have hb := below_iff hd hm hg
      have htype : ∀ ty, (Has.below e root ["stripe_source"]).Str ["type"] ty → reqStr t "type" = some ty := by
        intro ty hty
        have := (settings_one _ _ _).mp ((hb _ _).mp hty)
        unfold reqStr; rw [this]
      cases s with
      | raw r a cor =>
        obtain ⟨h0, ⟨q, h1, _⟩, h2, h3⟩ := hsay
        have hsec : Sec (Has.below e root ["stripe_source"]) (t.remove "type") rawPaths := rest_sec hwt hb (by
          intro k p x hk hx
          rcases ksrc' _ _ hx with h | h
          · exact absurd (List.cons.inj h).1 hk
          · exact h)
        refine ⟨some (.raw q.toList a cor), optSection_table hg ?_, rfl⟩
        simp only [decodeSource, bind_some]
        refine ⟨_, htype _ h0, ?_⟩
        rw [if_pos rfl]
        simp only [decodeRaw, bind_some, guard_some]
        exact ⟨(), hsec.known (by simp [rawPaths]), _, reqStr_of hsec.agrees (by decide) h1, _, boolAt_of hsec.agrees (by decide) h2, _,
          boolAt_of hsec.agrees (by decide) h3, rfl⟩
      | archive st =>
        obtain ⟨h0, h1⟩ := hsay
        have hsec : Sec (Has.below e root ["stripe_source"]) (t.remove "type") (storagePaths st) := rest_sec hwt hb (by
          intro k p x hk hx
          rcases ksrc' _ _ hx with h | h
          · exact absurd (List.cons.inj h).1 hk
          · exact (storagePaths_iff _ _).mpr h)
        obtain ⟨s', g1, g2⟩ := storage_of (R := fun r q => Leads e.dir q r) hsec h1 hgood.1.2 hgood.2
        refine ⟨some (.archive s'), optSection_table hg ?_, ?_⟩
        · simp only [decodeSource, bind_some]
          refine ⟨_, htype _ h0, ?_⟩
          rw [if_neg (by decide), if_pos rfl, g1]; rfl
        · exact storage_valid ((g2 secrets' e.dir).mp ((storageGood_congr hl _).mpr hgood.1.1)).2
      | remote r =>
        obtain ⟨h0, h1⟩ := hsay
        have hsec : Sec (Has.below e root ["stripe_source"]) (t.remove "type") remotePaths := rest_sec hwt hb (by
          intro k p x hk hx
          rcases ksrc' _ _ hx with h | h
          · exact absurd (List.cons.inj h).1 hk
          · exact h)
        refine ⟨some (.remote r), optSection_table hg ?_, ?_⟩
        · simp only [decodeSource, bind_some]
          refine ⟨_, htype _ h0, ?_⟩
          rw [if_neg (by decide), if_neg (by decide), if_pos rfl, remote_of hsec h1 hgood.2.1]; rfl
        · exact remote_valid ((remoteGood_congr hl _).mpr hgood.1) hgood.2.2
  obtain ⟨os, hsrc, hsv⟩ := hsrc
  refine ⟨⟨d.resolve e.dir, ot.getD Tuning.default, c.encryption, c.danger, os.map (StripeSource.resolve e.dir), secrets'⟩, ?_⟩
  simp only [Config.load, ok_bind]
  refine ⟨m, merged_known hd hm ?_, (c.danger, secrets'), hc, d, hdev, ot, htun, ?_⟩
  · intro k x hx
    rcases key _ _ _ hx with ⟨rfl | rfl, _⟩ | ⟨rfl, _⟩ | ⟨rfl, _⟩ | ⟨rfl, _⟩ | ⟨rfl, _⟩ <;> decide
  · simp only [htv, Bool.not_true, Bool.false_eq_true, if_false, ok_bind]
    refine ⟨c.encryption, henc.1, os, hsrc, ?_⟩
    simp only [hsv, Bool.not_true, Bool.false_eq_true, if_false, ok_bind]
    exact ⟨(), henc.2, rfl⟩

/-! ## What is accepted is written -/

theorem common_written (hd : Docs e root) {m : Tbl} (hm : resolveIncludes e.ws e.files e.dir root = .ok m) {dz : DangerZone}
    {defs : List (String × SecretDef)} {secrets : List (String × Bytes)} (hc : Common e m dz secrets defs) :
    CommonWritten e root dz (defs.map fun p => (p.1, p.2.resolve e.dir)) secrets := by
  have hw := merged_wf hd hm
  have htab : ∀ k, (m.get k = none ∨ ∃ t, m.get k = some (.table t)) → View.Table (Has.below e root []) [k] := by
    intro k hk x hx
    have hs := (merged_has hd hm [k] x).mpr hx
    rcases hk with hk | ⟨t, hk⟩
    · rw [settings_none _ _ _ hk] at hs; cases hs
    · rw [settings_sub _ _ _ _ hk] at hs
      cases hs; rfl
  have hval := C45_values (common_names hw hc) hc.resolved
  refine ⟨(C46_accepted_iff hd.1 hd.2).mp ⟨m, hm⟩, htab _ ?_, ?_, htab _ ?_, ?_, ?_, ?_, hval.1⟩
  · rcases hc.danger with ⟨_, h⟩ | ⟨t, h, _⟩
    · exact Or.inl h
    · exact Or.inr ⟨t, h⟩
  · rcases hc.danger with ⟨rfl, hg⟩ | ⟨t, hg, hdec⟩
    · have hn : ∀ p x, ¬Has.below e root ["danger_zone"] p x := fun p x hx => silent_none hd hm (settings_none _ _ _ hg) x hx
      exact ⟨Or.inr ⟨hn _, rfl⟩, Or.inr ⟨hn _, rfl⟩, Or.inr ⟨hn _, rfl⟩, Or.inr ⟨hn _, rfl⟩, Or.inr ⟨hn _, rfl⟩, Or.inr ⟨hn _, rfl⟩⟩
    · have ha : Agrees (Has.below e root ["danger_zone"]) t := fun k p x _ => below_iff hd hm hg _ _
      simp only [decodeDanger, bind_some, guard_some] at hdec
      obtain ⟨_, _, v0, h0, v1, h1, v2, h2, v3, h3, v4, h4, v5, h5, h⟩ := hdec
      have hd := Option.some.inj h
      rw [← hd]
      exact ⟨ag_switch ha (by decide) h0, ag_switch ha (by decide) h1, ag_switch ha (by decide) h2, ag_switch ha (by decide) h3,
        ag_switch ha (by decide) h4, ag_switch ha (by decide) h5⟩
  · rcases hc.decoded with ⟨_, h⟩ | ⟨t, h, _⟩
    · exact Or.inl h
    · exact Or.inr ⟨t, h⟩
  · intro n x hx
    obtain ⟨u, d, _, h2, _⟩ := common_def hc ((merged_has hd hm _ _).mpr hx)
    exact ⟨_, List.mem_map.mpr ⟨_, h2, rfl⟩⟩
  · intro n d' hd'
    obtain ⟨⟨n0, d⟩, hmem, heq⟩ := List.mem_map.mp hd'
    cases heq
    rcases hc.decoded with ⟨rfl, _⟩ | ⟨t, ht, hdec⟩
    · cases hmem
    · obtain ⟨u, hu, hud⟩ := decodeSecrets_mem (wf_get hw ht) hdec hmem
      refine secret_is _ _ (fun p x => ?_) hud
      show Has e root ("secrets" :: n0 :: p) x ↔ _
      rw [← merged_has hd hm, settings_sub _ _ _ _ ht, settings_sub _ _ _ _ hu]
  · intro n d hin
    exact (C45_succeeds_iff (common_names hw hc)).mp ⟨secrets, hc.resolved⟩ n (List.mem_map.mpr ⟨_, hin, rfl⟩)

theorem natAt_lt {t : Tbl} {k : String} {lim d n : Nat} (h : natAt lim t k d = some n) (hd : d < lim) : n < lim := by
  rcases natAt_some h with ⟨rfl, _⟩ | ⟨_, h⟩
  · exact hd
  · exact h

theorem remote_fits {t : Tbl} {r : Remote} (h : decodeRemote t = some r) : RemoteFits r := by
  simp only [decodeRemote, bind_some, guard_some] at h
  obtain ⟨_, _, v0, h0, v1, h1, v2, h2, v3, h3, v4, h4, v5, h5, h⟩ := h
  have hd := Option.some.inj h
  rw [← hd]
  exact ⟨natAt_lt h3 (by decide), natAt_lt h4 (by decide), natAt_lt h5 (by decide)⟩

theorem storage_fits {t : Tbl} {s : Storage} (h : decodeStorage t = some s) {H : View} (ha : Agrees H t) : StorageFits s ∧ RateTable H s := by
  simp only [decodeStorage, bind_some] at h
  obtain ⟨x, _, h⟩ := h
  split at h
  · simp only [decodeFs, bind_some, guard_some] at h
    obtain ⟨_, _, v0, h0, v1, h1, v2, h2, h⟩ := h
    have hd := Option.some.inj h
    rw [← hd]
    exact ⟨trivial, trivial⟩
  · split at h
    · simp only [decodeS3, bind_some, guard_some] at h
      obtain ⟨_, hk, v0, h0, v1, h1, v2, h2, v3, h3, v4, h4, v5, h5, v6, h6, v7, h7, v8, h8, v9, h9, v10, h10, v11, h11, v12, h12, v13, h13, h⟩ := h
      have hd := Option.some.inj h
      rw [← hd]
      have hrate : v11.minDelayMs < 2 ^ 64 ∧ v11.jitterMs < 2 ^ 64 ∧ (t.get "rate_limited_retry" = none ∨ ∃ u, t.get "rate_limited_retry" = some (.table u)) := by
        unfold rateAt at h11
        split at h11
        · cases h11; exact ⟨Nat.two_pow_pos _, Nat.two_pow_pos _, Or.inl (by assumption)⟩
        · rename_i u hu
          simp only [decodeRate, bind_some, guard_some] at h11
          obtain ⟨_, _, w0, g0, w1, g1, w2, g2, h11⟩ := h11
          cases h11
          exact ⟨natAt_lt g1 (by decide), natAt_lt g2 (by decide), Or.inr ⟨u, hu⟩⟩
        · cases h11
      refine ⟨⟨natAt_lt h7 (by decide), natAt_lt h8 (by decide), natAt_lt h9 (by decide), natAt_lt h10 (by decide), hrate.1, hrate.2.1⟩, ?_⟩
      intro x hx
      have hx := (ha _ _ _ (by decide)).mp hx
      rcases hrate.2.2 with hg | ⟨u, hg⟩
      · rw [settings_none _ _ _ hg] at hx; cases hx
      · rw [settings_sub _ _ _ _ hg] at hx; cases hx; rfl
    · cases h

theorem rateTable_resolve {H : View} {s : Storage} {dir : List Char} (h : RateTable H s) : RateTable H (s.resolve dir) := by cases s <;> exact h
theorem fits_resolve {s : Storage} {dir : List Char} (h : StorageFits s) : StorageFits (s.resolve dir) := by cases s <;> exact h

/-- **C82** A device's configuration is accepted exactly if its files are written as documented: they can be put together (C46), hold
only documented keys, each with a value of its kind and in its range, and the secrets they name are there, allowed and of the right
size. -/
theorem C82_config (hd : Docs e root) : (∃ c, Config.load e root = .ok c) ↔ ∃ c defs, ConfigWritten e root c defs := by
  constructor
  · rintro ⟨c, h⟩
    obtain ⟨m, hm, hl⟩ := load_ok h
    obtain ⟨defs, hc⟩ := hl.common
    obtain ⟨h1, h2, h3, h4⟩ := C61_config hd h
    refine ⟨c, _, ⟨common_written hd hm hc, fun p x hx => C59_config hd h hx, h1, ?_, h2, ?_, ?_⟩⟩
    · intro x hx
      have hs := (merged_has hd hm ["tuning"] x).mpr hx
      rcases hl.tuning with ⟨_, hg⟩ | ⟨t, hg, _⟩
      · rw [settings_none _ _ _ hg] at hs; cases hs
      · rw [settings_sub _ _ _ _ hg] at hs; cases hs; rfl
    · cases he : c.encryption with
      | some k => rw [he] at h3; exact h3
      | none =>
        rw [he] at h3
        refine ⟨h3, ?_⟩
        have := hl.encryptionOk
        rw [he, checkEncryption] at this
        cases h5 : c.danger.enabled <;> cases h6 : c.danger.unencryptedDisk <;> simp_all
    · rcases hl.source with ⟨hn, hg⟩ | ⟨t, s, hn, hg, hdec, hv⟩
      · rw [hn] at h4; rw [hn]; exact h4
      · rw [hn] at h4; rw [hn]
        refine ⟨h4.1, ?_⟩
        have hwt := wf_get (merged_wf hd hm) hg
        have hr : Agrees (Has.below e root ["stripe_source"]) (t.remove "type") := by
          intro k p y hk
          rw [below_iff hd hm hg]
          simp only [settings, get_remove _ _ hwt, if_neg hk]
        simp only [decodeSource, bind_some] at hdec
        obtain ⟨ty, _, hdec⟩ := hdec
        have h4 := h4.2
        split at hdec
        · simp only [decodeRaw, bind_some, guard_some] at hdec
          obtain ⟨_, _, v0, _, v1, _, v2, _, hdec⟩ := hdec
          cases hdec
          trivial
        · split at hdec
          · obtain ⟨st, hst, rfl⟩ := Option.map_eq_some_iff.mp hdec
            obtain ⟨g1, g2⟩ := storage_fits hst hr
            exact ⟨⟨h4, fits_resolve g1⟩, rateTable_resolve g2⟩
          · split at hdec
            · obtain ⟨r, hst, rfl⟩ := Option.map_eq_some_iff.mp hdec
              exact ⟨h4, remote_fits hst, remote_allowed hv⟩
            · cases hdec
  · rintro ⟨c, defs, h⟩
    exact config_accepted hd h

/-- **C82** for the target of an archive. -/
theorem C82_target (hd : Docs e root) : (∃ c, TargetConfig.load e root = .ok c) ↔ ∃ c defs, TargetWritten e root c defs := by
  constructor
  · rintro ⟨c, h⟩
    obtain ⟨m, hm, _, ⟨defs, hc⟩, t, hg, hdec, hv⟩ := target_ok h
    obtain ⟨h1, h2⟩ := C61_target hd h
    obtain ⟨g1, g2⟩ := storage_fits hdec (H := Has.below e root ["target"]) (fun k p x _ => below_iff hd hm hg _ _)
    exact ⟨c, _, ⟨common_written hd hm hc, fun p x hx => C59_target hd h hx, h1, ⟨h2, g1⟩, g2⟩⟩
  · rintro ⟨c, defs, h⟩
    exact target_accepted hd h

/-- **C82** for an archive to export. -/
theorem C82_export (hd : Docs e root) : (∃ c, ExportConfig.load e root = .ok c) ↔ ∃ c defs, ExportWritten e root c defs := by
  constructor
  · rintro ⟨c, h⟩
    obtain ⟨m, hm, _, ⟨defs, hc⟩, t, s, hg, hdec, hcs, hv⟩ := export_ok h
    obtain ⟨h1, h2⟩ := C61_export hd h
    obtain ⟨g1, g2⟩ := storage_fits hdec (H := Has.below e root ["archive"]) (fun k p x _ => below_iff hd hm hg _ _)
    refine ⟨c, _, ⟨common_written hd hm hc, fun p x hx => C59_export hd h hx, h1, ⟨h2, ?_⟩, ?_⟩⟩
    · rw [hcs]; exact fits_resolve g1
    · rw [hcs]; exact rateTable_resolve g2
  · rintro ⟨c, defs, h⟩
    exact export_accepted hd h

/-- **C82** for a stripe server. -/
theorem C82_server (hd : Docs e root) : (∃ c, ServerConfig.load e root = .ok c) ↔ ∃ c defs, ServerWritten e root c defs := by
  constructor
  · rintro ⟨c, h⟩
    obtain ⟨m, hm, _, ⟨defs, hc⟩, t, hg, hdec, hv⟩ := server_ok h
    obtain ⟨h1, h2⟩ := C61_server hd h
    exact ⟨c, _, ⟨common_written hd hm hc, fun p x hx => C59_server hd h hx, h1, h2, remote_fits hdec, remote_allowed hv⟩⟩
  · rintro ⟨c, defs, h⟩
    exact server_accepted hd h

/-- **C82** What is asked of an archive's prefix: no `..` between slashes, and it does not begin with a `.` of its own. -/
theorem C82_prefix (p : String) : (.cur ∉ components p.toList ∧ .parent ∉ components p.toList) ↔
    ['.', '.'] ∉ pieces p.toList ∧ (pieces p.toList).head? ≠ some ['.'] := by
  generalize p.toList = l
  have hpar : ∀ b s, pieceComp b s = some .parent ↔ s = ['.', '.'] := by
    intro b s
    unfold pieceComp
    by_cases h1 : s = []
    · simp [h1]
    · by_cases h2 : s = ['.']
      · cases b <;> simp [h2]
      · by_cases h3 : s = ['.', '.'] <;> simp [h1, h2, h3]
  have hcur : ∀ b s, pieceComp b s = some .cur ↔ b = true ∧ s = ['.'] := by
    intro b s
    unfold pieceComp
    by_cases h1 : s = []
    · simp [h1]
    · by_cases h2 : s = ['.']
      · cases b <;> simp [h2]
      · by_cases h3 : s = ['.', '.'] <;> simp [h1, h2, h3]
  unfold components
  by_cases ha : isAbsolute l = true
  · rw [if_pos ha]
    have hh : (pieces l).head? = some [] := by
      cases l with
      | nil => cases ha
      | cons c cs =>
        have : c = '/' := by simpa [isAbsolute] using ha
        rw [this, pieces, if_pos rfl]; rfl
    rw [hh]
    simp only [List.mem_cons, reduceCtorEq, false_or, List.mem_filterMap, hpar, hcur]
    simp
  · rw [if_neg ha]
    cases hp : pieces l with
    | nil => simp
    | cons s ss =>
      simp only [List.mem_append, List.mem_filterMap, hpar, hcur, Option.mem_toList, List.mem_cons, List.head?_cons]
      simp only [true_and, Bool.false_eq_true, false_and, and_false, exists_false, or_false, exists_eq_right]
      constructor
      · rintro ⟨h1, h2⟩
        exact ⟨fun h => h2 (h.elim (fun h => Or.inl h.symm) Or.inr), fun h => h1 (Option.some.inj h)⟩
      · rintro ⟨h1, h2⟩
        exact ⟨fun h => h2 (congrArg some h), fun h => h1 (h.elim (fun h => Or.inl h.symm) Or.inr)⟩

/-! ## Examples -/

/-- The configuration of C44 with its include is written as documented. -/
example : ∃ c defs, ConfigWritten demoEnv demoConf c defs := (C82_config demo_docs).mp (by
  cases h : Config.load demoEnv demoConf with
  | ok c => exact ⟨c, rfl⟩
  | error x =>
    have : (Config.load demoEnv demoConf).toBool = true := by decide +kernel
    rw [h] at this; cases this)

end Verif.Config
