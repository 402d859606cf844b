import Verif.Spec.Effect
import Verif.Props.Load

/-! # Settings take effect (C61) -/

namespace Verif.Config
open Verif

/-- A view that shows a table, except perhaps for the key `type`. -/
def Agrees (H : View) (t : Tbl) : Prop := ∀ k p x, k ≠ "type" → (H (k :: p) x ↔ settings t (k :: p) = some x)

section Fields
variable {H : View} {t : Tbl} {k : String}

theorem ag_none (ha : Agrees H t) (hk : k ≠ "type") (h : t.get k = none) (p : List String) : H.Nothing (k :: p) := by
  intro x hx
  rw [ha k p x hk, settings_none _ _ _ h] at hx; cases hx

theorem ag_atom (ha : Agrees H t) (hk : k ≠ "type") {a : Atom} (h : t.get k = some (.atom a)) : H [k] (.value a) := by
  rw [ha k [] _ hk, settings_one]; exact h

theorem ag_sub (ha : Agrees H t) (hk : k ≠ "type") {u : Tbl} (h : t.get k = some (.table u)) (p : List String) (x : Setting) :
    H (k :: p) x ↔ settings u p = some x := by rw [ha k p x hk, settings_sub _ _ _ _ h]

theorem ag_str (ha : Agrees H t) (hk : k ≠ "type") {s : String} (h : reqStr t k = some s) : H.Str [k] s := ag_atom ha hk (reqStr_some h)

theorem ag_opt (ha : Agrees H t) (hk : k ≠ "type") {o : Option String} (h : strAt t k = some o) : H.Opt [k] o := by
  rcases strAt_some h with ⟨rfl, h'⟩ | ⟨s, rfl, h'⟩
  · exact ag_none ha hk (by assumption) []
  · exact ag_atom ha hk (by assumption)

theorem ag_strOr (ha : Agrees H t) (hk : k ≠ "type") {o : Option String} (h : strAt t k = some o) (d : String) : H.StrOr [k] d (o.getD d) := by
  rcases strAt_some h with ⟨rfl, h'⟩ | ⟨s, rfl, h'⟩
  · exact Or.inr ⟨ag_none ha hk (by assumption) [], rfl⟩
  · exact Or.inl (ag_atom ha hk (by assumption))

theorem ag_switch (ha : Agrees H t) (hk : k ≠ "type") {b : Bool} (h : boolAt t k = some b) : H.Switch [k] b := by
  rcases boolAt_some h with ⟨hb, h'⟩ | h'
  · exact Or.inr ⟨ag_none ha hk h' [], hb⟩
  · exact Or.inl (ag_atom ha hk h')

theorem ag_nat (ha : Agrees H t) (hk : k ≠ "type") {lim d n : Nat} (h : natAt lim t k d = some n) : H.NatOr [k] d n := by
  rcases natAt_some h with ⟨hb, h'⟩ | ⟨h', _⟩
  · exact Or.inr ⟨ag_none ha hk h' [], hb⟩
  · exact Or.inl (ag_atom ha hk h')

theorem ag_nats (ha : Agrees H t) (hk : k ≠ "type") {o : Option (List Nat)} (h : natsAt t k = some o) :
    H.OptNats [k] o := by
  rcases natsAt_some h with ⟨ho, h'⟩ | ⟨a, h', l, ho, hl⟩
  · subst ho; exact ag_none ha hk h' []
  · subst ho
    rcases hl with rfl | ⟨rfl, hl⟩
    · exact Or.inl (ag_atom ha hk h')
    · exact Or.inr ⟨hl, ag_atom ha hk h'⟩

theorem ag_engine (ha : Agrees H t) (hk : k ≠ "type") {b : Bool} (h : engineAt t k = some b) : H.Choice [k] "io_uring" "sync" b := by
  unfold engineAt at h
  split at h
  · rename_i h'; cases h; exact Or.inr ⟨ag_none ha hk h' [], rfl⟩
  · rename_i h'; cases h; exact Or.inl (ag_atom ha hk h')
  · rename_i h'; cases h; exact Or.inl (ag_atom ha hk h')
  · cases h

theorem ag_encoding (ha : Agrees H t) (hk : k ≠ "type") {b : Bool} (h : encodingAt t k = some b) : H.Choice [k] "plaintext" "base64" b := by
  unfold encodingAt at h
  split at h
  · rename_i h'; cases h; exact Or.inr ⟨ag_none ha hk h' [], rfl⟩
  · rename_i h'; cases h; exact Or.inl (ag_atom ha hk h')
  · rename_i h'; cases h; exact Or.inl (ag_atom ha hk h')
  · cases h

theorem ag_reqRef (ha : Agrees H t) (hk : k ≠ "type") {s : String} (h : reqRef t k = some s) : H.Str [k, "ref"] s := by
  obtain ⟨r, h1, _, h3⟩ := reqRef_some h
  exact (ag_sub ha hk h1 _ _).mpr ((settings_one _ _ _).mpr h3)

theorem ag_ref (ha : Agrees H t) (hk : k ≠ "type") {o : Option String} (h : refAt t k = some o) : H.OptRef [k] o := by
  rcases refAt_some h with ⟨ho, h'⟩ | ⟨s, r, ho, h1, _, h3⟩
  · subst ho; exact ag_none ha hk h' []
  · subst ho; exact (ag_sub ha hk h1 _ _).mpr ((settings_one _ _ _).mpr h3)

theorem ag_psk (ha : Agrees H t) (hk : k ≠ "type") {o : Option Psk} (h : pskAt t k = some o) : H.Psk [k] o := by
  rcases pskAt_some h with ⟨ho, h'⟩ | ⟨q, u, ho, h1, hdec⟩
  · subst ho; exact ag_none ha hk h' []
  · subst ho
    simp only [decodePsk, bind_some, guard_some] at hdec
    obtain ⟨_, _, v0, h0, v1, h2, hdec⟩ := hdec
    cases hdec
    obtain ⟨r, g1, _, g3⟩ := reqRef_some h2
    refine ⟨(ag_sub ha hk h1 _ _).mpr ((settings_one _ _ _).mpr (reqStr_some h0)), (ag_sub ha hk h1 _ _).mpr ?_⟩
    show settings u ["secret", "ref"] = _
    rw [settings_sub _ _ _ _ g1, settings_one]; exact g3

theorem ag_rate (ha : Agrees H t) (hk : k ≠ "type") {r : Rate} (h : rateAt t k = some r) :
    H.Switch [k, "enabled"] r.enabled ∧ H.NatOr [k, "min_delay_ms"] 0 r.minDelayMs ∧ H.NatOr [k, "jitter_ms"] 0 r.jitterMs := by
  unfold rateAt at h
  split at h
  · rename_i h'
    cases h
    exact ⟨Or.inr ⟨ag_none ha hk h' _, rfl⟩, Or.inr ⟨ag_none ha hk h' _, rfl⟩, Or.inr ⟨ag_none ha hk h' _, rfl⟩⟩
  · rename_i u h'
    have ha' : Agrees (fun p x => H (k :: p) x) u := fun j p x _ => ag_sub ha hk h' _ _
    simp only [decodeRate, bind_some, guard_some] at h
    obtain ⟨_, _, v0, h0, v1, h1, v2, h2, h⟩ := h
    cases h
    exact ⟨ag_switch ha' (by decide) h0, ag_nat ha' (by decide) h1, ag_nat ha' (by decide) h2⟩
  · cases h

theorem ag_path (dir : List Char) (ha : Agrees H t) (hk : k ≠ "type") {s : String} (h : reqStr t k = some s) :
    H.Path dir [k] (resolvePath dir s.toList) := ⟨s, ag_str ha hk h, resolvePath_leads _ _⟩

theorem ag_optPath (dir : List Char) (ha : Agrees H t) (hk : k ≠ "type") {o : Option String} (h : strAt t k = some o) :
    H.OptPath dir [k] ((o.map String.toList).map (resolvePath dir)) := by
  have := ag_opt ha hk h
  cases o with
  | none => exact this
  | some s => exact ⟨s, this, resolvePath_leads _ _⟩

end Fields

section Sections
variable {H : View} {t : Tbl}

theorem device_says (dir : List Char) (ha : Agrees H t) {d : Device} (h : decodeDevice t = some d) : DeviceSays dir H (d.resolve dir) := by
  simp only [decodeDevice, bind_some, guard_some] at h
  obtain ⟨_, hk, v0, h0, v1, h1, v2, h2, v3, h3, v4, h4, v5, h5, h⟩ := h
  have hd := Option.some.inj h
  rw [← hd]
  exact ⟨ag_path dir ha (by decide) h0, ag_optPath dir ha (by decide) h1, ag_optPath dir ha (by decide) h2, ag_optPath dir ha (by decide) h3,
    ag_strOr ha (by decide) h4 _, ag_switch ha (by decide) h5⟩

theorem tuning_says (ha : Agrees H t) {d : Tuning} (h : decodeTuning t = some d) : TuningSays H d := by
  simp only [decodeTuning, bind_some, guard_some] at h
  obtain ⟨_, hk, v0, h0, v1, h1, v2, h2, v3, h3, v4, h4, v5, h5, v6, h6, v7, h7, h⟩ := h
  have hd := Option.some.inj h
  rw [← hd]
  exact ⟨ag_nat ha (by decide) h0, ag_nat ha (by decide) h1, ag_nat ha (by decide) h2, ag_nat ha (by decide) h3, ag_nat ha (by decide) h4,
    ag_nats ha (by decide) h5, ag_engine ha (by decide) h6, ag_switch ha (by decide) h7⟩

theorem remote_says (ha : Agrees H t) {r : Remote} (h : decodeRemote t = some r) : RemoteSays H r := by
  simp only [decodeRemote, bind_some, guard_some] at h
  obtain ⟨_, hk, v0, h0, v1, h1, v2, h2, v3, h3, v4, h4, v5, h5, h⟩ := h
  have hd := Option.some.inj h
  rw [← hd]
  exact ⟨ag_str ha (by decide) h0, ag_psk ha (by decide) h1, ag_switch ha (by decide) h2, ag_nat ha (by decide) h3, ag_nat ha (by decide) h4,
    ag_nat ha (by decide) h5⟩

theorem storage_says (dir : List Char) (ha : Agrees H t) {s : Storage} (h : decodeStorage t = some s) :
    StorageSays (fun H => H.Path dir) H (s.resolve dir) ∧ StorageSays (fun H p r => ∃ q, H.Str p q ∧ r = q.toList) H s := by
  simp only [decodeStorage, bind_some] at h
  obtain ⟨x, hx, h⟩ := h
  have hx := ag_str ha (by decide) hx
  split at h
  · rename_i he
    subst he
    simp only [decodeFs, bind_some, guard_some] at h
    obtain ⟨_, hk, v0, h0, v1, h1, v2, h2, h⟩ := h
    have hd := Option.some.inj h
    rw [← hd]
    exact ⟨⟨hx, ag_path dir ha (by decide) h0, ag_ref ha (by decide) h1, ag_switch ha (by decide) h2⟩,
      ⟨hx, ⟨v0, ag_str ha (by decide) h0, rfl⟩, ag_ref ha (by decide) h1, ag_switch ha (by decide) h2⟩⟩
  · split at h
    · rename_i he
      subst he
      simp only [decodeS3, bind_some, guard_some] at h
      obtain ⟨_, hk, v0, h0, v1, h1, v2, h2, v3, h3, v4, h4, v5, h5, v6, h6, v7, h7, v8, h8, v9, h9, v10, h10, v11, h11, v12, h12, v13, h13, h⟩ := h
      have hd := Option.some.inj h
      rw [← hd]
      obtain ⟨r1, r2, r3⟩ := ag_rate ha (by decide) h11
      have : S3Says H ⟨v0, v1, v2, v3, v4, v5, v6, v7, v8, v9, v10, v11, v12, v13⟩ :=
        ⟨ag_str ha (by decide) h0, ag_opt ha (by decide) h1, ag_opt ha (by decide) h2, ag_reqRef ha (by decide) h3, ag_reqRef ha (by decide) h4,
          ag_ref ha (by decide) h5, ag_opt ha (by decide) h6, ag_nat ha (by decide) h7, ag_nat ha (by decide) h8, ag_nat ha (by decide) h9,
          ag_nat ha (by decide) h10, r1, r2, r3, ag_ref ha (by decide) h12, ag_switch ha (by decide) h13⟩
      exact ⟨⟨hx, this⟩, ⟨hx, this⟩⟩
    · cases h

theorem source_says (dir : List Char) (hw : t.Wf) (ha : ∀ p x, H p x ↔ settings t p = some x) {s : StripeSource} (h : decodeSource t = some s) :
    SourceSays dir H (s.resolve dir) := by
  simp only [decodeSource, bind_some] at h
  obtain ⟨x, hx, h⟩ := h
  have hx : H.Str ["type"] x := (ha _ _).mpr ((settings_one _ _ _).mpr (reqStr_some hx))
  have hr : Agrees H (t.remove "type") := by
    intro k p y hk
    rw [ha]
    simp only [settings, get_remove _ _ hw, if_neg hk]
  split at h
  · rename_i he
    subst he
    simp only [decodeRaw, bind_some, guard_some] at h
    obtain ⟨_, hk, v0, h0, v1, h1, v2, h2, h⟩ := h
    have hd := Option.some.inj h
    rw [← hd]
    exact ⟨hx, ag_path dir hr (by decide) h0, ag_switch hr (by decide) h1, ag_switch hr (by decide) h2⟩
  · split at h
    · rename_i he
      subst he
      rw [Option.map_eq_some_iff] at h
      obtain ⟨st, h, rfl⟩ := h
      exact ⟨hx, (storage_says dir hr h).1⟩
    · split at h
      · rename_i he
        subst he
        rw [Option.map_eq_some_iff] at h
        obtain ⟨r, h, rfl⟩ := h
        exact ⟨hx, remote_says hr h⟩
      · cases h

theorem secret_says (utf8 : String → Bytes) (dir : List Char) (ha : ∀ p x, H p x ↔ settings t p = some x) {d : SecretDef}
    (h : decodeSecretDef utf8 t = some d) : SecretSays utf8 dir H (d.resolve dir) := by
  obtain ⟨_, ⟨u, hu, hsrc⟩, h3, h4⟩ := decodeSecretDef_some h
  have ha' : Agrees H t := fun k p x _ => ha _ _
  have e1 : (d.resolve dir).base64 = d.base64 := by unfold SecretDef.resolve; split <;> rfl
  have e2 : (d.resolve dir).encryptedBy = d.encryptedBy := by unfold SecretDef.resolve; split <;> rfl
  refine ⟨?_, by rw [e1]; exact ag_encoding ha' (by decide) h3, by rw [e2]; exact ag_ref ha' (by decide) h4⟩
  have hs : ∀ k s, u.get k = some (.atom (.str s)) → H.Str ["source", k] s := by
    intro k s hk
    exact (ag_sub ha' (by decide) hu _ _).mpr ((settings_one _ _ _).mpr hk)
  rcases decodeSecretSource_some hsrc with ⟨v, _, g, hd⟩ | ⟨v, _, g, hd⟩ | ⟨v, _, g, hd⟩
  · simp only [SecretDef.resolve, hd]; exact ⟨v, hs _ _ g, resolvePath_leads _ _⟩
  · simp only [SecretDef.resolve, hd]; exact ⟨v, hs _ _ g, rfl⟩
  · simp only [SecretDef.resolve, hd]; exact hs _ _ g

end Sections

theorem storage_good {secrets : List (String × Bytes)} {s : Storage} (h : s.validate secrets = true) : StorageGood secrets s := by
  have ho : ∀ {o : Option String} {p : Bytes → Bool}, optSecretOk secrets o p = true → ∀ k, o = some k → ∃ b, secrets.lookup k = some b ∧ p b = true := by
    intro o p h k hk
    rw [hk] at h
    exact secretOk_iff.mp h
  cases s with
  | filesystem r kek a =>
    intro k hk
    obtain ⟨b, h1, h2⟩ := ho h k hk
    exact ⟨b, h1, by simpa using h2⟩
  | s3 s =>
    simp only [Storage.validate, Bool.and_eq_true] at h
    obtain ⟨⟨⟨⟨⟨⟨⟨⟨⟨h1, h2⟩, h3⟩, h4⟩, h5⟩, h6⟩, h7⟩, h8⟩, h9⟩, h10⟩ := h
    have ne : ∀ {k : String}, secretOk secrets k (fun b => !b.isEmpty) = true → ∃ b, secrets.lookup k = some b ∧ b ≠ [] := by
      intro k h
      obtain ⟨b, hb, hn⟩ := secretOk_iff.mp h
      refine ⟨b, hb, ?_⟩
      rintro rfl; cases hn
    refine ⟨?_, ne h2, ne h3, ?_, ?_, ?_, ?_, ?_, ?_, ?_⟩
    · intro k hk
      obtain ⟨b, g1, g2⟩ := ho h1 k hk
      exact ⟨b, g1, by simpa using g2⟩
    · intro k hk
      rw [hk] at h4
      exact ne h4
    · simp at h6; omega
    · simp at h7; omega
    · simp at h8; omega
    · simp at h9; omega
    · intro he
      rw [he] at h10
      simp at h10; omega
    · intro p hp
      rw [hp, prefixOk] at h5
      simp only [Bool.not_eq_true', List.any_eq_false] at h5
      exact ⟨fun hc => absurd (h5 _ hc) (by simp), fun hc => absurd (h5 _ hc) (by simp)⟩

theorem remote_good {secrets : List (String × Bytes)} {dz : DangerZone} {r : Remote} (h : r.validate dz secrets = true) : RemoteGood secrets r := by
  simp only [Remote.validate, Bool.and_eq_true] at h
  obtain ⟨⟨⟨⟨_, h2⟩, h3⟩, h4⟩, h5⟩ := h
  refine ⟨?_, by simp at h3; omega, by simp at h4; omega, by simp at h5; omega⟩
  intro k hk
  rw [hk] at h2
  obtain ⟨b, hb, hl⟩ := secretOk_iff.mp h2
  exact ⟨b, hb, by simpa using hl⟩

variable {e : Env} {root : Tbl}

theorem below_iff {m t : Tbl} (hd : Docs e root) (hm : resolveIncludes e.ws e.files e.dir root = .ok m) {s : String} (hg : m.get s = some (.table t))
    (p : List String) (x : Setting) : Has.below e root [s] p x ↔ settings t p = some x := by
  rw [Has.below, List.singleton_append, ← merged_has hd hm, settings_sub _ _ _ _ hg]

theorem below_none {m : Tbl} (hd : Docs e root) (hm : resolveIncludes e.ws e.files e.dir root = .ok m) {s : String} (hg : m.get s = none) :
    Silent e root [s] := silent_none hd hm (settings_none _ _ _ hg)

/-- C61: an accepted device configuration is what its documents say: each value is the one written, or the documented default if nothing
is written, and the secrets it refers to exist and have the required sizes. -/
theorem C61_config (hd : Docs e root) {c : Config} (h : Config.load e root = .ok c) :
    DeviceSays e.dir (Has.below e root ["device"]) c.device ∧
    (TuningSays (Has.below e root ["tuning"]) c.tuning ∧ InRange c.tuning) ∧
    (match c.encryption with
      | some k => Says e root ["encryption", "xts_key", "ref"] (.str k) ∧ ∃ b, c.secrets.lookup k = some b ∧ b.length = 64
      | none => Silent e root ["encryption"]) ∧
    (match c.source with
      | some s => SourceSays e.dir (Has.below e root ["stripe_source"]) s ∧
          (match s with
            | .raw _ _ _ => True
            | .archive st => StorageGood c.secrets st
            | .remote r => RemoteGood c.secrets r)
      | none => Silent e root ["stripe_source"]) := by
  obtain ⟨m, hm, hl⟩ := load_ok h
  refine ⟨?_, ⟨?_, (C47_accepted_iff _).mp hl.tuningOk⟩, ?_, ?_⟩
  · obtain ⟨t, d, hg, hdec, hc⟩ := hl.device
    rw [hc]
    exact device_says e.dir (fun k p x _ => below_iff hd hm hg _ _) hdec
  · rcases hl.tuning with ⟨hc, hg⟩ | ⟨t, hg, hdec⟩
    · have hs : ∀ p, (Has.below e root ["tuning"]).Nothing p := fun p x hx => silent_none hd hm (settings_none _ _ _ hg) x hx
      rw [hc]
      exact ⟨Or.inr ⟨hs _, rfl⟩, Or.inr ⟨hs _, rfl⟩, Or.inr ⟨hs _, rfl⟩, Or.inr ⟨hs _, rfl⟩, Or.inr ⟨hs _, rfl⟩, hs _, Or.inr ⟨hs _, rfl⟩,
        Or.inr ⟨hs _, rfl⟩⟩
    · exact tuning_says (fun k p x _ => below_iff hd hm hg _ _) hdec
  · rcases hl.encryption with ⟨hc, hg⟩ | ⟨t, k, hc, hg, hdec⟩
    · rw [hc]; exact below_none hd hm hg
    · rw [hc]
      obtain ⟨k', b, h1, h2, h3⟩ := C44_key hd h (x := .table) ((merged_has hd hm _ _).mp (by rw [settings_sub _ _ _ _ hg]; rfl))
      rw [hc] at h2
      cases h2
      exact ⟨h1, b, h3⟩
  · rcases hl.source with ⟨hc, hg⟩ | ⟨t, s, hc, hg, hdec, hv⟩
    · rw [hc]; exact below_none hd hm hg
    · rw [hc]
      refine ⟨source_says e.dir (wf_get (merged_wf hd hm) hg) (fun p x => below_iff hd hm hg p x) hdec, ?_⟩
      cases s with
      | raw => trivial
      | archive st => exact storage_good hv
      | remote r => exact remote_good hv

/-- C61 for the target of an archive (its path is used as written, see C58). -/
theorem C61_target (hd : Docs e root) {c : TargetConfig} (h : TargetConfig.load e root = .ok c) :
    StorageSays (fun H p r => ∃ q, H.Str p q ∧ r = q.toList) (Has.below e root ["target"]) c.target ∧ StorageGood c.secrets c.target := by
  obtain ⟨m, hm, _, _, t, hg, hdec, hv⟩ := target_ok h
  exact ⟨(storage_says e.dir (fun k p x _ => below_iff hd hm hg _ _) hdec).2, storage_good hv⟩

/-- C61 for an archive to export. -/
theorem C61_export (hd : Docs e root) {c : ExportConfig} (h : ExportConfig.load e root = .ok c) :
    StorageSays (fun H => H.Path e.dir) (Has.below e root ["archive"]) c.archive ∧ StorageGood c.secrets c.archive := by
  obtain ⟨m, hm, _, _, t, s, hg, hdec, hc, hv⟩ := export_ok h
  refine ⟨?_, storage_good hv⟩
  rw [hc]
  exact (storage_says e.dir (fun k p x _ => below_iff hd hm hg _ _) hdec).1

/-- C61 for a stripe server. -/
theorem C61_server (hd : Docs e root) {c : ServerConfig} (h : ServerConfig.load e root = .ok c) :
    RemoteSays (Has.below e root ["server"]) c.server ∧ RemoteGood c.secrets c.server := by
  obtain ⟨m, hm, _, _, t, hg, hdec, hv⟩ := server_ok h
  exact ⟨remote_says (fun k p x _ => below_iff hd hm hg _ _) hdec, remote_good hv⟩

theorem decodeSecrets_mem {utf8 : String → Bytes} {t : Tbl} {defs : List (String × SecretDef)} (hw : t.Wf) (h : decodeSecrets utf8 t = some defs)
    {n : String} {d : SecretDef} (hd : (n, d) ∈ defs) : ∃ u, t.get n = some (.table u) ∧ decodeSecretDef utf8 u = some d := by
  have hn : n ∈ t.keys := by rw [← decodeSecrets_keys h]; exact List.mem_map.mpr ⟨_, hd, rfl⟩
  rw [get_keys] at hn
  cases hg : t.get n with
  | none => exact absurd hg hn
  | some v =>
    obtain ⟨u, d', hv, hdec, hm⟩ := decodeSecrets_get h hg
    have hnd : (defs.map Prod.fst).Nodup := by rw [decodeSecrets_keys h]; exact keys_nodup _ hw
    rw [def_unique hnd hd hm]
    exact ⟨u, by rw [hv], hdec⟩

/-- C61 for secrets, in any kind of configuration: the secrets available are those the documents define, each with the value its
definition in the documents denotes (C45). -/
theorem C61_secrets (hd : Docs e root) {secrets : List (String × Bytes)} (h : Accepted e root secrets) :
    ∃ dz defs, (∀ n d, (n, d) ∈ defs → SecretSays e.world.utf8 e.dir (Has.below e root ["secrets", n]) d) ∧
      (∀ n x, Has e root ["secrets", n] x → ∃ d, (n, d) ∈ defs) ∧ ∀ n b, secrets.lookup n = some b ↔ SecretValue e.world dz defs n b := by
  obtain ⟨m, dz, defs, hm, hc⟩ := accepted_common h
  refine ⟨dz, defs.map fun p => (p.1, p.2.resolve e.dir), ?_, ?_, (C45_values (common_names (merged_wf hd hm) hc) hc.resolved).1⟩
  · intro n d' hd'
    obtain ⟨⟨n0, d⟩, hmem, heq⟩ := List.mem_map.mp hd'
    cases heq
    rcases hc.decoded with ⟨rfl, _⟩ | ⟨t, ht, hdec⟩
    · cases hmem
    · obtain ⟨u, hu, hud⟩ := decodeSecrets_mem (wf_get (merged_wf hd hm) ht) hdec hmem
      refine secret_says _ _ (fun p x => ?_) hud
      show Has e root ("secrets" :: n0 :: p) x ↔ _
      rw [← merged_has hd hm, settings_sub _ _ _ _ ht, settings_sub _ _ _ _ hu]
  · intro n x hx
    obtain ⟨u, d, _, h2, _⟩ := common_def hc ((merged_has hd hm _ _).mpr hx)
    exact ⟨_, List.mem_map.mpr ⟨_, h2, rfl⟩⟩

/-! ## Example -/

/-- A source with several settings away from their defaults is accepted. -/
example : (Config.load demoEnv (.sub "stripe_source" (.leaf "type" (.str "remote") (.leaf "address" (.str "h:9") (.leaf "connections" (.int 3)
    (.sub "psk" (.leaf "identity" (.str "i") (.sub "secret" (.leaf "ref" (.str "k") .nil) .nil)) .nil)))) demoConf)).toBool = true := by
  decide +kernel

end Verif.Config
