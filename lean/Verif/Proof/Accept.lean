import Verif.Spec.Accept
import Verif.Props.Effect

/-! # Decoding what is written as documented -/

namespace Verif.Config
open Verif

section Fields
variable {H : View} {t : Tbl} {k : String}

theorem settings_some_of_get {v : Val} (h : t.get k = some v) : ∃ x, settings t [k] = some x := by
  cases v with
  | atom a => exact ⟨_, (settings_one _ _ _).mpr h⟩
  | table u => exact ⟨.table, by rw [settings_sub _ _ _ _ h]; rfl⟩

theorem get_nothing (ha : Agrees H t) (hk : k ≠ "type") (h : H.Nothing [k]) : t.get k = none := by
  cases hg : t.get k with
  | none => rfl
  | some v =>
    obtain ⟨x, hx⟩ := settings_some_of_get hg
    exact absurd ((ha k [] x hk).mpr hx) (h x)

theorem get_value (ha : Agrees H t) (hk : k ≠ "type") {a : Atom} (h : H [k] (.value a)) : t.get k = some (.atom a) :=
  (settings_one _ _ _).mp ((ha k [] _ hk).mp h)

theorem get_below (ha : Agrees H t) (hk : k ≠ "type") {j : String} {p : List String} {x : Setting} (h : H (k :: j :: p) x) :
    ∃ u, t.get k = some (.table u) := by
  have hs := (ha k (j :: p) x hk).mp h
  cases hg : t.get k with
  | none => rw [settings_none _ _ _ hg] at hs; cases hs
  | some v =>
    cases v with
    | atom a => exact absurd (settings_atom hg hs).1 (by simp)
    | table u => exact ⟨u, rfl⟩

theorem reqStr_of (ha : Agrees H t) (hk : k ≠ "type") {s : String} (h : H.Str [k] s) : reqStr t k = some s := by
  unfold reqStr; rw [get_value ha hk h]

theorem strAt_of (ha : Agrees H t) (hk : k ≠ "type") {o : Option String} (h : H.Opt [k] o) : strAt t k = some o := by
  unfold strAt
  cases o with
  | none => rw [get_nothing ha hk h]
  | some s => rw [get_value ha hk h]

theorem strAt_or (ha : Agrees H t) (hk : k ≠ "type") {d s : String} (h : H.StrOr [k] d s) : ∃ o, strAt t k = some o := by
  unfold strAt
  rcases h with h | ⟨h, _⟩
  · rw [get_value ha hk h]; exact ⟨_, rfl⟩
  · rw [get_nothing ha hk h]; exact ⟨_, rfl⟩

theorem strAt_path (dir : List Char) (ha : Agrees H t) (hk : k ≠ "type") {o : Option (List Char)} (h : H.OptPath dir [k] o) :
    ∃ o, strAt t k = some o := by
  unfold strAt
  cases o with
  | none => rw [get_nothing ha hk h]; exact ⟨_, rfl⟩
  | some s =>
    obtain ⟨s, h, _⟩ := h
    rw [get_value ha hk h]; exact ⟨_, rfl⟩

theorem boolAt_of (ha : Agrees H t) (hk : k ≠ "type") {b : Bool} (h : H.Switch [k] b) : boolAt t k = some b := by
  unfold boolAt
  rcases h with h | ⟨h, hb⟩
  · rw [get_value ha hk h]
  · rw [get_nothing ha hk h, hb]

theorem natAt_of (ha : Agrees H t) (hk : k ≠ "type") {lim d n : Nat} (h : H.NatOr [k] d n) (hl : n < lim) : natAt lim t k d = some n := by
  unfold natAt
  rcases h with h | ⟨h, hb⟩
  · rw [get_value ha hk h]
    exact if_pos ⟨Int.natCast_nonneg _, Int.ofNat_lt.mpr hl⟩
  · rw [get_nothing ha hk h, hb]

theorem natsAt_of (ha : Agrees H t) (hk : k ≠ "type") {o : Option (List Nat)} (h : H.OptNats [k] o) : natsAt t k = some o := by
  unfold natsAt
  cases o with
  | none => rw [get_nothing ha hk h]
  | some l =>
    rcases h with h | ⟨rfl, h⟩
    · rw [get_value ha hk h]
      have h1 : ((l.map Int.ofNat).all fun x => decide (0 ≤ x)) = true := by
        rw [List.all_eq_true]
        intro x hx
        obtain ⟨n, _, rfl⟩ := List.mem_map.mp hx
        exact decide_eq_true (Int.natCast_nonneg n)
      simp only [h1, if_true, List.map_map]
      have : (Int.toNat ∘ Int.ofNat) = id := by funext n; rfl
      rw [this, List.map_id]
    · rw [get_value ha hk h]

theorem engineAt_of (ha : Agrees H t) (hk : k ≠ "type") {b : Bool} (h : H.Choice [k] "io_uring" "sync" b) : engineAt t k = some b := by
  unfold engineAt
  rcases h with h | ⟨h, hb⟩
  · rw [get_value ha hk h]
    cases b <;> rfl
  · rw [get_nothing ha hk h, hb]

theorem encodingAt_of (ha : Agrees H t) (hk : k ≠ "type") {b : Bool} (h : H.Choice [k] "plaintext" "base64" b) : encodingAt t k = some b := by
  unfold encodingAt
  rcases h with h | ⟨h, hb⟩
  · rw [get_value ha hk h]
    cases b <;> rfl
  · rw [get_nothing ha hk h, hb]

theorem keys_single {u : Tbl} (hw : u.Wf) {j : String} {v : Val} (hg : u.get j = some v) (ho : ∀ i, u.get i ≠ none → i = j) : u.keys = [j] := by
  have hn := keys_nodup u hw
  have hj : j ∈ u.keys := by rw [get_keys, hg]; exact fun h => nomatch h
  have hall : ∀ i ∈ u.keys, i = j := fun i hi => ho i ((get_keys _ _).mp hi)
  generalize u.keys = l at hn hj hall
  match l, hn, hj, hall with
  | [a], _, _, hall => rw [hall a (by simp)]
  | a :: b :: l, hn, _, hall =>
    have h1 := hall a (by simp)
    have h2 := hall b (by simp)
    rw [h1, h2] at hn
    simp at hn

/-- The only settings below `k` are of a reference. -/
def RefOnly (H : View) (k : String) : Prop := ∀ p x, H (k :: p) x → p = [] ∨ p = ["ref"]

theorem reqRef_of (hw : t.Wf) (ha : Agrees H t) (hk : k ≠ "type") {s : String} (h : H.Str [k, "ref"] s) (ho : RefOnly H k) : reqRef t k = some s := by
  obtain ⟨u, hu⟩ := get_below ha hk h
  have hr : u.get "ref" = some (.atom (.str s)) := (settings_one _ _ _).mp ((ag_sub ha hk hu _ _).mp h)
  unfold reqRef
  rw [hu]
  show decodeRef u = some s
  unfold decodeRef
  rw [if_pos (keys_single (wf_get hw hu) hr ?_)]
  · unfold reqStr; rw [hr]
  · intro i hi
    cases hg : u.get i with
    | none => exact absurd hg hi
    | some v =>
      obtain ⟨x, hx⟩ := settings_some_of_get hg
      rcases ho [i] x ((ag_sub ha hk hu _ _).mpr hx) with h0 | h0
      · cases h0
      · exact (List.cons.inj h0).1

theorem refAt_of (hw : t.Wf) (ha : Agrees H t) (hk : k ≠ "type") {o : Option String} (h : H.OptRef [k] o) (ho : RefOnly H k) : refAt t k = some o := by
  cases o with
  | none => unfold refAt; rw [get_nothing ha hk h]
  | some s =>
    have := reqRef_of hw ha hk h ho
    unfold reqRef at this
    unfold refAt
    split at this
    · rename_i u hu
      rw [hu]
      show (decodeRef u).map some = _
      rw [this]; rfl
    · cases this

theorem known_of {ks : List String} (h : ∀ i x, settings t [i] = some x → i ∈ ks) : known t ks = true := by
  unfold known
  rw [List.all_eq_true]
  intro i hi
  rw [List.contains_iff_mem]
  rw [get_keys] at hi
  cases hg : t.get i with
  | none => exact absurd hg hi
  | some v =>
    obtain ⟨x, hx⟩ := settings_some_of_get hg
    exact h i x hx

theorem pskAt_of (hw : t.Wf) (ha : Agrees H t) (hk : k ≠ "type") {o : Option Psk} (h : H.Psk [k] o)
    (ho : ∀ p x, H (k :: p) x → p = [] ∨ p = ["identity"] ∨ p = ["secret"] ∨ p = ["secret", "ref"]) : pskAt t k = some o := by
  unfold pskAt
  cases o with
  | none => rw [get_nothing ha hk h]
  | some q =>
    obtain ⟨h1, h2⟩ := h
    obtain ⟨u, hu⟩ := get_below ha hk h1
    rw [hu]
    have ha' : Agrees (fun p x => H (k :: p) x) u := fun j p x _ => ag_sub ha hk hu _ _
    have e1 : reqStr u "identity" = some q.identity := reqStr_of ha' (by decide) h1
    have e2 : reqRef u "secret" = some q.secret := by
      refine reqRef_of (wf_get hw hu) ha' (by decide) h2 ?_
      intro p x hx
      rcases ho _ _ hx with h0 | h0 | h0 | h0
      · exact absurd h0 (by simp)
      · exact absurd h0 (by simp)
      · exact Or.inl (List.cons.inj h0).2
      · exact Or.inr (List.cons.inj h0).2
    have e3 : known u ["identity", "secret"] = true := by
      apply known_of
      intro i x hx
      rcases ho [i] x ((ag_sub ha hk hu _ _).mpr hx) with h0 | h0 | h0 | h0 <;> simp_all
    show (decodePsk u).map some = _
    have : decodePsk u = some q := by
      simp only [decodePsk, bind_some, guard_some]
      exact ⟨(), e3, _, e1, _, e2, rfl⟩
    rw [this]; rfl

theorem rateAt_of (ha : Agrees H t) (hk : k ≠ "type") {r : Rate} (h1 : H.Switch [k, "enabled"] r.enabled) (h2 : H.NatOr [k, "min_delay_ms"] 0 r.minDelayMs)
    (h3 : H.NatOr [k, "jitter_ms"] 0 r.jitterMs) (l2 : r.minDelayMs < 2 ^ 64) (l3 : r.jitterMs < 2 ^ 64) (ht : H.Table [k])
    (ho : ∀ p x, H (k :: p) x → p = [] ∨ p = ["enabled"] ∨ p = ["min_delay_ms"] ∨ p = ["jitter_ms"]) : rateAt t k = some r := by
  unfold rateAt
  cases hg : t.get k with
  | none =>
    have hn : ∀ p x, ¬H (k :: p) x := fun p x => ag_none ha hk hg p x
    have e1 : r.enabled = false := h1.elim (fun h => absurd h (hn _ _)) And.right
    have e2 : r.minDelayMs = 0 := h2.elim (fun h => absurd h (hn _ _)) And.right
    have e3 : r.jitterMs = 0 := h3.elim (fun h => absurd h (hn _ _)) And.right
    show some (⟨false, 0, 0⟩ : Rate) = some r
    rw [← e1]
    rw [show (⟨r.enabled, 0, 0⟩ : Rate) = r from by cases r; simp_all]
  | some v =>
    cases v with
    | atom a => exact absurd (ht _ (ag_atom ha hk hg)) (by simp)
    | table u =>
      have ha' : Agrees (fun p x => H (k :: p) x) u := fun j p x _ => ag_sub ha hk hg _ _
      show decodeRate u = _
      simp only [decodeRate, bind_some, guard_some]
      refine ⟨(), ?_, _, boolAt_of ha' (by decide) h1, _, natAt_of ha' (by decide) h2 l2, _, natAt_of ha' (by decide) h3 l3, rfl⟩
      apply known_of
      intro i x hx
      rcases ho [i] x ((ag_sub ha hk hg _ _).mpr hx) with h0 | h0 | h0 | h0 <;> simp_all

end Fields

/-! ## Sections -/

/-- A section that holds only the given keys; `t` is without the key `type`. -/
structure Sec (H : View) (t : Tbl) (paths : List (List String)) : Prop where
  wf : t.Wf
  agrees : Agrees H t
  noType : t.get "type" = none
  only : ∀ k p x, k ≠ "type" → H (k :: p) x → (k :: p) ∈ paths

section Sections
variable {H : View} {t : Tbl}

theorem Sec.known {paths : List (List String)} (hs : Sec H t paths) {ks : List String} (h : ∀ i, [i] ∈ paths → i ∈ ks) : known t ks = true := by
  apply known_of
  intro i x hx
  by_cases hi : i = "type"
  · rw [hi, settings_none _ _ _ hs.noType] at hx; cases hx
  · exact h i (hs.only i [] x hi ((hs.agrees i [] x hi).mpr hx))

/-- A section given as a whole. -/
theorem sec_of {paths : List (List String)} (hw : t.Wf) (ha : ∀ p x, H p x ↔ settings t p = some x) (ho : ∀ p x, H p x → p ∈ paths)
    (hty : ["type"] ∉ paths) : Sec H t paths := by
  refine ⟨hw, fun k p x _ => ha _ _, ?_, fun k p x _ h => ho _ _ h⟩
  cases hg : t.get "type" with
  | none => rfl
  | some v =>
    obtain ⟨x, hx⟩ := settings_some_of_get hg
    exact absurd (ho _ _ ((ha _ _).mpr hx)) hty

theorem danger_of (hs : Sec H t dangerPaths) {d : DangerZone} (h : DangerSays H d) : decodeDanger t = some d := by
  simp only [decodeDanger, bind_some, guard_some]
  have ha := hs.agrees
  exact ⟨(), hs.known (by simp [dangerPaths]), _, boolAt_of ha (by decide) h.enabled, _, boolAt_of ha (by decide) h.disk, _,
    boolAt_of ha (by decide) h.inline, _, boolAt_of ha (by decide) h.file, _, boolAt_of ha (by decide) h.connection, _,
    boolAt_of ha (by decide) h.env, rfl⟩

theorem device_of (dir : List Char) (hs : Sec H t devicePaths) {d : Device} (h : DeviceSays dir H d) : ∃ d', decodeDevice t = some d' := by
  have ha := hs.agrees
  obtain ⟨s, h0, _⟩ := h.data_path
  obtain ⟨o1, h1⟩ := strAt_path dir ha (by decide) h.metadata_path
  obtain ⟨o2, h2⟩ := strAt_path dir ha (by decide) h.vhost_socket
  obtain ⟨o3, h3⟩ := strAt_path dir ha (by decide) h.rpc_socket
  obtain ⟨o4, h4⟩ := strAt_or ha (by decide) h.device_id
  refine ⟨⟨s.toList, o1.map String.toList, o2.map String.toList, o3.map String.toList, o4.getD "ubiblk", d.trackWritten⟩, ?_⟩
  simp only [decodeDevice, bind_some, guard_some]
  exact ⟨(), hs.known (by simp [devicePaths]), _, reqStr_of ha (by decide) h0, _, h1, _, h2, _, h3, _, h4, _,
    boolAt_of ha (by decide) h.track_written, rfl⟩

theorem tuning_of (hs : Sec H t tuningPaths) {d : Tuning} (h : TuningSays H d) (hr : InRange d) : decodeTuning t = some d := by
  have ha := hs.agrees
  obtain ⟨r1, ⟨k, hk, hq⟩, r3, r4, _, r6⟩ := hr
  have hq' : d.queueSize < 2 ^ 64 := by
    rw [hq]; exact Nat.pow_lt_pow_right (by decide) (by omega)
  simp only [decodeTuning, bind_some, guard_some]
  exact ⟨(), hs.known (by simp [tuningPaths]), _, natAt_of ha (by decide) h.num_queues (by omega), _, natAt_of ha (by decide) h.queue_size hq', _,
    natAt_of ha (by decide) h.seg_size_max (by omega), _, natAt_of ha (by decide) h.seg_count_max (by omega), _,
    natAt_of ha (by decide) h.poll_timeout_us (by omega), _, natsAt_of ha (by decide) h.cpus, _, engineAt_of ha (by decide) h.io_engine, _,
    boolAt_of ha (by decide) h.write_through, rfl⟩

theorem encryption_of (hs : Sec H t encryptionPaths) {k : String} (h : H.Str ["xts_key", "ref"] k) : decodeEncryption t = some k := by
  simp only [decodeEncryption, bind_some, guard_some]
  refine ⟨(), hs.known (by simp [encryptionPaths, refPaths]), reqRef_of hs.wf hs.agrees (by decide) h ?_⟩
  intro p x hx
  simpa [encryptionPaths, refPaths] using hs.only _ _ _ (by decide) hx

theorem remote_of (hs : Sec H t remotePaths) {r : Remote} (h : RemoteSays H r) (hf : RemoteFits r) : decodeRemote t = some r := by
  have ha := hs.agrees
  simp only [decodeRemote, bind_some, guard_some]
  refine ⟨(), hs.known (by simp [remotePaths]), _, reqStr_of ha (by decide) h.address, _, pskAt_of hs.wf ha (by decide) h.psk ?_, _,
    boolAt_of ha (by decide) h.autofetch, _, natAt_of ha (by decide) h.connect_timeout_ms hf.1, _,
    natAt_of ha (by decide) h.operation_attempt_timeout_ms hf.2.1, _, natAt_of ha (by decide) h.connections hf.2.2, rfl⟩
  intro p x hx
  simpa [remotePaths] using hs.only _ _ _ (by decide) hx

/-- The keys of a store. -/
def storagePaths : Storage → List (List String)
  | .filesystem _ _ _ => fsPaths
  | .s3 _ => s3Paths

theorem storagePaths_iff (s : Storage) (p : List String) : p ∈ storagePaths s ↔ storageKey s p := by cases s <;> exact Iff.rfl

theorem storage_of {R : List Char → String → Prop} {s : Storage} (hs : Sec H t (storagePaths s))
    (h : StorageSays (fun H p r => ∃ q, H.Str p q ∧ R r q) H s) (hf : StorageFits s) (hr : RateTable H s) :
    ∃ s', decodeStorage t = some s' ∧ ∀ secrets dir, StorageGood secrets s ↔ StorageGood secrets s' ∧ StorageGood secrets (s'.resolve dir) := by
  have ha := hs.agrees
  cases s with
  | filesystem r kek a =>
    obtain ⟨h0, ⟨q, hq, _⟩, h2, h3⟩ := h
    refine ⟨.filesystem q.toList kek a, ?_, fun secrets dir => by simp [StorageGood, Storage.resolve]⟩
    simp only [decodeStorage, bind_some]
    refine ⟨_, reqStr_of ha (by decide) h0, ?_⟩
    rw [if_pos rfl]
    simp only [decodeFs, bind_some, guard_some]
    refine ⟨(), hs.known (by simp [storagePaths, fsPaths]), _, reqStr_of ha (by decide) hq, _, refAt_of hs.wf ha (by decide) h2 ?_, _,
      boolAt_of ha (by decide) h3, rfl⟩
    intro p x hx
    simpa [storagePaths, fsPaths] using hs.only _ _ _ (by decide) hx
  | s3 s =>
    obtain ⟨h0, h⟩ := h
    obtain ⟨f1, f2, f3, f4, f5, f6⟩ := hf
    refine ⟨.s3 s, ?_, fun secrets dir => by simp [Storage.resolve]⟩
    simp only [decodeStorage, bind_some]
    refine ⟨_, reqStr_of ha (by decide) h0, ?_⟩
    rw [if_neg (by decide), if_pos rfl]
    simp only [decodeS3, bind_some, guard_some]
    refine ⟨(), hs.known (by simp [storagePaths, s3Paths]), _, reqStr_of ha (by decide) h.bucket, _, strAt_of ha (by decide) h.pfx, _,
      strAt_of ha (by decide) h.region, _, reqRef_of hs.wf ha (by decide) h.access_key_id ?_, _,
      reqRef_of hs.wf ha (by decide) h.secret_access_key ?_, _, refAt_of hs.wf ha (by decide) h.session_token ?_, _,
      strAt_of ha (by decide) h.endpoint, _, natAt_of ha (by decide) h.connections f1, _, natAt_of ha (by decide) h.connect_timeout_ms f2, _,
      natAt_of ha (by decide) h.operation_attempt_timeout_ms f3, _, natAt_of ha (by decide) h.max_attempts f4, _,
      rateAt_of ha (by decide) h.rate_enabled h.rate_min_delay h.rate_jitter f5 f6 hr ?_, _, refAt_of hs.wf ha (by decide) h.archive_kek ?_, _,
      boolAt_of ha (by decide) h.autofetch, rfl⟩
    all_goals
      intro p x hx
      simpa [storagePaths, s3Paths] using hs.only _ _ _ (by decide) hx

theorem rest_sec {paths : List (List String)} (hw : t.Wf) (ha : ∀ p x, H p x ↔ settings t p = some x)
    (ho : ∀ k p x, k ≠ "type" → H (k :: p) x → (k :: p) ∈ paths) : Sec H (t.remove "type") paths := by
  refine ⟨wf_remove _ _ hw, ?_, by rw [get_remove _ _ hw, if_pos rfl], ho⟩
  intro k p y hk
  rw [ha]
  simp only [settings, get_remove _ _ hw, if_neg hk]

theorem secret_of (utf8 : String → Bytes) (dir : List Char) (hw : t.Wf) (ha : ∀ p x, H p x ↔ settings t p = some x)
    (ho : ∀ p x, H p x → p ∈ secretPaths) {d : SecretDef} (h : SecretIs utf8 dir H d) :
    ∃ d', decodeSecretDef utf8 t = some d' ∧ d'.resolve dir = d := by
  have hs : Sec H t secretPaths := sec_of hw ha ho (by decide)
  have hag := hs.agrees
  have hsrc : ∀ j s, H.Str ["source", j] s → ∃ u, t.get "source" = some (.table u) ∧ u.keys = [j] ∧ reqStr u j = some s := by
    intro j s hj
    obtain ⟨u, hu⟩ := get_below hag (by decide) hj
    have hg : u.get j = some (.atom (.str s)) := (settings_one _ _ _).mp ((ag_sub hag (by decide) hu _ _).mp hj)
    refine ⟨u, hu, keys_single (wf_get hw hu) hg ?_, by unfold reqStr; rw [hg]⟩
    intro i hi
    cases hgi : u.get i with
    | none => exact absurd hgi hi
    | some v =>
      obtain ⟨x, hx⟩ := settings_some_of_get hgi
      exact h.one i j x _ ((ag_sub hag (by decide) hu _ _).mpr hx) hj
  have hkn : known t ["source", "encoding", "encrypted_by"] = true := hs.known (by simp [secretPaths])
  have henc := encodingAt_of hag (by decide) h.encoding
  have hby := refAt_of hw hag (by decide) h.encrypted_by (by
    intro p x hx
    simpa [secretPaths] using hs.only _ _ _ (by decide) hx)
  obtain ⟨src, b64, by_⟩ := d
  have fin : ∀ (u : Tbl) (src' : Source), t.get "source" = some (.table u) → decodeSecretSource utf8 u = some src' →
      decodeSecretDef utf8 t = some ⟨src', b64, by_⟩ := by
    intro u src' hu hd
    simp only [decodeSecretDef, hkn, hu, hd, henc, hby]
    rfl
  have hsr := h.source
  cases src with
  | file r =>
    obtain ⟨s, h1, h2⟩ := hsr
    obtain ⟨u, hu, hk, hq⟩ := hsrc _ _ h1
    refine ⟨_, fin u (.file s.toList) hu (by unfold decodeSecretSource; rw [if_pos hk, hq]; rfl), ?_⟩
    simp only [SecretDef.resolve]
    congr 2
    unfold resolvePath isAbsolute join isAbsolute
    rcases h2 with ⟨g1, g2⟩ | ⟨g1, g2⟩
    · simp [g1, g2]
    · rcases g2 with ⟨g2, g3⟩ | ⟨g2, g3, g4⟩ | ⟨g2, g3, g4⟩
      · simp [g1, g2, g3]
      · simp [g1, g2, g3, g4]
      · simp [g1, g2, g3, g4]
  | inline b =>
    obtain ⟨s, h1, rfl⟩ := hsr
    obtain ⟨u, hu, hk, hq⟩ := hsrc _ _ h1
    refine ⟨_, fin u (.inline (utf8 s)) hu (by unfold decodeSecretSource; rw [hk, hq]; rfl), rfl⟩
  | env v =>
    obtain ⟨u, hu, hk, hq⟩ := hsrc _ _ hsr
    refine ⟨_, fin u (.env v) hu (by unfold decodeSecretSource; rw [hk, hq]; rfl), rfl⟩

theorem secret_is (utf8 : String → Bytes) (dir : List Char) (ha : ∀ p x, H p x ↔ settings t p = some x) {d : SecretDef}
    (h : decodeSecretDef utf8 t = some d) : SecretIs utf8 dir H (d.resolve dir) := by
  obtain ⟨_, ⟨u, hu, hsrc⟩, h3, h4⟩ := decodeSecretDef_some h
  have ha' : Agrees H t := fun k p x _ => ha _ _
  have e1 : (d.resolve dir).base64 = d.base64 := by unfold SecretDef.resolve; split <;> rfl
  have e2 : (d.resolve dir).encryptedBy = d.encryptedBy := by unfold SecretDef.resolve; split <;> rfl
  have hs : ∀ k s, u.get k = some (.atom (.str s)) → H.Str ["source", k] s := by
    intro k s hk
    exact (ag_sub ha' (by decide) hu _ _).mpr ((settings_one _ _ _).mpr hk)
  have hone : ∀ i, u.keys = [i] → ∀ j x, H ["source", j] x → j = i := fun i hi j x hj =>
    one_key hi ((ag_sub ha' (by decide) hu _ _).mp hj)
  refine ⟨?_, ?_, by rw [e1]; exact ag_encoding ha' (by decide) h3, by rw [e2]; exact ag_ref ha' (by decide) h4⟩
  · rcases decodeSecretSource_some hsrc with ⟨v, _, g, hd⟩ | ⟨v, _, g, hd⟩ | ⟨v, _, g, hd⟩
    · simp only [SecretDef.resolve, hd]
      refine ⟨v, hs _ _ g, ?_⟩
      unfold Joined resolvePath isAbsolute join isAbsolute
      by_cases h1 : v.toList.head? = some '/'
      · exact Or.inl ⟨h1, by simp [h1]⟩
      · refine Or.inr ⟨h1, ?_⟩
        by_cases h2 : dir = []
        · exact Or.inl ⟨h2, by simp [h1, h2]⟩
        · by_cases h3 : dir.getLast? = some '/'
          · exact Or.inr (Or.inl ⟨h2, h3, by simp [h1, h2, h3]⟩)
          · exact Or.inr (Or.inr ⟨h2, h3, by simp [h1, h2, h3]⟩)
    · simp only [SecretDef.resolve, hd]; exact ⟨v, hs _ _ g, rfl⟩
    · simp only [SecretDef.resolve, hd]; exact hs _ _ g
  · intro j k x y hj hk
    rcases decodeSecretSource_some hsrc with ⟨v, h0, _⟩ | ⟨v, h0, _⟩ | ⟨v, h0, _⟩ <;>
      rw [hone _ h0 _ _ hj, hone _ h0 _ _ hk]

end Sections

/-! ## Checks -/

theorem secretOk_of {secrets : List (String × Bytes)} {k : String} {p : Bytes → Bool} (h : ∃ b, secrets.lookup k = some b ∧ p b = true) :
    secretOk secrets k p = true := secretOk_iff.mpr h

theorem optSecretOk_of {secrets : List (String × Bytes)} {o : Option String} {p : Bytes → Bool}
    (h : ∀ k, o = some k → ∃ b, secrets.lookup k = some b ∧ p b = true) : optSecretOk secrets o p = true := by
  cases o with
  | none => rfl
  | some k => exact secretOk_iff.mpr (h k rfl)

theorem storage_valid {secrets : List (String × Bytes)} {s : Storage} (h : StorageGood secrets s) : s.validate secrets = true := by
  cases s with
  | filesystem r kek a =>
    refine optSecretOk_of fun k hk => ?_
    obtain ⟨b, h1, h2⟩ := h k hk
    exact ⟨b, h1, by simpa using h2⟩
  | s3 s =>
    obtain ⟨h1, ⟨b2, g2, n2⟩, ⟨b3, g3, n3⟩, h4, h5, h6, h7, h8, h9, h10⟩ := h
    have ne : ∀ {b : Bytes}, b ≠ [] → (!b.isEmpty) = true := by
      intro b hb; cases b with
      | nil => exact absurd rfl hb
      | cons => rfl
    simp only [Storage.validate, Bool.and_eq_true]
    refine ⟨⟨⟨⟨⟨⟨⟨⟨⟨optSecretOk_of fun k hk => ?_, secretOk_of ⟨b2, g2, ne n2⟩⟩, secretOk_of ⟨b3, g3, ne n3⟩⟩, optSecretOk_of fun k hk => ?_⟩, ?_⟩, ?_⟩, ?_⟩, ?_⟩, ?_⟩, ?_⟩
    · obtain ⟨b, g1, g2⟩ := h1 k hk
      exact ⟨b, g1, by simpa using g2⟩
    · obtain ⟨b, g1, g2⟩ := h4 k hk
      exact ⟨b, g1, ne g2⟩
    · cases hp : s.pfx with
      | none => rfl
      | some p =>
        obtain ⟨c1, c2⟩ := h10 p hp
        rw [prefixOk]
        simp only [Bool.not_eq_true', List.any_eq_false]
        intro c hc
        simp only [Bool.or_eq_true, decide_eq_true_eq]
        rintro (rfl | rfl)
        · exact c1 hc
        · exact c2 hc
    · simp; omega
    · simp; omega
    · simp; omega
    · simp; omega
    · cases he : s.rate.enabled with
      | false => rfl
      | true => have := h9 he; simp; omega

theorem remote_valid {secrets : List (String × Bytes)} {dz : DangerZone} {r : Remote} (h : RemoteGood secrets r)
    (hp : r.psk = none → dz.enabled = true ∧ dz.unencryptedConnection = true) : r.validate dz secrets = true := by
  obtain ⟨h1, h2, h3, h4⟩ := h
  simp only [Remote.validate, Bool.and_eq_true]
  refine ⟨⟨⟨⟨?_, optSecretOk_of fun k hk => ?_⟩, by simp; omega⟩, by simp; omega⟩, by simp; omega⟩
  · cases hn : r.psk with
    | some k => rfl
    | none => obtain ⟨a, b⟩ := hp hn; rw [a, b]; rfl
  · obtain ⟨q, hq, rfl⟩ := Option.map_eq_some_iff.mp hk
    obtain ⟨b, g1, g2⟩ := h1 q hq
    exact ⟨b, g1, by simp; omega⟩

theorem remote_allowed {secrets : List (String × Bytes)} {dz : DangerZone} {r : Remote} (h : r.validate dz secrets = true) :
    r.psk = none → dz.enabled = true ∧ dz.unencryptedConnection = true := by
  intro hn
  simp only [Remote.validate, Bool.and_eq_true] at h
  obtain ⟨⟨⟨⟨h1, _⟩, _⟩, _⟩, _⟩ := h
  rw [hn] at h1
  simpa using h1

end Verif.Config
