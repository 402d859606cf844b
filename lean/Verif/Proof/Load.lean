import Verif.Spec.Load
import Verif.Props.Secrets

/-! # Decoding lemmas for configurations -/

namespace Verif.Config
open Verif

theorem guard_some {p : Prop} [Decidable p] {u : Unit} : (guard p : Option Unit) = some u ↔ p := by
  unfold guard
  split <;> simp_all [failure, pure]

theorem bind_some {α β : Type} {x : Option α} {f : α → Option β} {b : β} : (x >>= f) = some b ↔ ∃ a, x = some a ∧ f a = some b := by
  cases x <;> simp [bind]

theorem settings_one (t : Tbl) (k : String) (a : Atom) : settings t [k] = some (.value a) ↔ t.get k = some (.atom a) := by
  rw [settings]
  cases h : t.get k with
  | none => simp
  | some v => cases v <;> simp [settings]

theorem settings_none (t : Tbl) (k : String) (p : List String) (h : t.get k = none) : settings t (k :: p) = none := by
  rw [settings, h]

theorem settings_sub (t u : Tbl) (k : String) (p : List String) (h : t.get k = some (.table u)) : settings t (k :: p) = settings u p := by
  rw [settings, h]

theorem settings_atom {t : Tbl} {k : String} {a : Atom} {p : List String} {x : Setting} (h : t.get k = some (.atom a))
    (hs : settings t (k :: p) = some x) : p = [] ∧ x = .value a := by
  rw [settings, h] at hs
  simp only at hs
  split at hs
  · cases hs; exact ⟨by assumption, rfl⟩
  · cases hs

theorem get_keys (t : Tbl) (k : String) : k ∈ t.keys ↔ t.get k ≠ none := by
  induction t with
  | nil => simp [Tbl.keys, Tbl.get]
  | leaf k' a r ih =>
    simp only [Tbl.keys, Tbl.get, List.mem_cons, ih]
    by_cases h : k = k' <;> simp [h]
  | sub k' u r _ ih =>
    simp only [Tbl.keys, Tbl.get, List.mem_cons, ih]
    by_cases h : k = k' <;> simp [h]

theorem keys_nodup (t : Tbl) (hw : t.Wf) : t.keys.Nodup := by
  induction t with
  | nil => exact List.nodup_nil
  | leaf k' a r ih =>
    obtain ⟨h1, h2⟩ := hw
    rw [Tbl.keys, List.nodup_cons, get_keys]
    exact ⟨fun h => h h1, ih h2⟩
  | sub k' u r _ ih =>
    obtain ⟨h1, _, h2⟩ := hw
    rw [Tbl.keys, List.nodup_cons, get_keys]
    exact ⟨fun h => h h1, ih h2⟩

/-! ## Fields -/

variable {t : Tbl} {k : String}

theorem reqStr_some {s : String} (h : reqStr t k = some s) : t.get k = some (.atom (.str s)) := by
  unfold reqStr at h
  split at h
  · cases h; assumption
  · cases h

theorem strAt_some {o : Option String} (h : strAt t k = some o) :
    (o = none ∧ t.get k = none) ∨ ∃ s, o = some s ∧ t.get k = some (.atom (.str s)) := by
  unfold strAt at h
  split at h
  · cases h; exact Or.inl ⟨rfl, by assumption⟩
  · cases h; exact Or.inr ⟨_, rfl, by assumption⟩
  · cases h

theorem boolAt_some {b : Bool} (h : boolAt t k = some b) : (b = false ∧ t.get k = none) ∨ t.get k = some (.atom (.bool b)) := by
  unfold boolAt at h
  split at h
  · cases h; exact Or.inl ⟨rfl, by assumption⟩
  · cases h; exact Or.inr (by assumption)
  · cases h

theorem boolAt_true {b : Bool} (h : boolAt t k = some b) : b = true ↔ t.get k = some (.atom (.bool true)) := by
  rcases boolAt_some h with ⟨rfl, h'⟩ | h' <;> rw [h'] <;> simp

theorem natAt_some {lim d n : Nat} (h : natAt lim t k d = some n) :
    (n = d ∧ t.get k = none) ∨ t.get k = some (.atom (.int n)) ∧ n < lim := by
  unfold natAt at h
  split at h
  · cases h; exact Or.inl ⟨rfl, by assumption⟩
  · rename_i i hi
    split at h
    · rename_i hr
      cases h
      rw [Int.toNat_of_nonneg hr.1]
      exact Or.inr ⟨hi, by omega⟩
    · cases h
  · cases h

theorem natsAt_some {o : Option (List Nat)} (h : natsAt t k = some o) :
    (o = none ∧ t.get k = none) ∨ ∃ a, t.get k = some (.atom a) ∧ ∃ l, o = some l ∧ (a = .ints (l.map Int.ofNat) ∨ a = .strings [] ∧ l = []) := by
  unfold natsAt at h
  split at h
  · cases h; exact Or.inl ⟨rfl, by assumption⟩
  · rename_i l hl
    split at h
    · rename_i hr
      cases h
      refine Or.inr ⟨_, hl, _, rfl, Or.inl ?_⟩
      rw [List.map_map]
      congr 1
      have : ∀ x ∈ l, (Int.ofNat ∘ Int.toNat) x = x := by
        intro x hx
        have := List.all_eq_true.mp hr x hx
        simp only [decide_eq_true_eq] at this
        exact Int.toNat_of_nonneg this
      exact ((List.map_congr_left this).trans (List.map_id' l)).symm
    · cases h
  · cases h; rename_i hl; exact Or.inr ⟨_, hl, _, rfl, Or.inr ⟨rfl, rfl⟩⟩
  · cases h

theorem decodeRef_some {s : String} (h : decodeRef t = some s) : t.keys = ["ref"] ∧ t.get "ref" = some (.atom (.str s)) := by
  unfold decodeRef at h
  split at h
  · exact ⟨by assumption, reqStr_some h⟩
  · cases h

theorem reqRef_some {s : String} (h : reqRef t k = some s) : ∃ r, t.get k = some (.table r) ∧ r.keys = ["ref"] ∧ r.get "ref" = some (.atom (.str s)) := by
  unfold reqRef at h
  split at h
  · exact ⟨_, by assumption, decodeRef_some h⟩
  · cases h

theorem refAt_some {o : Option String} (h : refAt t k = some o) :
    (o = none ∧ t.get k = none) ∨ ∃ s r, o = some s ∧ t.get k = some (.table r) ∧ r.keys = ["ref"] ∧ r.get "ref" = some (.atom (.str s)) := by
  unfold refAt at h
  split at h
  · cases h; exact Or.inl ⟨rfl, by assumption⟩
  · rename_i r hr
    rw [Option.map_eq_some_iff] at h
    obtain ⟨s, hs, rfl⟩ := h
    obtain ⟨h1, h2⟩ := decodeRef_some hs
    exact Or.inr ⟨s, r, rfl, hr, h1, h2⟩
  · cases h

/-! ## Which keys are below a field -/

/-- The field is no table. -/
def Plain (t : Tbl) (k : String) : Prop := ∀ p x, settings t (k :: p) = some x → p = []

theorem plain_none (h : t.get k = none) : Plain t k := fun p x hs => by rw [settings_none _ _ _ h] at hs; cases hs
theorem plain_atom {a : Atom} (h : t.get k = some (.atom a)) : Plain t k := fun _ _ hs => (settings_atom h hs).1

theorem reqStr_plain {s : String} (h : reqStr t k = some s) : Plain t k := plain_atom (reqStr_some h)
theorem strAt_plain {o : Option String} (h : strAt t k = some o) : Plain t k := by
  rcases strAt_some h with ⟨_, h⟩ | ⟨s, _, h⟩
  · exact plain_none h
  · exact plain_atom h
theorem boolAt_plain {b : Bool} (h : boolAt t k = some b) : Plain t k := by
  rcases boolAt_some h with ⟨_, h⟩ | h
  · exact plain_none h
  · exact plain_atom h
theorem natAt_plain {lim d n : Nat} (h : natAt lim t k d = some n) : Plain t k := by
  rcases natAt_some h with ⟨_, h⟩ | ⟨h, _⟩
  · exact plain_none h
  · exact plain_atom h
theorem natsAt_plain {o : Option (List Nat)} (h : natsAt t k = some o) : Plain t k := by
  rcases natsAt_some h with ⟨_, h⟩ | ⟨a, h, _⟩
  · exact plain_none h
  · exact plain_atom h
theorem engineAt_plain {b : Bool} (h : engineAt t k = some b) : Plain t k := by
  unfold engineAt at h
  split at h
  · exact plain_none (by assumption)
  · exact plain_atom (by assumption)
  · exact plain_atom (by assumption)
  · cases h
theorem encodingAt_plain {b : Bool} (h : encodingAt t k = some b) : Plain t k := by
  unfold encodingAt at h
  split at h
  · exact plain_none (by assumption)
  · exact plain_atom (by assumption)
  · exact plain_atom (by assumption)
  · cases h

/-- The field is a reference. -/
def IsRef (t : Tbl) (k : String) : Prop := ∀ p x, settings t (k :: p) = some x → p = [] ∨ p = ["ref"]

theorem isRef_table {r : Tbl} {s : String} (h : t.get k = some (.table r)) (h1 : r.keys = ["ref"]) (h2 : r.get "ref" = some (.atom (.str s))) : IsRef t k := by
  intro p x hs
  rw [settings_sub _ _ _ _ h] at hs
  cases p with
  | nil => exact Or.inl rfl
  | cons k' p =>
    have hk : k' ∈ r.keys := by
      rw [get_keys]; intro h0; rw [settings_none _ _ _ h0] at hs; cases hs
    rw [h1, List.mem_singleton] at hk
    subst hk
    rw [(settings_atom h2 hs).1]; exact Or.inr rfl

theorem reqRef_isRef {s : String} (h : reqRef t k = some s) : IsRef t k := by
  obtain ⟨r, h1, h2, h3⟩ := reqRef_some h
  exact isRef_table h1 h2 h3

theorem refAt_isRef {o : Option String} (h : refAt t k = some o) : IsRef t k := by
  rcases refAt_some h with ⟨_, h⟩ | ⟨s, r, _, h1, h2, h3⟩
  · intro p x hs; rw [settings_none _ _ _ h] at hs; cases hs
  · exact isRef_table h1 h2 h3

/-- Keys of a table with `deny_unknown_fields`. -/
theorem known_paths {ks : List String} (hk : known t ks = true) {p : List String} {x : Setting} (hs : settings t p = some x) :
    p = [] ∨ ∃ k ∈ ks, ∃ q, p = k :: q := by
  cases p with
  | nil => exact Or.inl rfl
  | cons k q =>
    have hm : k ∈ t.keys := by
      rw [get_keys]; intro h0; rw [settings_none _ _ _ h0] at hs; cases hs
    have := List.all_eq_true.mp hk k hm
    exact Or.inr ⟨k, List.contains_iff_mem.mp this, q, rfl⟩

/-! ## Sections -/

theorem decodeDanger_fields {dz : DangerZone} (h : decodeDanger t = some dz) :
    (dz.enabled = true ↔ t.get "enabled" = some (.atom (.bool true))) ∧
    (dz.unencryptedDisk = true ↔ t.get "allow_unencrypted_disk" = some (.atom (.bool true))) ∧
    (dz.inlinePlaintext = true ↔ t.get "allow_inline_plaintext_secrets" = some (.atom (.bool true))) ∧
    (dz.regularFile = true ↔ t.get "allow_secret_over_regular_file" = some (.atom (.bool true))) ∧
    (dz.unencryptedConnection = true ↔ t.get "allow_unencrypted_connection" = some (.atom (.bool true))) ∧
    (dz.envSecrets = true ↔ t.get "allow_env_secrets" = some (.atom (.bool true))) := by
  simp only [decodeDanger, bind_some, guard_some] at h
  obtain ⟨_, _, a, ha, b, hb, c, hc, d, hd, e, he, f, hf, h⟩ := h
  cases h
  exact ⟨boolAt_true ha, boolAt_true hb, boolAt_true hc, boolAt_true hd, boolAt_true he, boolAt_true hf⟩

theorem decodeDanger_paths {d : DangerZone} (h : decodeDanger t = some d) {p : List String} {x : Setting} (hs : settings t p = some x) : p ∈ dangerPaths := by
  simp only [decodeDanger, bind_some, guard_some] at h
  obtain ⟨_, hk, v0, h0, v1, h1, v2, h2, v3, h3, v4, h4, v5, h5, h⟩ := h
  rcases known_paths hk hs with rfl | ⟨k, hkm, q, rfl⟩
  · simp [dangerPaths]
  · simp only [List.mem_cons, List.not_mem_nil, or_false] at hkm
    rcases hkm with rfl | rfl | rfl | rfl | rfl | rfl
    · rw [boolAt_plain h0 _ _ hs]; simp [dangerPaths]
    · rw [boolAt_plain h1 _ _ hs]; simp [dangerPaths]
    · rw [boolAt_plain h2 _ _ hs]; simp [dangerPaths]
    · rw [boolAt_plain h3 _ _ hs]; simp [dangerPaths]
    · rw [boolAt_plain h4 _ _ hs]; simp [dangerPaths]
    · rw [boolAt_plain h5 _ _ hs]; simp [dangerPaths]

theorem decodeDevice_paths {d : Device} (h : decodeDevice t = some d) {p : List String} {x : Setting} (hs : settings t p = some x) : p ∈ devicePaths := by
  simp only [decodeDevice, bind_some, guard_some] at h
  obtain ⟨_, hk, v0, h0, v1, h1, v2, h2, v3, h3, v4, h4, v5, h5, h⟩ := h
  rcases known_paths hk hs with rfl | ⟨k, hkm, q, rfl⟩
  · simp [devicePaths]
  · simp only [List.mem_cons, List.not_mem_nil, or_false] at hkm
    rcases hkm with rfl | rfl | rfl | rfl | rfl | rfl
    · rw [reqStr_plain h0 _ _ hs]; simp [devicePaths]
    · rw [strAt_plain h1 _ _ hs]; simp [devicePaths]
    · rw [strAt_plain h2 _ _ hs]; simp [devicePaths]
    · rw [strAt_plain h3 _ _ hs]; simp [devicePaths]
    · rw [strAt_plain h4 _ _ hs]; simp [devicePaths]
    · rw [boolAt_plain h5 _ _ hs]; simp [devicePaths]

theorem decodeTuning_paths {d : Tuning} (h : decodeTuning t = some d) {p : List String} {x : Setting} (hs : settings t p = some x) : p ∈ tuningPaths := by
  simp only [decodeTuning, bind_some, guard_some] at h
  obtain ⟨_, hk, v0, h0, v1, h1, v2, h2, v3, h3, v4, h4, v5, h5, v6, h6, v7, h7, h⟩ := h
  rcases known_paths hk hs with rfl | ⟨k, hkm, q, rfl⟩
  · simp [tuningPaths]
  · simp only [List.mem_cons, List.not_mem_nil, or_false] at hkm
    rcases hkm with rfl | rfl | rfl | rfl | rfl | rfl | rfl | rfl
    · rw [natAt_plain h0 _ _ hs]; simp [tuningPaths]
    · rw [natAt_plain h1 _ _ hs]; simp [tuningPaths]
    · rw [natAt_plain h2 _ _ hs]; simp [tuningPaths]
    · rw [natAt_plain h3 _ _ hs]; simp [tuningPaths]
    · rw [natAt_plain h4 _ _ hs]; simp [tuningPaths]
    · rw [natsAt_plain h5 _ _ hs]; simp [tuningPaths]
    · rw [engineAt_plain h6 _ _ hs]; simp [tuningPaths]
    · rw [boolAt_plain h7 _ _ hs]; simp [tuningPaths]

theorem decodeEncryption_paths {d : String} (h : decodeEncryption t = some d) {p : List String} {x : Setting} (hs : settings t p = some x) :
    p ∈ encryptionPaths := by
  simp only [decodeEncryption, bind_some, guard_some] at h
  obtain ⟨_, hk, h⟩ := h
  rcases known_paths hk hs with rfl | ⟨k, hkm, q, rfl⟩
  · simp [encryptionPaths]
  · rw [List.mem_singleton] at hkm
    subst hkm
    rcases reqRef_isRef h _ _ hs with rfl | rfl <;> simp [encryptionPaths, refPaths]

theorem decodePsk_paths {d : Psk} (h : decodePsk t = some d) {p : List String} {x : Setting} (hs : settings t p = some x) :
    p = [] ∨ p = ["identity"] ∨ p = ["secret"] ∨ p = ["secret", "ref"] := by
  simp only [decodePsk, bind_some, guard_some] at h
  obtain ⟨_, hk, v0, h0, v1, h1, h⟩ := h
  rcases known_paths hk hs with rfl | ⟨k, hkm, q, rfl⟩
  · simp
  · simp only [List.mem_cons, List.not_mem_nil, or_false] at hkm
    rcases hkm with rfl | rfl
    · rw [reqStr_plain h0 _ _ hs]; simp
    · rcases reqRef_isRef h1 _ _ hs with rfl | rfl <;> simp

theorem pskAt_paths {o : Option Psk} (h : pskAt t k = some o) {p : List String} {x : Setting} (hs : settings t (k :: p) = some x) :
    p = [] ∨ p = ["identity"] ∨ p = ["secret"] ∨ p = ["secret", "ref"] := by
  unfold pskAt at h
  split at h
  · rename_i h0; rw [settings_none _ _ _ h0] at hs; cases hs
  · rename_i u hu
    rw [Option.map_eq_some_iff] at h
    obtain ⟨d, hd, _⟩ := h
    rw [settings_sub _ _ _ _ hu] at hs
    exact decodePsk_paths hd hs
  · cases h

theorem decodeRate_paths {d : Rate} (h : decodeRate t = some d) {p : List String} {x : Setting} (hs : settings t p = some x) :
    p = [] ∨ p = ["enabled"] ∨ p = ["min_delay_ms"] ∨ p = ["jitter_ms"] := by
  simp only [decodeRate, bind_some, guard_some] at h
  obtain ⟨_, hk, v0, h0, v1, h1, v2, h2, h⟩ := h
  rcases known_paths hk hs with rfl | ⟨k, hkm, q, rfl⟩
  · simp
  · simp only [List.mem_cons, List.not_mem_nil, or_false] at hkm
    rcases hkm with rfl | rfl | rfl
    · rw [boolAt_plain h0 _ _ hs]; simp
    · rw [natAt_plain h1 _ _ hs]; simp
    · rw [natAt_plain h2 _ _ hs]; simp

theorem rateAt_paths {o : Rate} (h : rateAt t k = some o) {p : List String} {x : Setting} (hs : settings t (k :: p) = some x) :
    p = [] ∨ p = ["enabled"] ∨ p = ["min_delay_ms"] ∨ p = ["jitter_ms"] := by
  unfold rateAt at h
  split at h
  · rename_i h0; rw [settings_none _ _ _ h0] at hs; cases hs
  · rename_i u hu
    rw [settings_sub _ _ _ _ hu] at hs
    exact decodeRate_paths h hs
  · cases h

theorem decodeRemote_paths {d : Remote} (h : decodeRemote t = some d) {p : List String} {x : Setting} (hs : settings t p = some x) : p ∈ remotePaths := by
  simp only [decodeRemote, bind_some, guard_some] at h
  obtain ⟨_, hk, v0, h0, v1, h1, v2, h2, v3, h3, v4, h4, v5, h5, h⟩ := h
  rcases known_paths hk hs with rfl | ⟨k, hkm, q, rfl⟩
  · simp [remotePaths]
  · simp only [List.mem_cons, List.not_mem_nil, or_false] at hkm
    rcases hkm with rfl | rfl | rfl | rfl | rfl | rfl
    · rw [reqStr_plain h0 _ _ hs]; simp [remotePaths]
    · rcases pskAt_paths h1 hs with rfl | rfl | rfl | rfl <;> simp [remotePaths]
    · rw [boolAt_plain h2 _ _ hs]; simp [remotePaths]
    · rw [natAt_plain h3 _ _ hs]; simp [remotePaths]
    · rw [natAt_plain h4 _ _ hs]; simp [remotePaths]
    · rw [natAt_plain h5 _ _ hs]; simp [remotePaths]

theorem decodeFs_paths {d : Storage} (h : decodeFs t = some d) {p : List String} {x : Setting} (hs : settings t p = some x) {s : String} (htag : t.get "storage" = some (.atom (.str s))) : p ∈ fsPaths := by
  simp only [decodeFs, bind_some, guard_some] at h
  obtain ⟨_, hk, v0, h0, v1, h1, v2, h2, h⟩ := h
  rcases known_paths hk hs with rfl | ⟨k, hkm, q, rfl⟩
  · simp [fsPaths]
  · simp only [List.mem_cons, List.not_mem_nil, or_false] at hkm
    rcases hkm with rfl | rfl | rfl | rfl
    · rw [plain_atom htag _ _ hs]; simp [fsPaths]
    · rw [reqStr_plain h0 _ _ hs]; simp [fsPaths]
    · rcases refAt_isRef h1 _ _ hs with rfl | rfl <;> simp [fsPaths]
    · rw [boolAt_plain h2 _ _ hs]; simp [fsPaths]

theorem decodeS3_paths {d : Storage} (h : decodeS3 t = some d) {p : List String} {x : Setting} (hs : settings t p = some x) {s : String} (htag : t.get "storage" = some (.atom (.str s))) : p ∈ s3Paths := by
  simp only [decodeS3, bind_some, guard_some] at h
  obtain ⟨_, hk, v0, h0, v1, h1, v2, h2, v3, h3, v4, h4, v5, h5, v6, h6, v7, h7, v8, h8, v9, h9, v10, h10, v11, h11, v12, h12, v13, h13, h⟩ := h
  rcases known_paths hk hs with rfl | ⟨k, hkm, q, rfl⟩
  · simp [s3Paths]
  · simp only [List.mem_cons, List.not_mem_nil, or_false] at hkm
    rcases hkm with rfl | rfl | rfl | rfl | rfl | rfl | rfl | rfl | rfl | rfl | rfl | rfl | rfl | rfl | rfl
    · rw [plain_atom htag _ _ hs]; simp [s3Paths]
    · rw [reqStr_plain h0 _ _ hs]; simp [s3Paths]
    · rw [strAt_plain h1 _ _ hs]; simp [s3Paths]
    · rw [strAt_plain h2 _ _ hs]; simp [s3Paths]
    · rcases reqRef_isRef h3 _ _ hs with rfl | rfl <;> simp [s3Paths]
    · rcases reqRef_isRef h4 _ _ hs with rfl | rfl <;> simp [s3Paths]
    · rcases refAt_isRef h5 _ _ hs with rfl | rfl <;> simp [s3Paths]
    · rw [strAt_plain h6 _ _ hs]; simp [s3Paths]
    · rw [natAt_plain h7 _ _ hs]; simp [s3Paths]
    · rw [natAt_plain h8 _ _ hs]; simp [s3Paths]
    · rw [natAt_plain h9 _ _ hs]; simp [s3Paths]
    · rw [natAt_plain h10 _ _ hs]; simp [s3Paths]
    · rcases rateAt_paths h11 hs with rfl | rfl | rfl | rfl <;> simp [s3Paths]
    · rcases refAt_isRef h12 _ _ hs with rfl | rfl <;> simp [s3Paths]
    · rw [boolAt_plain h13 _ _ hs]; simp [s3Paths]

theorem decodeRaw_paths {d : StripeSource} (h : decodeRaw t = some d) {p : List String} {x : Setting} (hs : settings t p = some x) : p ∈ rawPaths := by
  simp only [decodeRaw, bind_some, guard_some] at h
  obtain ⟨_, hk, v0, h0, v1, h1, v2, h2, h⟩ := h
  rcases known_paths hk hs with rfl | ⟨k, hkm, q, rfl⟩
  · simp [rawPaths]
  · simp only [List.mem_cons, List.not_mem_nil, or_false] at hkm
    rcases hkm with rfl | rfl | rfl
    · rw [reqStr_plain h0 _ _ hs]; simp [rawPaths]
    · rw [boolAt_plain h1 _ _ hs]; simp [rawPaths]
    · rw [boolAt_plain h2 _ _ hs]; simp [rawPaths]

theorem decodeStorage_paths {d : Storage} (h : decodeStorage t = some d) {p : List String} {x : Setting} (hs : settings t p = some x) :
    storageKey d p := by
  simp only [decodeStorage, bind_some] at h
  obtain ⟨s, h0, h⟩ := h
  have htag := reqStr_some h0
  split at h
  · have := decodeFs_paths h hs htag
    simp only [decodeFs, bind_some, guard_some] at h
    obtain ⟨_, hk, v0, h0, v1, h1, v2, h2, h⟩ := h
    cases h
    exact this
  · split at h
    · have := decodeS3_paths h hs htag
      simp only [decodeS3, bind_some, guard_some] at h
      obtain ⟨_, hk, v0, h0, v1, h1, v2, h2, v3, h3, v4, h4, v5, h5, v6, h6, v7, h7, v8, h8, v9, h9, v10, h10, v11, h11, v12, h12, v13, h13, h⟩ := h
      cases h
      exact this
    · cases h

theorem decodeSource_paths (hw : t.Wf) {d : StripeSource} (h : decodeSource t = some d) {p : List String} {x : Setting} (hs : settings t p = some x) :
    sourceKey d p := by
  simp only [decodeSource, bind_some] at h
  obtain ⟨s, h0, h⟩ := h
  have htag := reqStr_some h0
  by_cases hp : p.head? = some "type"
  · cases p with
    | nil => cases hp
    | cons k q =>
      simp only [List.head?_cons, Option.some.injEq] at hp
      subst hp
      rw [plain_atom htag _ _ hs]; exact Or.inl rfl
  · have hs' : settings (t.remove "type") p = some x := by
      cases p with
      | nil => exact hs
      | cons k q =>
        simp only [List.head?_cons, Option.some.injEq] at hp
        rw [settings_cons, get_remove _ _ hw, if_neg hp, ← settings_cons]; exact hs
    refine Or.inr ?_
    split at h
    · have := decodeRaw_paths h hs'
      simp only [decodeRaw, bind_some, guard_some] at h
      obtain ⟨_, hk, v0, h0, v1, h1, v2, h2, h⟩ := h
      cases h
      exact this
    · split at h
      · rw [Option.map_eq_some_iff] at h
        obtain ⟨st, hst, rfl⟩ := h
        exact decodeStorage_paths hst hs'
      · split at h
        · rw [Option.map_eq_some_iff] at h
          obtain ⟨r, hr, rfl⟩ := h
          exact decodeRemote_paths hr hs'
        · cases h

/-- The source of a secret: one key. -/
theorem decodeSecretSource_some {utf8 : String → Bytes} {s : Source} (h : decodeSecretSource utf8 t = some s) :
    (∃ v, t.keys = ["file"] ∧ t.get "file" = some (.atom (.str v)) ∧ s = .file v.toList) ∨
    (∃ v, t.keys = ["inline"] ∧ t.get "inline" = some (.atom (.str v)) ∧ s = .inline (utf8 v)) ∨
    (∃ v, t.keys = ["env"] ∧ t.get "env" = some (.atom (.str v)) ∧ s = .env v) := by
  unfold decodeSecretSource at h
  split at h
  · rw [Option.map_eq_some_iff] at h
    obtain ⟨v, hv, rfl⟩ := h
    exact Or.inl ⟨v, by assumption, reqStr_some hv, rfl⟩
  · split at h
    · rw [Option.map_eq_some_iff] at h
      obtain ⟨v, hv, rfl⟩ := h
      exact Or.inr (Or.inl ⟨v, by assumption, reqStr_some hv, rfl⟩)
    · split at h
      · rw [Option.map_eq_some_iff] at h
        obtain ⟨v, hv, rfl⟩ := h
        exact Or.inr (Or.inr ⟨v, by assumption, reqStr_some hv, rfl⟩)
      · cases h

theorem one_key {u : Tbl} {j : String} (hk : u.keys = [j]) {k : String} {p : List String} {x : Setting} (hs : settings u (k :: p) = some x) : k = j := by
  have hm : k ∈ u.keys := by
    rw [get_keys]; intro h0; rw [settings_none _ _ _ h0] at hs; cases hs
  rwa [hk, List.mem_singleton] at hm

theorem decodeSecretDef_some {utf8 : String → Bytes} {d : SecretDef} (h : decodeSecretDef utf8 t = some d) :
    known t ["source", "encoding", "encrypted_by"] = true ∧ (∃ u, t.get "source" = some (.table u) ∧ decodeSecretSource utf8 u = some d.source) ∧
      encodingAt t "encoding" = some d.base64 ∧ refAt t "encrypted_by" = some d.encryptedBy := by
  simp only [decodeSecretDef, bind_some, guard_some] at h
  obtain ⟨_, hk, h⟩ := h
  split at h
  · simp only [bind_some] at h
    obtain ⟨v0, h0, v1, h1, v2, h2, h⟩ := h
    cases h
    exact ⟨hk, ⟨_, by assumption, h0⟩, h1, h2⟩
  · cases h

theorem decodeSecretDef_paths {utf8 : String → Bytes} {d : SecretDef} (h : decodeSecretDef utf8 t = some d) {p : List String} {x : Setting}
    (hs : settings t p = some x) : p ∈ secretPaths := by
  obtain ⟨hk, ⟨u, hu, hsrc⟩, h1, h2⟩ := decodeSecretDef_some h
  rcases known_paths hk hs with rfl | ⟨k, hkm, q, rfl⟩
  · simp [secretPaths]
  · simp only [List.mem_cons, List.not_mem_nil, or_false] at hkm
    rcases hkm with rfl | rfl | rfl
    · rw [settings_sub _ _ _ _ hu] at hs
      cases q with
      | nil => simp [secretPaths]
      | cons k q =>
        rcases decodeSecretSource_some hsrc with ⟨v, h1, h2, _⟩ | ⟨v, h1, h2, _⟩ | ⟨v, h1, h2, _⟩
        all_goals
          obtain rfl := one_key h1 hs
          rw [plain_atom h2 _ _ hs]; simp [secretPaths]
    · rw [encodingAt_plain h1 _ _ hs]; simp [secretPaths]
    · rcases refAt_isRef h2 _ _ hs with rfl | rfl <;> simp [secretPaths]

theorem decodeSecrets_keys {utf8 : String → Bytes} {defs : List (String × SecretDef)} (h : decodeSecrets utf8 t = some defs) :
    defs.map Prod.fst = t.keys := by
  induction t generalizing defs with
  | nil => cases h; rfl
  | leaf k a r => cases h
  | sub k u r _ ih =>
    simp only [decodeSecrets] at h
    split at h
    · rename_i d ds h1 h2
      cases h
      rw [List.map_cons, Tbl.keys, ih h2]
    · cases h

theorem decodeSecrets_get {utf8 : String → Bytes} {defs : List (String × SecretDef)} (h : decodeSecrets utf8 t = some defs) {n : String} {v : Val}
    (hg : t.get n = some v) : ∃ u d, v = .table u ∧ decodeSecretDef utf8 u = some d ∧ (n, d) ∈ defs := by
  induction t generalizing defs with
  | nil => cases hg
  | leaf k a r => cases h
  | sub k u r _ ih =>
    simp only [decodeSecrets] at h
    split at h
    · rename_i d ds h1 h2
      cases h
      simp only [Tbl.get] at hg
      split at hg
      · rename_i e; subst e
        cases hg
        exact ⟨u, d, rfl, h1, List.mem_cons_self ..⟩
      · obtain ⟨u', d', g1, g2, g3⟩ := ih h2 hg
        exact ⟨u', d', g1, g2, List.mem_cons_of_mem _ g3⟩
    · cases h

end Verif.Config
