import Verif.Proof.Assemble
import Verif.Props.Load

/-! # C79: a program works with what its configuration names -/

namespace Verif.Assemble
open Verif Verif.Config Verif.Metadata

variable {t : Text} {c : Config} {p : Program} {l : Log} {r : Except Err Parts} {x : Parts}

theorem mem_asked {a : Act} : a ∈ asked l ↔ ∃ y ∈ l, y.1 = a := by
  unfold asked; rw [List.mem_map]

/-! ## What is asked for and what is set up -/

/-- C79: **whatever the outside answers, a program only opens, reads, creates and contacts what its configuration names for
it, the way it says.** -/
theorem C79_asked (h : Run (p.run t c) l r) : ∀ a ∈ asked l, MayAsk t c p a := by
  intro a ha
  obtain ⟨y, hy, rfl⟩ := mem_asked.mp ha
  exact (tri_run (E := fun _ => True) p (fun _ _ => trivial) (Or.inr ⟨trivial, trivial, trivial⟩) (Or.inr trivial) l r h).1 y hy

/-- C79: **the devices, the image, the source and the store of a program that got going are those of the configuration, with
the configured keys and credentials.** -/
theorem C79_configured (h : Run (p.run t c) l (.ok x)) : AsConfigured t c p x :=
  (tri_run (E := fun _ => True) p (fun _ _ => trivial) (Or.inr ⟨trivial, trivial, trivial⟩) (Or.inr trivial) l _ h).2

/-- C79: **no file is opened for writing but the volume's data and metadata files**, and `archive` and `dump-metadata` open
none. -/
theorem C79_writable (h : Run (p.run t c) l r) {f : File} (hf : .openFile f ∈ asked l) (hw : f.readonly = false) :
    Own c f.path ∧ p ≠ .dump ∧ ∀ tc, p ≠ .archive tc := by
  obtain ⟨_, _, h1 | h1⟩ := C79_asked h _ hf
  · refine ⟨h1.1, ?_, ?_⟩
    · rintro rfl
      have := h1.2.1
      rw [hw] at this; cases this
    · rintro tc rfl
      have := h1.2.1
      rw [hw] at this; cases this
  · rw [hw] at h1; cases h1.2.1

/-- C79: **the image of a raw source is never opened for writing**, unless it is one of the volume's own files. -/
theorem C79_image_readonly (h : Run (p.run t c) l r) {f : File} (hf : .openFile f ∈ asked l) (hi : ¬Own c f.path) : f.readonly = true := by
  cases hr : f.readonly with
  | true => rfl
  | false => exact absurd (C79_writable h hf hr).1 hi

/-- C79: **only `init-metadata` writes metadata or creates a file, and only at the metadata path.** -/
theorem C79_created (h : Run (p.run t c) l r) :
    (∀ q, .create q ∈ asked l → (∃ shift, p = .init shift) ∧ c.device.metadataPath = some q) ∧
    (∀ d, .saveMeta d ∈ asked l → (∃ shift, p = .init shift) ∧ c.device.metadataPath = some d.file.path ∧ KeysOf c d.keys) := by
  refine ⟨fun q hq => ?_, fun d hd => ?_⟩
  · obtain ⟨s, h1, h2⟩ := C79_asked h _ hq; exact ⟨⟨s, h1⟩, h2⟩
  · obtain ⟨s, h1, h2⟩ := C79_asked h _ hd; exact ⟨⟨s, h1⟩, h2⟩

/-- C79: **the metadata are read through the same keys as the data: those of the configuration.** -/
theorem C79_keyed (h : Run (p.run t c) l r) {d : Dev} (hd : .loadMeta d ∈ asked l ∨ .saveMeta d ∈ asked l) :
    c.device.metadataPath = some d.file.path ∧ KeysOf c d.keys := by
  rcases hd with hd | hd
  · exact C79_asked h _ hd
  · exact ((C79_created h).2 d hd).2

/-- C79: **a pre-shared key goes to the configured address only, with the configured identity; the secrets of a bucket go
only to the client of that bucket.** -/
theorem C79_credentials (h : Run (p.run t c) l r) :
    (∀ d, .dial d ∈ asked l → ∃ rm, c.source = some (.remote rm) ∧ DialOf c.secrets rm d) ∧
    (∀ s, .startClient s ∈ asked l → (∃ st, c.source = some (.archive st) ∧ StoreOf t c.secrets st s) ∨
      ∃ tc, p = .archive tc ∧ StoreOf t tc.secrets tc.target s) :=
  ⟨fun d hd => C79_asked h _ hd, fun s hs => C79_asked h _ hs⟩

/-- C79: **a backend that starts is complete**: it has its data device; with a metadata path also its metadata and a source;
guests read the image directly exactly if `copy_on_read` is off; fetching unasked and recording of writes are as configured. -/
theorem C79_backend (h : Run (backend t c) l (.ok x)) :
    x.disk.isSome = true ∧ x.md.isSome = c.device.metadataPath.isSome ∧ x.source.isSome = c.device.metadataPath.isSome ∧
    (c.device.metadataPath.isSome = true →
      (x.image.isSome = true ↔ ∃ q a, c.source = some (.raw q a false)) ∧
      (x.autofetch = true ↔ Unasked c) ∧ x.trackWritten = c.device.trackWritten) ∧
    4096 ≤ x.alignment ∧ x.trackers = (c.tuning.numQueues, c.tuning.queueSize) := by
  obtain ⟨h1, h2, h3, h4, h5, h6, h7, h8, h9, _⟩ :=
    (tri_backend (t := t) (c := c) (E := fun _ => True) (fun _ _ => trivial) (Or.inr ⟨trivial, trivial, trivial⟩) l _ h).2
  refine ⟨h2, h3, h4, fun hm => ⟨⟨fun hi => ?_, fun ⟨q, a, hq⟩ => h5 q a hm hq⟩, (by rw [h6 hm]; exact unasked_iff c), h7 hm⟩, h8, h9⟩
  obtain ⟨d, hd⟩ := Option.isSome_iff_exists.mp hi
  obtain ⟨q, a, hq, _⟩ := h1.image d hd
  exact ⟨q, a, hq⟩

/-- C79: **a backend that starts has room for all of its source.** -/
theorem C79_fits (h : Run (backend t c) l (.ok x)) {d : Dev} {s : Src} (hd : x.disk = some d) (hs : x.source = some s) : s.sectors ≤ d.sectors :=
  (tri_backend (t := t) (c := c) (E := fun _ => True) (fun _ _ => trivial) (Or.inr ⟨trivial, trivial, trivial⟩) l _ h).2.fits d s hd hs

/-- C79: **`archive` starts its work only with the volume, its metadata, a source and the target.** -/
theorem C79_archive {tc : TargetConfig} (h : Run (archive t c tc) l (.ok x)) :
    x.disk.isSome = true ∧ x.md.isSome = true ∧ x.source.isSome = true ∧ x.target.isSome = true :=
  (tri_archive (t := t) (c := c) tc (E := fun _ => True) (fun _ _ => trivial) (Or.inr ⟨trivial, trivial, trivial⟩) (Or.inr trivial) l _ h).2.2

/-- C79: **a stripe server that starts without a configured source serves a volume with nothing left to fetch.** -/
theorem C79_server (h : Run (serve c) l (.ok x)) (hs : c.source = none) {d : Dev} {m : Meta} (hm : x.md = some (d, m)) : AllThere m :=
  (tri_serve (t := ⟨fun _ => none, fun _ => []⟩) (c := c) (E := fun _ => True) (fun _ _ => trivial) (Or.inr ⟨trivial, trivial, trivial⟩) l _ h).2.2.2.2 d m hm hs

theorem device_no_source {path : List Char} {ro : Bool} (h : Run (buildBlockDevice c path ro) l (.error .noSource)) : False := by
  rcases run_bind.mp h with ⟨l₁, l₂, n, rfl, _, h2⟩ | ⟨e, h1, he⟩
  · rcases run_bind.mp h2 with ⟨l₃, l₄, k, rfl, _, h4⟩ | ⟨e, h3, he⟩
    · obtain ⟨_, h5⟩ := run_pure.mp h4
      cases h5
    · cases he
      unfold xtsKeys at h3
      split at h3
      · obtain ⟨_, h5⟩ := run_pure.mp h3
        cases h5
      · rcases run_bind.mp h3 with ⟨l₃, l₄, k, rfl, _, h4⟩ | ⟨e, h4, he⟩
        · split at h4
          · obtain ⟨_, h5⟩ := run_fail.mp h4
            cases h5
          · split at h4
            · obtain ⟨_, h5⟩ := run_pure.mp h4
              cases h5
            · obtain ⟨_, h5⟩ := run_fail.mp h4
              cases h5
        · cases he
          unfold secret at h4
          split at h4
          · obtain ⟨_, h5⟩ := run_pure.mp h4
            cases h5
          · obtain ⟨_, h5⟩ := run_fail.mp h4
            cases h5
  · cases he
    rcases run_ask.mp h1 with ⟨x, _, h3⟩ | ⟨_, h3⟩ <;> cases h3

/-- C79: **the server refuses a volume for want of a source only if none is configured and stripes are left to fetch.** -/
theorem C79_server_refuses (h : Run (serve c) l (.error .noSource)) :
    c.source = none ∧ ∃ d m, (⟨.loadMeta d, some m⟩ : (a : Act) × Option a.Ans) ∈ l ∧ ¬AllThere m := by
  rcases run_bind.mp h with ⟨l₁, l₂, d, rfl, _, h3⟩ | ⟨e, h1, he⟩
  rotate_left
  · cases he; exact (device_no_source h1).elim
  cases hp : c.device.metadataPath with
  | none =>
    rw [hp] at h3
    obtain ⟨_, h5⟩ := run_pure.mp h3
    cases h5
  | some q =>
    rw [hp] at h3
    rcases run_bind.mp h3 with ⟨l₃, l₄, md, rfl, _, h4⟩ | ⟨e, h1, he⟩
    rotate_left
    · cases he; exact (device_no_source h1).elim
    rcases run_bind.mp h4 with ⟨l₅, l₆, m, rfl, h5, h6⟩ | ⟨e, h1, he⟩
    rotate_left
    · cases he
      rcases run_ask.mp h1 with ⟨x, _, h3⟩ | ⟨_, h3⟩ <;> cases h3
    rcases run_ask.mp h5 with ⟨x, rfl, h7⟩ | ⟨_, h7⟩
    rotate_left
    · cases h7
    cases h7
    split at h6
    · rename_i hc
      simp only [Bool.and_eq_true, Bool.not_eq_true', Option.isNone_iff_eq_none] at hc
      refine ⟨hc.2, md, m, by simp, fun ha => ?_⟩
      rw [← allThere_iff, hc.1] at ha
      cases ha
    · obtain ⟨_, h5⟩ := run_pure.mp h6
      cases h5

/-- C79: **a stripe server that starts has its data device, the configured metadata, and goes by the recording of writes as
configured.** -/
theorem C79_server_complete (h : Run (serve c) l (.ok x)) :
    x.disk.isSome = true ∧ x.md.isSome = c.device.metadataPath.isSome ∧
    (c.device.metadataPath.isSome = true → x.trackWritten = c.device.trackWritten) := by
  obtain ⟨_, h1, h2, _⟩ := (tri_serve (t := ⟨fun _ => none, fun _ => []⟩) (c := c) (E := fun _ => True) (fun _ _ => trivial)
    (Or.inr ⟨trivial, trivial, trivial⟩) l _ h).2
  refine ⟨h1, h2, fun hm => ?_⟩
  rcases run_bind.mp h with ⟨l₁, l₂, d, rfl, _, h3⟩ | ⟨e, _, he⟩
  rotate_left
  · cases he
  cases hp : c.device.metadataPath with
  | none => rw [hp] at hm; cases hm
  | some q =>
    rw [hp] at h3
    rcases run_bind.mp h3 with ⟨l₃, l₄, md, rfl, _, h4⟩ | ⟨e, _, he⟩
    rotate_left
    · cases he
    rcases run_bind.mp h4 with ⟨l₅, l₆, m, rfl, _, h5⟩ | ⟨e, _, he⟩
    rotate_left
    · cases he
    split at h5
    · obtain ⟨_, he⟩ := run_fail.mp h5; cases he
    · obtain ⟨_, he⟩ := run_pure.mp h5; cases he; rfl

/-- C79: **a pre-shared key of at least 16 bytes with an identity is never refused**: if the connection fails, it is the dial that
failed. -/
theorem C79_psk_accepted {secrets : List (String × Bytes)} {rm : Remote} {e : Err}
    (hs : ∀ k, rm.psk = some k → t.bytes k.identity ≠ [] ∧ ∃ b, secrets.lookup k.secret = some b ∧ 16 ≤ b.length)
    (h : Run (connect t secrets rm) l (.error e)) : ∃ d, DialOf secrets rm d ∧ l = [⟨.dial d, none⟩] ∧ e = .outside (.dial d) := by
  have hp : ∃ k, dialPsk t secrets rm.psk = pure k ∧ (∀ p, rm.psk = some p → ∃ b, secrets.lookup p.secret = some b ∧ 16 ≤ b.length ∧ k = some (p.identity, b)) ∧
      (rm.psk = none → k = none) := by
    cases hk : rm.psk with
    | none => exact ⟨none, rfl, fun p h => (by cases h), fun _ => rfl⟩
    | some k =>
      obtain ⟨h1, b, hb, hl⟩ := hs k hk
      refine ⟨some (k.identity, b), ?_, ?_, fun h => (by cases h)⟩
      · simp only [dialPsk, secret, hb]
        show (if ((t.bytes k.identity).isEmpty || decide (b.length < 16)) = true then (fail (.credentials k) : Prog (Option (String × Bytes)))
          else pure (some (k.identity, b))) = _
        have : ¬b.length < 16 := by omega
        simp [h1, this]
      · intro p hp'; cases hp'; exact ⟨b, hb, hl, rfl⟩
  obtain ⟨k, hk, hk1, hk2⟩ := hp
  unfold connect at h
  rw [hk] at h
  rcases run_bind.mp h with ⟨l₁, l₂, k', rfl, h1, h2⟩ | ⟨e', h1, _⟩
  rotate_left
  · obtain ⟨_, he⟩ := run_pure.mp h1; cases he
  obtain ⟨rfl, he⟩ := run_pure.mp h1
  cases he
  rcases run_bind.mp h2 with ⟨l₁, l₂', m, rfl, h3, h4⟩ | ⟨e', h3, he⟩
  · obtain ⟨_, he⟩ := run_pure.mp h4; cases he
  cases he
  rcases run_ask.mp h3 with ⟨y, _, hy⟩ | ⟨hl, he⟩
  · cases hy
  cases he
  exact ⟨_, ⟨rfl, hk1, hk2, rfl, rfl⟩, by simp [hl], rfl⟩

/-- C79: **the export reads the configured archive with its configured key and creates only its target.** -/
theorem C79_export {ec : ExportConfig} {target : List Char} (h : Run (exportArchive t ec target) l r) :
    (∀ q, .create q ∈ asked l → q = target) ∧ (∀ f, .openFile f ∉ asked l) ∧
    (∀ s k, .readArchive s k ∈ asked l → StoreOf t ec.secrets ec.archive s ∧ KekOf ec.secrets (kekName ec.archive) k) ∧
    ∀ x, r = .ok x → ∃ s k n, x.source = some (.archive s k n) ∧ StoreOf t ec.secrets ec.archive s ∧ KekOf ec.secrets (kekName ec.archive) k := by
  let P : Act → Prop := fun a => match a with
    | .create q => q = target
    | .openFile _ => False
    | .readArchive s k => StoreOf t ec.secrets ec.archive s ∧ KekOf ec.secrets (kekName ec.archive) k
    | _ => True
  have key : Tri P (fun x : Parts => ∃ s k n, x.source = some (.archive s k n) ∧ StoreOf t ec.secrets ec.archive s ∧ KekOf ec.secrets (kekName ec.archive) k)
      (fun _ => True) (exportArchive t ec target) := by
    refine tri_bind (tri_store (fun _ _ _ _ => trivial) (fun _ _ => trivial) (fun _ => trivial) trivial (Or.inr trivial)) fun s hs => ?_
    refine tri_bind (tri_kek (Or.inr trivial)) fun k hk => ?_
    refine tri_bind (tri_ask (show P (.readArchive s k) from ⟨hs, hk⟩) trivial) fun n _ => ?_
    refine tri_bind (tri_ask (show P (.create target) from rfl) trivial) fun _ _ => ?_
    exact tri_pure ⟨s, k, n, rfl, hs, hk⟩
  obtain ⟨h1, h2⟩ := key l r h
  have h1' : ∀ a ∈ asked l, P a := fun a ha => by obtain ⟨y, hy, rfl⟩ := mem_asked.mp ha; exact h1 y hy
  refine ⟨fun q hq => h1' _ hq, fun f hf => h1' _ hf, fun s k hk => h1' _ hk, ?_⟩
  rintro x rfl
  exact h2

/-! ## Secrets -/

theorem optOk {secrets : List (String × Bytes)} {o : Option String} {q : Bytes → Bool} (h : optSecretOk secrets o q = true) :
    ∀ n, o = some n → ∃ b, secrets.lookup n = some b := by
  rintro n rfl
  obtain ⟨b, hb, _⟩ := secretOk_iff.mp h
  exact ⟨b, hb⟩

theorem storeSecrets {st : Storage} {secrets : List (String × Bytes)} (h : st.validate secrets = true) : StoreSecrets st secrets := by
  cases st with
  | filesystem p k a => exact ⟨optOk h, trivial⟩
  | s3 s =>
    simp only [Storage.validate, Bool.and_eq_true] at h
    obtain ⟨⟨⟨⟨⟨⟨⟨⟨⟨h1, h2⟩, h3⟩, h4⟩, _⟩, _⟩, _⟩, _⟩, _⟩, _⟩ := h
    obtain ⟨b, hb, _⟩ := secretOk_iff.mp h2
    obtain ⟨b', hb', _⟩ := secretOk_iff.mp h3
    exact ⟨optOk h1, ⟨b, hb⟩, ⟨b', hb'⟩, optOk h4⟩

theorem ready {e : Env} {root : Tbl} (h : Config.load e root = .ok c) : EncOk c ∧ SourceSecrets c := by
  obtain ⟨m, _, hl⟩ := load_ok h
  refine ⟨?_, ?_⟩
  · intro n hn
    have := hl.encryptionOk
    unfold checkEncryption at this
    rw [hn] at this
    simp only at this
    split at this
    · rename_i hs
      obtain ⟨b, hb, h64⟩ := secretOk_iff.mp hs
      exact ⟨b, hb, by simpa using h64⟩
    · cases this
  · unfold SourceSecrets
    rcases hl.source with ⟨h0, _⟩ | ⟨_, s, h0, _, _, hv⟩
    · rw [h0]; trivial
    · rw [h0]
      generalize s.resolve e.dir = s' at hv
      cases s' with
      | raw _ _ _ => trivial
      | archive st => exact storeSecrets hv
      | remote rm =>
        simp only [StripeSource.validate, Remote.validate, Bool.and_eq_true] at hv
        intro p hp
        exact optOk hv.1.1.1.2 p.secret (by rw [hp]; rfl)

/-- C79: **with a configuration that was accepted no program gives up for lack of a secret, for a key of the wrong length, or
by a panic.** -/
theorem C79_secrets {e : Env} {root : Tbl} (hc : Config.load e root = .ok c)
    (hp : ∀ tc, p = .archive tc → ∃ e' root', TargetConfig.load e' root' = .ok tc) {err : Err} (h : Run (p.run t c) l (.error err)) :
    err ≠ .missingSecret ∧ err ≠ .badKey ∧ err ≠ .panic := by
  have := (tri_run (t := t) (c := c) (E := Fine) p (fun _ h => h) (Or.inl (ready hc)) (Or.inl ?_) l _ h).2
  · refine ⟨?_, ?_, ?_⟩ <;> rintro rfl <;> exact this
  · rintro tc rfl
    obtain ⟨e', root', ht⟩ := hp tc rfl
    obtain ⟨_, _, _, _, _, _, _, hv⟩ := target_ok ht
    exact storeSecrets hv

/-! ## A volume with nothing left to fetch -/

theorem against_ok {α β : Type} {o : Outside} {p : Prog α} {f : α → Prog β} {a : α} (h : (against o p).2 = .ok a) :
    (against o (p >>= f)).2 = (against o (f a)).2 := by
  rw [against_bind, h]

theorem ask_ok {o : Outside} {a : Act} {y : a.Ans} (h : o a = some y) : (against o (ask a)).2 = .ok y := by
  rw [against_ask, h]

theorem device_ok {o : Outside} {path : List Char} {ro : Bool} {n : Nat} (hE : EncOk c) (h : o (.openFile (volFile c path ro)) = some n) :
    ∃ k, (against o (buildBlockDevice c path ro)).2 = .ok ⟨volFile c path ro, k, n⟩ := by
  have hk : ∃ k, (against o (xtsKeys c)).2 = .ok k := by
    have := tri_xtsKeys (P := fun _ => True) (E := fun _ => False) (c := c) (Or.inl hE) _ _ (against_run o (xtsKeys c))
    cases hr : (against o (xtsKeys c)).2 with
    | ok k => exact ⟨k, rfl⟩
    | error e => rw [hr] at this; exact this.2.elim
  obtain ⟨k, hk⟩ := hk
  refine ⟨k, ?_⟩
  show (against o (ask (.openFile (volFile c path ro)) >>= _)).2 = _
  rw [against_ok (ask_ok h)]
  show (against o (xtsKeys c >>= _)).2 = _
  rw [against_ok hk]
  rfl

/-- C79: **a backend whose stripes have all been fetched asks for nothing of its source**: no store, no server, and the
image only if `copy_on_read` is off. -/
theorem C79_fetched_asks (h : Run (backend t c) l r) (hm : ∀ d m, ⟨.loadMeta d, some m⟩ ∈ l → AllThere m) :
    ∀ a ∈ asked l, a = .statfs c.device.dataPath ∨ (∃ d, a = .loadMeta d) ∨ (∃ f, a = .openFile f ∧ Own c f.path) ∨
      ∃ f b, a = .openFile f ∧ c.source = some (.raw f.path b false) := by
  let P : Act → Prop := fun a => a = .statfs c.device.dataPath ∨ (∃ d, a = .loadMeta d) ∨ (∃ f, a = .openFile f ∧ Own c f.path) ∨
      ∃ f b, a = .openFile f ∧ c.source = some (.raw f.path b false)
  suffices H : ∀ y ∈ l, P y.1 by
    intro a ha
    obtain ⟨y, hy, rfl⟩ := mem_asked.mp ha
    exact H y hy
  have own : ∀ {path ro}, Own c path → Tri P (fun _ => True) (fun _ => True) (buildBlockDevice c path ro) := fun ho =>
    tri_mono (tri_device (E := fun _ => True) (Or.inr (Or.inr (Or.inl ⟨_, rfl, ho⟩))) (fun _ => trivial) (Or.inr ⟨trivial, trivial, trivial⟩))
      (fun _ h => h) (fun _ _ => trivial) (fun _ h => h)
  have app : ∀ {l₁ l₂ : Log}, (∀ y ∈ l₁, P y.1) → (∀ y ∈ l₂, P y.1) → ∀ y ∈ l₁ ++ l₂, P y.1 := fun h1 h2 y hy => by
    rcases List.mem_append.mp hy with h | h
    · exact h1 y h
    · exact h2 y h
  rcases run_bind.mp h with ⟨l₁, l₂, bs, rfl, h1, h2⟩ | ⟨e, h1, rfl⟩
  rotate_left
  · exact (tri_ask (E := fun _ => True) (Or.inl rfl) trivial _ _ h1).1
  refine app (tri_ask (P := P) (E := fun _ => True) (Or.inl rfl) trivial _ _ h1).1 ?_
  rcases run_bind.mp h2 with ⟨l₁', l₂, disk, rfl, h3, h4⟩ | ⟨e, h3, rfl⟩
  rotate_left
  · exact (own (Or.inl rfl) _ _ h3).1
  refine app (own (Or.inl rfl) _ _ h3).1 ?_
  clear h h1 h2 h3
  dsimp only at h4
  cases hp : c.device.metadataPath with
  | none => rw [hp] at h4; obtain ⟨rfl, _⟩ := run_pure.mp h4; exact fun _ hy => absurd hy List.not_mem_nil
  | some q =>
    rw [hp] at h4
    rcases run_bind.mp h4 with ⟨l₃, l₄, md, rfl, h5, h6⟩ | ⟨e, h5, rfl⟩
    rotate_left
    · exact (own (Or.inr hp) _ _ h5).1
    refine app (own (Or.inr hp) _ _ h5).1 ?_
    rcases run_bind.mp h6 with ⟨l₅, l₆, m, rfl, h7, h8⟩ | ⟨e, h7, rfl⟩
    rotate_left
    · exact (tri_ask (E := fun _ => True) (Or.inr (Or.inl ⟨_, rfl⟩)) trivial _ _ h7).1
    refine app (tri_ask (P := P) (E := fun _ => True) (Or.inr (Or.inl ⟨_, rfl⟩)) trivial _ _ h7).1 ?_
    have hfull : hasFetchedAll m = true := by
      refine (allThere_iff m).mpr (hm md m ?_)
      rcases run_ask.mp h7 with ⟨y, rfl, hy⟩ | ⟨_, hy⟩
      · cases hy; simp
      · cases hy
    have rest : Tri P (fun _ => True) (fun _ => True) (lazyImage c) := by
      unfold lazyImage
      cases hs : c.source with
      | none => exact tri_pure trivial
      | some s =>
        dsimp only
        cases s with
        | archive st => exact tri_pure trivial
        | remote r => exact tri_pure trivial
        | raw q a b =>
          cases b with
          | true => exact tri_pure trivial
          | false =>
            refine tri_mono (tri_rawImage (P := P) (E := fun _ => True) ?_ (fun _ => trivial)) (fun _ h => h) (fun _ _ => trivial) (fun _ h => h)
            intro p' a' b' hs'
            rw [hs] at hs'
            cases hs'
            exact Or.inr (Or.inr (Or.inr ⟨_, a, rfl, hs⟩))
    refine (tri_bind rest (R := fun _ => True) (fun img _ => ?_) _ _ h8).1
    rw [hfull]
    refine tri_bind (Q := fun _ => True) (tri_pure trivial) fun src _ => ?_
    refine tri_bind (tri_ask (P := P) (E := fun _ => True) (Or.inr (Or.inl ⟨_, rfl⟩)) trivial) fun m' _ => ?_
    split
    · exact tri_fail trivial
    · split
      · exact tri_fail trivial
      · exact tri_pure trivial

/-- The volume itself is in order: its files open, its metadata are there. -/
structure Sound (o : Outside) (c : Config) (m : Meta) : Prop where
  block : ∃ n, o (.statfs c.device.dataPath) = some n
  opens : ∀ f, Own c f.path → ∃ n, o (.openFile f) = some n
  load : ∀ d, c.device.metadataPath = some d.file.path → o (.loadMeta d) = some m

theorem backend_fetched {o : Outside} {e : Env} {root : Tbl} {m : Meta} (hc : Config.load e root = .ok c) (ho : Sound o c m) (hf : AllThere m) :
    (∀ img, (against o (lazyImage c)).2 = .ok img → ∃ x, (against o (backend t c)).2 = .ok x) ∧
    (c.device.metadataPath.isSome = true → ∀ er, (against o (lazyImage c)).2 = .error er → (against o (backend t c)).2 = .error er) := by
  obtain ⟨hE, _⟩ := ready hc
  obtain ⟨bs, hbs⟩ := ho.block
  obtain ⟨n, hn⟩ := ho.opens (volFile c c.device.dataPath false) (Or.inl rfl)
  obtain ⟨k, hk⟩ := device_ok hE hn
  have key : ∀ rest : Nat → Dev → Prog Parts, (against o (ask (.statfs c.device.dataPath) >>= fun b => buildBlockDevice c c.device.dataPath false >>= fun d => rest b d)).2 =
      (against o (rest bs ⟨volFile c c.device.dataPath false, k, n⟩)).2 := by
    intro rest
    rw [against_ok (ask_ok hbs), against_ok hk]
  unfold backend
  rw [key]
  dsimp only
  cases hp : c.device.metadataPath with
  | none => exact ⟨fun _ _ => ⟨_, rfl⟩, fun h => by cases h⟩
  | some q =>
    obtain ⟨n', hn'⟩ := ho.opens (volFile c q false) (Or.inr hp)
    obtain ⟨k', hk'⟩ := device_ok hE hn'
    have hl : o (.loadMeta ⟨volFile c q false, k', n'⟩) = some m := ho.load _ hp
    dsimp only
    rw [against_ok hk', against_ok (ask_ok hl)]
    have hall : hasFetchedAll m = true := (allThere_iff m).mpr hf
    refine ⟨fun img hi => ?_, fun _ er he => ?_⟩
    · rw [against_ok hi, hall]
      have hb : (against o (buildSource t c (stripeSectorCount m) true)).2 = .ok .nothing := rfl
      rw [against_ok hb, against_ok (ask_ok hl)]
      have h0 : ¬divCeil (Src.nothing).sectors (stripeSectorCount m) > m.headers.length := by
        have : divCeil (Src.nothing).sectors (stripeSectorCount m) = 0 := by
          show (0 + stripeSectorCount m - 1) / stripeSectorCount m = 0
          have : 0 < stripeSectorCount m := Nat.two_pow_pos _
          exact Nat.div_eq_of_lt (by omega)
        rw [this]
        exact Nat.not_lt_zero _
      rw [if_neg h0, if_neg (show ¬n < (Src.nothing).sectors from Nat.not_lt_zero _)]
      exact ⟨_, rfl⟩
    · rw [against_bind, he]

/-- C79: **a backend whose stripes have all been fetched starts whatever has become of its source** — the store, the server
and, with `copy_on_read`, the image. Everything else `o` answers is arbitrary. Missing from the full statement: raw sources with `copy_on_read` off,
for which it is false (`C79_image_needed`). -/
theorem C79_fetched_starts_partial {o : Outside} {e : Env} {root : Tbl} {m : Meta} (hc : Config.load e root = .ok c) (ho : Sound o c m) (hf : AllThere m)
    (hr : ∀ q a, c.source ≠ some (.raw q a false)) : ∃ x, (against o (backend t c)).2 = .ok x := by
  refine (backend_fetched hc ho hf).1 none ?_
  unfold lazyImage
  cases hs : c.source with
  | none => rfl
  | some s =>
    cases s with
    | archive st => rfl
    | remote r => rfl
    | raw q a b =>
      cases b with
      | true => rfl
      | false => exact absurd hs (hr q a)

/-- C79: not so with `copy_on_read` off: **a raw image that is gone keeps the backend from starting although every stripe has
been fetched.** -/
theorem C79_image_needed {o : Outside} {e : Env} {root : Tbl} {m : Meta} (hc : Config.load e root = .ok c) (ho : Sound o c m) (hf : AllThere m)
    (hp : c.device.metadataPath.isSome = true) {q : List Char} {a : Bool} (hr : c.source = some (.raw q a false))
    (hgone : ∀ f, f.path = q → o (.openFile f) = none) : ∃ f, f.path = q ∧ (against o (backend t c)).2 = .error (.outside (.openFile f)) := by
  refine ⟨⟨q, true, true, c.tuning.sync, c.tuning.writeThrough, 64⟩, rfl, (backend_fetched hc ho hf).2 hp _ ?_⟩
  have himg : imagePath c = some q := by unfold imagePath; rw [hr]
  have : lazyImage c = buildRawImage c := by unfold lazyImage; rw [hr]; rfl
  rw [this]
  unfold buildRawImage
  rw [himg]
  show (against o (ask _ >>= _)).2 = _
  rw [against_bind, against_ask, hgone _ rfl]

/-! ## Connections -/

theorem run_connect {secrets : List (String × Bytes)} {rm : Remote} {d : Dial × Meta} (h : Run (connect t secrets rm) l (.ok d)) :
    l = [⟨.dial d.1, some d.2⟩] := by
  rcases run_bind.mp h with ⟨l₁, l₂, psk, rfl, h1, h2⟩ | ⟨e, _, he⟩
  rotate_left
  · cases he
  have hl₁ : l₁ = [] := by
    have : Tri (fun _ => False) (fun _ => True) (fun _ => True) (dialPsk t secrets rm.psk) := by
      unfold dialPsk
      split
      · exact tri_pure trivial
      · refine tri_bind (Q := fun _ => True) ?_ fun b _ => ?_
        · unfold secret; split
          · exact tri_pure trivial
          · exact tri_fail trivial
        · split
          · exact tri_fail trivial
          · exact tri_pure trivial
    cases l₁ with
    | nil => rfl
    | cons y ys => exact ((this _ _ h1).1 y List.mem_cons_self).elim
  subst hl₁
  rcases run_bind.mp h2 with ⟨l₁, l₂', m, rfl, h3, h4⟩ | ⟨e, _, he⟩
  rotate_left
  · cases he
  rcases run_ask.mp h3 with ⟨y, rfl, hy⟩ | ⟨_, he⟩
  rotate_left
  · cases he
  cases hy
  obtain ⟨rfl, hd⟩ := run_pure.mp h4
  cases hd
  rfl

theorem run_connectAll {secrets : List (String × Bytes)} {rm : Remote} : ∀ {n : Nat} {l : Log} {ds : List (Dial × Meta)},
    Run (connectAll t secrets rm n) l (.ok ds) → l = ds.map fun d => ⟨.dial d.1, some d.2⟩ := by
  intro n
  induction n with
  | zero => intro l ds h; obtain ⟨rfl, hd⟩ := run_pure.mp h; cases hd; rfl
  | succ n ih =>
    intro l ds h
    rcases run_bind.mp h with ⟨l₁, l₂, d, rfl, h1, h2⟩ | ⟨e, _, he⟩
    rotate_left
    · cases he
    rcases run_bind.mp h2 with ⟨l₃, l₄, ds', rfl, h3, h4⟩ | ⟨e, _, he⟩
    rotate_left
    · cases he
    obtain ⟨rfl, hd⟩ := run_pure.mp h4
    cases hd
    rw [run_connect h1, ih h3]
    simp

/-- C79: **a session with a remote source makes exactly `connections` connections, and asks for nothing else.** -/
theorem C79_dials {m : Meta} {rm : Remote} (h : Run (session t c m) l (.ok x)) (hs : c.source = some (.remote rm)) (hf : ¬AllThere m) :
    ∃ dials n, x.source = some (.server dials n) ∧ dials.length = rm.connections ∧ asked l = dials.map .dial := by
  have hfm : hasFetchedAll m = false := by
    cases hfm : hasFetchedAll m with
    | false => rfl
    | true => exact absurd ((allThere_iff m).mp hfm) hf
  have hcfg := C79_configured (p := .session m) h
  rcases run_bind.mp h with ⟨l₁, l₂, src, rfl, h1, h2⟩ | ⟨e, _, he⟩
  rotate_left
  · cases he
  obtain ⟨rfl, hx⟩ := run_pure.mp h2
  cases hx
  rw [hfm] at h1
  unfold buildSource at h1
  rw [hs] at h1
  simp only [Bool.false_eq_true, ↓reduceIte] at h1
  rcases run_bind.mp h1 with ⟨l₃, l₄, ds, rfl, h3, h4⟩ | ⟨e, _, he⟩
  rotate_left
  · cases he
  split at h4
  rotate_left
  · obtain ⟨_, he⟩ := run_fail.mp h4; cases he
  rename_i n _ _
  obtain ⟨rfl, hx⟩ := run_pure.mp h4
  cases hx
  refine ⟨_, n, rfl, ?_, ?_⟩
  · have := hcfg.source _ (fun m' hm' => by cases hm'; exact hf) rfl
    cases this with
    | server r' _ _ hs' hlen _ => rw [hs] at hs'; cases hs'; exact hlen
  · rw [run_connectAll h3]
    simp [asked]

theorem run_source_stripes {rm : Remote} {ssc : Nat} {s : Src} (h : Run (buildSource t c ssc false) l (.ok s)) (hs : c.source = some (.remote rm)) :
    ∃ d m, ⟨.dial d, some m⟩ ∈ l ∧ stripeSectorCount m = ssc := by
  unfold buildSource at h
  rw [hs] at h
  simp only [Bool.false_eq_true, ↓reduceIte] at h
  rcases run_bind.mp h with ⟨l₃, l₄, ds, rfl, h3, h4⟩ | ⟨e, _, he⟩
  rotate_left
  · cases he
  rw [run_connectAll h3]
  cases ds with
  | nil => obtain ⟨_, he⟩ := run_fail.mp h4; cases he
  | cons d ds =>
    refine ⟨d.1, d.2, by simp, ?_⟩
    by_cases hne : stripeSectorCount d.2 = ssc
    · exact hne
    · simp only [List.map_cons, Remote.newSource, ne_eq, hne, not_false_eq_true, ↓reduceIte] at h4
      obtain ⟨_, he⟩ := run_fail.mp h4; cases he

/-- C79: **`init-metadata` goes on only with a server whose stripes have the size asked for**, and a backend with stripes left to
fetch only with one whose stripes have the volume's. -/
theorem C79_server_stripes {rm : Remote} (hs : c.source = some (.remote rm)) :
    (∀ shift, Run (initMetadata t c shift) l (.ok x) → ∃ d m, ⟨.dial d, some m⟩ ∈ l ∧ stripeSectorCount m = 2 ^ shift.toNat) ∧
    (∀ dv md, Run (backend t c) l (.ok x) → x.md = some (dv, md) → ¬AllThere md →
      ∃ d m, ⟨.dial d, some m⟩ ∈ l ∧ stripeSectorCount m = stripeSectorCount md) := by
  refine ⟨fun shift h => ?_, fun dv md h hx hf => ?_⟩
  · unfold initMetadata at h
    cases hp : c.device.metadataPath with
    | none => rw [hp] at h; obtain ⟨_, he⟩ := run_fail.mp h; cases he
    | some q =>
      rw [hp] at h
      rcases run_bind.mp h with ⟨l₁, l₂, d, rfl, _, h3⟩ | ⟨e, _, he⟩
      rotate_left
      · cases he
      rcases run_bind.mp h3 with ⟨l₃, l₄, src, rfl, h4, _⟩ | ⟨e, _, he⟩
      rotate_left
      · cases he
      unfold initSource at h4
      rw [hs] at h4
      simp only [Option.isNone_some, Bool.false_eq_true, ↓reduceIte] at h4
      rcases run_bind.mp h4 with ⟨l₅, l₆, src', rfl, h5, _⟩ | ⟨e, _, he⟩
      rotate_left
      · cases he
      obtain ⟨d, m, hm, hh⟩ := run_source_stripes h5 hs
      exact ⟨d, m, by simp [hm], hh⟩
  · have hfm : hasFetchedAll md = false := by
      cases hfm : hasFetchedAll md with
      | false => rfl
      | true => exact absurd ((allThere_iff md).mp hfm) hf
    unfold backend at h
    rcases run_bind.mp h with ⟨l₁, l₂, b, rfl, _, h2⟩ | ⟨e, _, he⟩
    rotate_left
    · cases he
    rcases run_bind.mp h2 with ⟨l₃, l₄, disk, rfl, _, h3⟩ | ⟨e, _, he⟩
    rotate_left
    · cases he
    dsimp only at h3
    split at h3
    · obtain ⟨_, he⟩ := run_pure.mp h3; cases he; cases hx
    rcases run_bind.mp h3 with ⟨l₅, l₆, mdev, rfl, _, h4⟩ | ⟨e, _, he⟩
    rotate_left
    · cases he
    rcases run_bind.mp h4 with ⟨l₇, l₈, m, rfl, _, h5⟩ | ⟨e, _, he⟩
    rotate_left
    · cases he
    rcases run_bind.mp h5 with ⟨l₉, l₁₀, img, rfl, _, h6⟩ | ⟨e, _, he⟩
    rotate_left
    · cases he
    rcases run_bind.mp h6 with ⟨l₁₁, l₁₂, src, rfl, h7, h8⟩ | ⟨e, _, he⟩
    rotate_left
    · cases he
    rcases run_bind.mp h8 with ⟨l₁₃, l₁₄, m', rfl, _, h9⟩ | ⟨e, _, he⟩
    rotate_left
    · cases he
    have hmm : m = md := by
      split at h9
      · obtain ⟨_, he⟩ := run_fail.mp h9; cases he
      · split at h9
        · obtain ⟨_, he⟩ := run_fail.mp h9; cases he
        · obtain ⟨_, he⟩ := run_pure.mp h9; cases he; cases hx; rfl
    subst hmm
    rw [hfm] at h7
    obtain ⟨d, m'', hm, hh⟩ := run_source_stripes h7 hs
    exact ⟨d, m'', by simp [hm], hh⟩

/-! ## Retries -/

/-- C79: **when a response is retried because of its status, the wait is at least the configured delay and at most the delay
plus the jitter, whatever the library's own limit is.** -/
theorem C79_retry {dflt minMs jitterMs rnd d : Nat} {status : Option Nat} (hr : rnd ≤ jitterMs * 1000000)
    (h : waits dflt (some (minMs, jitterMs)) status rnd = some d) :
    minMs * 1000000 ≤ d ∧ d ≤ (minMs + jitterMs) * 1000000 ∧
      (status = some 500 ∨ status = some 502 ∨ status = some 503 ∨ status = some 504 ∨ status = some 429) := by
  unfold waits classify at h
  cases status with
  | none => cases h
  | some s =>
    dsimp only at h
    by_cases hs : s = 500 ∨ s = 502 ∨ s = 503 ∨ s = 504 ∨ s = 429
    · simp only [hs, ↓reduceIte, Option.map_some, Option.some.injEq, maxBackoff] at h
      refine ⟨by omega, by omega, ?_⟩
      simpa using hs
    · simp only [hs, ↓reduceIte] at h
      cases h

/-- C79: every response with one of these statuses is retried after such a wait; without the setting none is. -/
theorem C79_retried {dflt minMs jitterMs rnd s : Nat} :
    ((waits dflt (some (minMs, jitterMs)) (some s) rnd).isSome = true ↔ s = 500 ∨ s = 502 ∨ s = 503 ∨ s = 504 ∨ s = 429) ∧
    waits dflt none (some s) rnd = none := by
  refine ⟨?_, rfl⟩
  unfold waits classify
  by_cases hs : s = 500 ∨ s = 502 ∨ s = 503 ∨ s = 504 ∨ s = 429
  · simp [hs]
  · simp [hs]

/-- C79: an S3 store has at least one worker and at most 128. -/
theorem C79_workers {secrets : List (String × Bytes)} {s3 : S3} {cl : Client} {b : String} {pf : Option String} {n : Nat}
    (h : StoreOf t secrets (.s3 s3) (.bucket cl b pf n)) : 1 ≤ n ∧ n ≤ 128 ∧ (1 ≤ s3.connections → s3.connections ≤ 128 → n = s3.connections) := by
  cases h with
  | bucket _ _ _ _ _ _ _ _ _ _ _ _ _ _ hw => omega

/-! ## Cases -/

set_option maxRecDepth 8000

/-- ASCII. -/
def demoText : Text where
  decode b := if b.all (· < 128) then some (String.ofList (b.map fun x => Char.ofNat x.toNat)) else none
  bytes s := s.toList.map fun ch => ch.toNat.toUInt8

/-- The configuration of Props/Load with a metadata path and the given source. -/
def demoRoot (src : Tbl → Tbl) : Tbl :=
  src (.leaf "include" (.strings ["enc.toml".toList])
    (.sub "device" (.leaf "data_path" (.str "disk.raw") (.leaf "metadata_path" (.str "meta.raw") .nil))
      (.sub "secrets" (.sub "k" (.sub "source" (.leaf "file" (.str "k") .nil) .nil) .nil) .nil)))

/-- A raw source without further settings: `copy_on_read` is off. -/
def rawRoot : Tbl := demoRoot (.sub "stripe_source" (.leaf "type" (.str "raw") (.leaf "image_path" (.str "img") .nil)))

/-- A remote source with two connections. -/
def remoteRoot : Tbl :=
  demoRoot (.sub "stripe_source" (.leaf "type" (.str "remote") (.leaf "address" (.str "h:9") (.leaf "connections" (.int 2)
    (.sub "psk" (.leaf "identity" (.str "i") (.sub "secret" (.leaf "ref" (.str "k") .nil) .nil)) .nil)))))

/-- An archive in a directory. -/
def archiveRoot : Tbl := demoRoot (.sub "stripe_source" (.leaf "type" (.str "archive") (.leaf "storage" (.str "filesystem") (.leaf "path" (.str "/a") .nil))))

def confOf (root : Tbl) : Config :=
  match Config.load demoEnv root with
  | .ok c => c
  | .error _ => ⟨⟨[], none, none, none, "", false⟩, Tuning.default, none, .off, none, []⟩

theorem confOf_ok {root : Tbl} (h : (Config.load demoEnv root).toBool = true) : Config.load demoEnv root = .ok (confOf root) := by
  unfold confOf
  cases hl : Config.load demoEnv root with
  | ok c => rfl
  | error e => rw [hl] at h; cases h

/-- Metadata of `n` stripes of 2048 sectors, all with a source, all with header `h`. -/
def demoMeta (h : UInt8) (n : Nat) : Meta := { Meta.new 11 n n with headers := List.replicate n h }

/-- Everything is there and answers, except the files `gone`. -/
def demoOut (m : Meta) (gone : List Char → Bool) : Outside
  | .statfs _ => some 4096
  | .openFile f => if gone f.path then none else some 20480
  | .loadMeta _ => some m
  | .makeDir _ => some ()
  | .startClient _ => some ()
  | .readArchive _ _ => some 20480
  | .dial _ => some m
  | .create _ => some ()
  | .saveMeta _ => some ()
  | .loadTarget => some ()

/-- Nothing but the volume's files is there. -/
def bareOut (c : Config) (m : Meta) : Outside
  | .statfs _ => some 4096
  | .openFile f => if f.path = c.device.dataPath ∨ c.device.metadataPath = some f.path then some 20480 else none
  | .loadMeta _ => some m
  | _ => none

theorem bare_sound (c : Config) (m : Meta) : Sound (bareOut c m) c m where
  block := ⟨4096, rfl⟩
  opens f hf := ⟨20480, if_pos hf⟩
  load _ _ := rfl

def okWith {α : Type} (r : Except Err α) (f : α → Bool) : Bool :=
  match r with
  | .ok a => f a
  | .error _ => false

theorem raw_loads : (Config.load demoEnv rawRoot).toBool = true := by decide +kernel
theorem remote_loads : (Config.load demoEnv remoteRoot).toBool = true := by decide +kernel
theorem archive_loads : (Config.load demoEnv archiveRoot).toBool = true := by decide +kernel

/-- C79_server_complete; C79_server_stripes: a server of the right stripe size is accepted, one of another is not. -/
example :
    okWith (against (demoOut (demoMeta HAS_SOURCE 10) fun _ => false) (serve (confOf rawRoot))).2 (fun x => x.disk.isSome && x.md.isSome) = true ∧
    okWith (against (demoOut (demoMeta HAS_SOURCE 10) fun _ => false) (initMetadata demoText (confOf remoteRoot) 11)).2 (fun x => x.source.isSome) = true ∧
    okWith (against (demoOut (demoMeta HAS_SOURCE 10) fun _ => false) (initMetadata demoText (confOf remoteRoot) 10)).2 (fun _ => true) = false := by
  decide +kernel

/-- C79_psk_accepted: a key of sixteen bytes, and nobody answers. -/
example : ∃ d, (against (fun _ => none) (connect demoText [("k", List.replicate 16 7)]
    { address := "h:9", psk := some ⟨"i", "k"⟩, connections := 1, connectTimeoutMs := 1, operationTimeoutMs := 1, autofetch := false })).2 = .error (.outside (.dial d)) :=
  ⟨_, rfl⟩

/-- C79_asked, C79_configured, C79_backend, C79_fits, C79_keyed: with stripes left to fetch the backend opens five files and starts with
the image as source and as image to read from, and both halves of the key in front of the data. -/
example :
    okWith (against (demoOut (demoMeta HAS_SOURCE 10) fun _ => false) (backend demoText (confOf rawRoot))).2 (fun x =>
      x.image.isSome && (match x.source with | some (.image d) => d.file.path == "/etc/u/img".toList && d.file.readonly && d.keys.isNone | _ => false) &&
      (match x.disk with | some d => d.file.path == "/etc/u/disk.raw".toList && d.keys == some ⟨List.replicate 32 7, List.replicate 32 7⟩ | none => false)) = true := by
  decide +kernel

/-- C79_dials, C79_credentials: a session with a remote source. -/
example :
    okWith (against (demoOut (demoMeta HAS_SOURCE 10) fun _ => false) (session demoText (confOf remoteRoot) (demoMeta HAS_SOURCE 10))).2 (fun x =>
      match x.source with
      | some (.server [a, b] n) => a.address == "h:9" && b.psk == some ("i", List.replicate 64 7) && n == 10 * 2048
      | _ => false) = true := by
  decide +kernel

example : ¬AllThere (demoMeta HAS_SOURCE 10) := by
  intro h
  exact h HAS_SOURCE (by simp [demoMeta]) (by decide) (by decide)

/-- C79_archive, C79_writable, C79_created: `archive` and `init-metadata` get going. -/
example :
    okWith (against (demoOut (demoMeta HAS_SOURCE 10) fun _ => false) (archive demoText (confOf archiveRoot) ⟨.filesystem "/t".toList none false, .off, []⟩)).2
      (fun x => match x.source, x.target with | some (.archive (.directory q) _ 20480), some (.directory q', _) => q == "/a".toList && q' == "/t".toList | _, _ => false) = true ∧
    okWith (against (demoOut (demoMeta HAS_SOURCE 10) fun _ => false) (initMetadata demoText (confOf rawRoot) 11)).2 (fun x => x.source.isSome) = true ∧
    (against (demoOut (demoMeta HAS_SOURCE 10) fun _ => false) (initMetadata demoText (confOf rawRoot) 11)).1.any
      (fun y => match y.1 with | .create q => q == "/etc/u/meta.raw".toList | _ => false) = true ∧
    okWith (against (demoOut (demoMeta HAS_SOURCE 10) fun _ => false) (dump (confOf rawRoot))).2 (fun x => x.md.isSome) = true := by
  decide +kernel

/-- C79_export. -/
example : okWith (against (demoOut (demoMeta HAS_SOURCE 10) fun _ => false) (exportArchive demoText ⟨.filesystem "/a".toList (some "k") false, .off, [("k", List.replicate 32 9)]⟩ "/t".toList)).2
    (fun x => match x.source with | some (.archive _ k _) => k.method == .aes256Gcm && k.key == some (List.replicate 32 9) | _ => false) = true := by
  decide +kernel

theorem demo_allThere (n : Nat) : AllThere (demoMeta (HAS_SOURCE ||| FETCHED) n) := by
  intro h hh _
  have : h = HAS_SOURCE ||| FETCHED := List.eq_of_mem_replicate hh
  subst this
  decide

/-- C79_fetched_starts_partial, C79_fetched_asks: the server is gone, the volume starts. -/
example : ∃ x, (against (bareOut (confOf remoteRoot) (demoMeta (HAS_SOURCE ||| FETCHED) 10)) (backend demoText (confOf remoteRoot))).2 = .ok x := by
  refine C79_fetched_starts_partial (confOf_ok remote_loads) (bare_sound _ _) (demo_allThere 10) ?_
  intro q a h
  have : (match (confOf remoteRoot).source with | some (.raw _ _ _) => true | _ => false) = false := by decide +kernel
  rw [h] at this
  cases this

/-- C79: **the sentence is false for raw sources with the default `copy_on_read`**: every stripe is fetched, the image is gone, and the
backend does not start. -/
theorem C79_false_fetched_starts :
    ∃ (t : Text) (e : Env) (root : Tbl) (c : Config) (m : Meta) (o : Outside), Config.load e root = .ok c ∧ Sound o c m ∧ AllThere m ∧
      ¬∃ x, (against o (backend t c)).2 = .ok x := by
  refine ⟨demoText, demoEnv, rawRoot, confOf rawRoot, demoMeta (HAS_SOURCE ||| FETCHED) 10, bareOut (confOf rawRoot) (demoMeta (HAS_SOURCE ||| FETCHED) 10),
    confOf_ok raw_loads, bare_sound _ _, demo_allThere 10, ?_⟩
  rintro ⟨x, hx⟩
  have : okWith (against (bareOut (confOf rawRoot) (demoMeta (HAS_SOURCE ||| FETCHED) 10)) (backend demoText (confOf rawRoot))).2 (fun _ => true) = false := by
    decide +kernel
  rw [hx] at this
  cases this

/-- C79_image_needed. -/
example : ∃ f, f.path = "/etc/u/img".toList ∧
    (against (bareOut (confOf rawRoot) (demoMeta (HAS_SOURCE ||| FETCHED) 10)) (backend demoText (confOf rawRoot))).2 = .error (.outside (.openFile f)) := by
  have hs : ∃ a, (confOf rawRoot).source = some (.raw "/etc/u/img".toList a false) := by
    have : (match (confOf rawRoot).source with | some (.raw q _ b) => q == "/etc/u/img".toList && !b | _ => false) = true := by decide +kernel
    split at this
    · rename_i q a b h
      simp only [Bool.and_eq_true, beq_iff_eq, Bool.not_eq_true'] at this
      obtain ⟨rfl, rfl⟩ := this
      exact ⟨a, h⟩
    · cases this
  obtain ⟨a, hs⟩ := hs
  refine C79_image_needed (confOf_ok raw_loads) (bare_sound _ _) (demo_allThere 10) (by decide +kernel) hs ?_
  intro f hf
  show (if _ then _ else _) = none
  rw [hf]
  exact if_neg (by decide +kernel)

/-- C79: **of the connections made at the start only the first is looked at**: a second server with stripes of another size is taken into
the pool. -/
theorem C79_false_pool :
    ∃ (t : Text) (e : Env) (root : Tbl) (c : Config) (d d' : Dial) (a b : Meta) (x : Parts), Config.load e root = .ok c ∧ stripeSectorCount a ≠ stripeSectorCount b ∧
      Run (session t c a) [⟨.dial d, some a⟩, ⟨.dial d', some b⟩] (.ok x) := by
  have hrm : ∃ rm : Remote, (confOf remoteRoot).source = some (.remote rm) ∧ rm.connections = 2 := by
    have : (match (confOf remoteRoot).source with | some (.remote rm) => rm.connections == 2 | _ => false) = true := by decide +kernel
    split at this
    · rename_i rm h; exact ⟨rm, h, by simpa using this⟩
    · cases this
  obtain ⟨rm, hs, hn⟩ := hrm
  have hp : ∃ psk, Run (dialPsk demoText (confOf remoteRoot).secrets rm.psk) [] (.ok psk) := by
    have : (match (confOf remoteRoot).source with
        | some (.remote rm) => okWith (against (demoOut (demoMeta 1 1) fun _ => false) (dialPsk demoText (confOf remoteRoot).secrets rm.psk)).2 (fun _ => true) &&
            (against (demoOut (demoMeta 1 1) fun _ => false) (dialPsk demoText (confOf remoteRoot).secrets rm.psk)).1.isEmpty
        | _ => false) = true := by decide +kernel
    rw [hs] at this
    simp only [Bool.and_eq_true, List.isEmpty_iff] at this
    have hrun := against_run (demoOut (demoMeta 1 1) fun _ => false) (dialPsk demoText (confOf remoteRoot).secrets rm.psk)
    rw [this.2] at hrun
    cases hr : (against (demoOut (demoMeta 1 1) fun _ => false) (dialPsk demoText (confOf remoteRoot).secrets rm.psk)).2 with
    | ok psk => rw [hr] at hrun; exact ⟨psk, hrun⟩
    | error e => rw [hr] at this; cases this.1
  obtain ⟨psk, hpsk⟩ := hp
  let d : Dial := ⟨rm.address, psk, rm.connectTimeoutMs, rm.operationTimeoutMs⟩
  have hc : ∀ m, Run (connect demoText (confOf remoteRoot).secrets rm) [⟨.dial d, some m⟩] (.ok (d, m)) := by
    intro m
    refine run_bind.mpr (Or.inl ⟨[], _, psk, rfl, hpsk, ?_⟩)
    refine run_bind.mpr (Or.inl ⟨_, [], m, (List.append_nil _).symm, run_ask.mpr (Or.inl ⟨m, rfl, rfl⟩), run_pure.mpr ⟨rfl, rfl⟩⟩)
  let a := demoMeta HAS_SOURCE 1
  let b : Meta := { demoMeta HAS_SOURCE 1 with shift := 5 }
  have hall : Run (connectAll demoText (confOf remoteRoot).secrets rm 2) [⟨.dial d, some a⟩, ⟨.dial d, some b⟩] (.ok [(d, a), (d, b)]) := by
    refine run_bind.mpr (Or.inl ⟨[_], [_], _, rfl, hc a, ?_⟩)
    refine run_bind.mpr (Or.inl ⟨[_], [], _, rfl, ?_, run_pure.mpr ⟨rfl, rfl⟩⟩)
    exact run_bind.mpr (Or.inl ⟨[_], [], _, rfl, hc b, run_bind.mpr (Or.inl ⟨[], [], _, rfl, run_pure.mpr ⟨rfl, rfl⟩, run_pure.mpr ⟨rfl, rfl⟩⟩)⟩)
  refine ⟨demoText, demoEnv, remoteRoot, confOf remoteRoot, d, d, a, b, { source := some (.server [d, d] 2048) }, confOf_ok remote_loads, by decide, ?_⟩
  refine run_bind.mpr (Or.inl ⟨_, [], _, (List.append_nil _).symm, ?_, run_pure.mpr ⟨rfl, rfl⟩⟩)
  unfold buildSource
  have hf : hasFetchedAll a = false := by decide
  rw [hf, hs]
  simp only [Bool.false_eq_true, ↓reduceIte]
  refine run_bind.mpr (Or.inl ⟨_, [], _, (List.append_nil _).symm, hn ▸ hall, ?_⟩)
  exact .done _

/-- C79_server_refuses: without a source and with stripes left to fetch. -/
example : (match (against (demoOut (demoMeta HAS_SOURCE 10) fun _ => false) (serve { confOf rawRoot with source := none })).2 with
    | .error .noSource => true
    | _ => false) = true := by
  decide +kernel

/-- C79_server: without a source a server starts only when nothing is left to fetch. -/
example :
    okWith (against (demoOut (demoMeta HAS_SOURCE 10) fun _ => false) (serve { confOf rawRoot with source := none })).2 (fun _ => true) = false ∧
    okWith (against (demoOut (demoMeta (HAS_SOURCE ||| FETCHED) 10) fun _ => false) (serve { confOf rawRoot with source := none })).2 (fun x => x.md.isSome) = true := by
  decide +kernel

/-- C79_secrets: a run of an accepted configuration that fails, for another reason. -/
example : okWith (against (demoOut (demoMeta HAS_SOURCE 10) fun q => q == "/etc/u/disk.raw".toList) (backend demoText (confOf rawRoot))).2 (fun _ => true) = false := by
  decide +kernel

/-- C79_retry: a delay of 30 seconds is not cut to the library's 20. -/
example : waits 20000000000 (some (30000, 1000)) (some 503) 500000000 = some 30500000000 := by decide

end Verif.Assemble
