import Verif.Proof.Report

/-! # C97: an error report tells the whole story and quotes no secret -/

namespace Verif.Report
open Verif Verif.Config

/-- C97: a context added to an error puts one part in front of its report and leaves the rest as it was, for every error and message. -/
theorem C97_context (e : Failure) (m : Text) (l : Loc) :
    (e.context m l).report =
      (m ++ " (at ".toList ++ l.file ++ ":".toList ++ Nat.toDigits 10 l.line ++ ")".toList) ++ ("\n  - caused by: ".toList ++ e.report) :=
  report_context e m l

/-- C97: the lines of a report are the contexts, the newest first, and the cause, each with where it happened, when no message has a
line break in it. -/
theorem C97_story_partial {e : Failure} (he : e.plain) {s : Text × Loc} {rest : List (Text × Loc)} (h : e.story = s :: rest) :
    lines e.report = told s :: rest.map (fun p => "  - caused by: ".toList ++ told p) := by
  rw [report_story h]
  have hs := he s (by rw [h]; exact List.mem_cons_self)
  have := lines_story rest ⟨hs.1, hs.2.1⟩
    (fun p hp => have := he p (by rw [h]; exact List.mem_cons_of_mem _ hp); ⟨this.1, this.2.1⟩) [] (by simp)
  simpa using this

/-- C97: from such a report the whole error can be read back: kind and arguments of the cause, every context, every location. -/
theorem C97_lossless_partial {e e' : Failure} (he : e.plain) (he' : e'.plain) (h : e.report = e'.report) : e = e' := by
  have ne : ∀ e : Failure, ∃ s rest, e.story = s :: rest := by
    intro e
    cases hs : e.story with
    | nil => simp [Failure.story] at hs
    | cons s rest => exact ⟨s, rest, rfl⟩
  obtain ⟨s, rest, hs⟩ := ne e
  obtain ⟨s', rest', hs'⟩ := ne e'
  have hl := C97_story_partial he hs
  rw [h, C97_story_partial he' hs'] at hl
  simp only [List.cons.injEq] at hl
  have m1 : ∀ p ∈ s :: rest, '(' ∉ p.2.file := fun p hp => (he p (by rw [hs]; exact hp)).2.2
  have m2 : ∀ p ∈ s' :: rest', '(' ∉ p.2.file := fun p hp => (he' p (by rw [hs']; exact hp)).2.2
  have h1 := told_inj (m2 s' List.mem_cons_self) (m1 s List.mem_cons_self) hl.1
  have h2 := parts_inj (fun p hp => m2 p (List.mem_cons_of_mem _ hp)) (fun p hp => m1 p (List.mem_cons_of_mem _ hp)) hl.2
  have hst : e.story = e'.story := by rw [hs, hs', h1, h2]
  obtain ⟨c, l, cs⟩ := e
  obtain ⟨c', l', cs'⟩ := e'
  simp only [Failure.story] at hst
  obtain ⟨h3, h4⟩ := List.append_inj' hst rfl
  rw [Failure.mk.injEq]
  simp only [List.cons.injEq, Prod.mk.injEq, and_true] at h4
  exact ⟨text_inj h4.1, h4.2, List.reverse_inj.mp h3⟩

/-- C97 is false of messages with line breaks: one context can look like two. -/
theorem C97_false_forged : ∃ e e' : Failure, e ≠ e' ∧ e.contexts.length = 1 ∧ e'.contexts.length = 2 ∧ e.report = e'.report := by
  let l : Loc := ⟨"f".toList, 1⟩
  let r := fresh (.missingStripeMetadata) l
  refine ⟨r.context (told ("b".toList, l) ++ ("\n  - caused by: ".toList ++ "a".toList)) l, (r.context "a".toList l).context "b".toList l,
    fun h => ?_, rfl, rfl, ?_⟩
  · have := congrArg (fun e => e.contexts.length) h
    cases this
  · rw [report_context, report_context, report_context]
    simp only [told, List.append_assoc]

/-! ## Secrets -/

/-- C97: the resolution with the texts of its errors is the resolution of C45: it gives the same secrets, and fails when that fails. -/
theorem C97_same_resolution (b : Box) (dz : DangerZone) (defs : List (String × SecretDef)) :
    (resolve b dz defs).toOption = (resolveSecrets b.world dz defs).toOption := same_resolve b dz defs

/-- C97: whatever the secrets are, a report that they cannot be resolved is one of the reports listed for the public part of the
configuration, or it is made of the text base64 decoding or `std::env::var` gives for what is in the place of a secret. -/
theorem C97_report_partial {b : Box} {dz : DangerZone} {defs : List (String × SecretDef)} {e : Failure} (h : resolve b dz defs = .error e) :
    e.report = circularReport ∨ (∃ p ∈ publics defs, e.report ∈ oneReports b.os p) ∨ ∃ n d, (n, d) ∈ defs ∧ Quotes b n d e.report := by
  rcases resolve_report h with h | ⟨⟨n, d⟩, hm, h | h⟩
  · exact Or.inl h
  · exact Or.inr (Or.inl ⟨_, List.mem_map.mpr ⟨_, hm, rfl⟩, h⟩)
  · exact Or.inr (Or.inr ⟨n, d, hm, h⟩)

theorem one_length (os : Os) (p : Public) : (oneReports os p).length ≤ 9 := by
  obtain ⟨n, w, b, k⟩ := p
  simp only [oneReports, List.length_append]
  have h1 : (sourceReports os n w).length ≤ 4 := by cases w <;> simp [sourceReports]
  cases k with
  | none => simp only [List.length_cons, List.length_nil]; omega
  | some k =>
    have h2 : (kekReports os n k).length = 4 := rfl
    simp only [List.length_cons, List.length_nil, h2]
    omega

/-- C97: so for a given public part there are at most nine reports for each secret and one more, among all the secrets there could be,
when no secret is encoded in base64 and every variable is Unicode. -/
theorem C97_few (os : Os) (ps : List Public) : ∃ L : List Text, L.length ≤ 9 * ps.length + 1 ∧
    ∀ (b : Box) (dz : DangerZone) (defs : List (String × SecretDef)) (e : Failure), b.os = os → publics defs = ps →
      (∀ n d, (n, d) ∈ defs → d.base64 = false) → (∀ v x, b.var v = some x → b.unicode x = true) → resolve b dz defs = .error e → e.report ∈ L := by
  refine ⟨circularReport :: ps.flatMap (oneReports os), ?_, ?_⟩
  · simp only [List.length_cons, Nat.add_le_add_iff_right]
    induction ps with
    | nil => simp
    | cons p ps ih =>
      have := one_length os p
      simp only [List.flatMap_cons, List.length_append, List.length_cons]
      omega
  · intro b dz defs e hos hps hb hu h
    rcases C97_report_partial h with h | ⟨p, hp, h⟩ | ⟨n, d, hm, h⟩
    · exact h ▸ List.mem_cons_self
    · rw [hos] at h
      rw [hps] at hp
      exact List.mem_cons_of_mem _ (List.mem_flatMap.mpr ⟨p, hp, h⟩)
    · cases h with
      | base64 hx => rw [hb n d hm] at hx; cases hx
      | envVar _ hv hn => rw [hu _ _ hv] at hn; cases hn

/-- C97: each of the listed reports names the secret it is about. -/
theorem C97_names_secret (os : Os) (p : Public) {t : Text} (h : t ∈ oneReports os p) :
    ("secrets.".toList ++ chars p.name ++ ":".toList) <:+: t := by
  obtain ⟨n, w, b, k⟩ := p
  generalize hx : "secrets.".toList ++ chars n ++ ":".toList = x
  have key : ∀ s u v : Text, s = "Invalid parameter error: ".toList ∨ s = [] →
      x <:+: (s ++ ("secrets.".toList ++ (chars n ++ (":".toList ++ (u ++ v))))) := by
    intro s u v _
    rw [← hx]
    exact ⟨s, u ++ v, by simp only [List.append_assoc]⟩
  have k1 : ∀ u t : Text, t = "Invalid parameter error: secrets.".toList ++ (chars n ++ (":".toList ++ u)) → x <:+: t := by
    intro u t ht
    have := key "Invalid parameter error: ".toList u [] (Or.inl rfl)
    rw [ht]
    simpa using this
  have k2 : ∀ u t : Text, t = "secrets.".toList ++ (chars n ++ (":".toList ++ u)) → x <:+: t := by
    intro u t ht
    have := key [] u [] (Or.inr rfl)
    rw [ht]
    simpa using this
  simp only [oneReports, List.mem_append, List.mem_singleton] at h
  rcases h with h | h | h
  · cases w with
    | file q =>
      simp only [sourceReports, List.mem_cons, List.not_mem_nil, or_false] at h
      rcases h with rfl | rfl | rfl | rfl
      · exact k1 (" failed to open '".toList ++ os.pathDebug q ++ "': ".toList ++ os.openText q ++ " (at src/config/v2/secrets.rs:220)".toList) _
          (by generalize chars n = c; simp)
      · exact k1 (" failed to stat '".toList ++ os.pathDebug q ++ "': ".toList ++ os.statText q ++ " (at src/config/v2/secrets.rs:227)".toList) _
          (by generalize chars n = c; simp)
      · exact k1 (" regular file cannot be used as source unless danger_zone.allow_secret_over_regular_file is enabled. (at src/config/v2/secrets.rs:233)".toList) _
          (by generalize chars n = c; simp)
      · exact k2 (" failed to read '".toList ++ os.pathDebug q ++ "' (at src/config/v2/secrets.rs:245)\n  - caused by: I/O error: ".toList ++
          os.readText q ++ " (at src/error.rs:305)".toList) _ (by generalize chars n = c; simp)
    | inline =>
      simp only [sourceReports, List.mem_cons, List.not_mem_nil, or_false] at h
      rw [h]
      exact k1 (" inline secret source requires a KEK unless danger_zone.allow_inline_plaintext_secrets is enabled (at src/config/v2/secrets.rs:257)".toList) _
        (by generalize chars n = c; simp)
    | env v =>
      simp only [sourceReports, List.mem_cons, List.not_mem_nil, or_false] at h
      rcases h with rfl | rfl
      · exact k1 (" source.env requires danger_zone.allow_env_secrets to be enabled (environment variables persist in /proc/PID/environ) (at src/config/v2/secrets.rs:269)".toList) _
          (by generalize chars n = c; simp)
      · exact k1 (" failed to read environment variable '".toList ++ chars v ++ "': ".toList ++ os.notPresent ++ " (at src/config/v2/secrets.rs:277)".toList) _
          (by generalize chars n = c; generalize chars v = c'; simp)
  · rw [h]
    exact k1 (" secret data exceeds maximum allowed size of 8192 bytes (at src/config/v2/secrets.rs:209)".toList) _
      (by generalize chars n = c; simp)
  · cases k with
    | none => cases h
    | some k =>
      simp only [kekReports, List.mem_cons, List.mem_map] at h
      rcases h with rfl | ⟨a, _, rfl⟩
      · exact k1 (" missing KEK reference '".toList ++ chars k ++ "' (at src/config/v2/secrets.rs:122)".toList) _
          (by generalize chars n = c; generalize chars k = c'; simp)
      · exact k2 (" failed to decrypt using KEK '".toList ++ chars k ++
          "' (at src/config/v2/secrets.rs:169)\n  - caused by: Invalid parameter error: ".toList ++ a) _
          (by generalize chars n = c; generalize chars k = c'; simp)

/-- C97: what `{:?}` shows of a resolved secret, of PSK credentials, of a block cipher and of a key-encryption cipher does not depend on
the secret bytes; of the last it shows whether there is a key and authentication data. -/
theorem C97_redacted :
    (∀ s s' : Bytes, debugSecret s = debugSecret s') ∧
      (∀ (shown : Text → Text) (i : Text) (s s' : Bytes), debugPsk shown i s = debugPsk shown i s') ∧
      (∀ k k' : Crypt.Keys, debugXts k = debugXts k') ∧
      ∀ k k' : Crypt.Kek, k.method = k'.method → k.key.isSome = k'.key.isSome → k.auth.isSome = k'.auth.isSome → debugKek k = debugKek k' := by
  refine ⟨fun _ _ => rfl, fun _ _ _ _ => rfl, fun _ _ => rfl, ?_⟩
  rintro ⟨m, k, a⟩ ⟨m', k', a'⟩ hm hk ha
  simp only at hm hk ha
  subst hm
  cases k <;> cases k' <;> cases a <;> cases a' <;> first | rfl | (cases hk; done) | (cases ha; done)

/-- C97 is false of the derived Debug of an inline secret: it shows the text. -/
theorem C97_false_derived_debug (shown : Bytes → Text) (hs : ∀ a b, shown a = shown b → a = b) {t t' : Bytes} (h : t ≠ t') :
    debugInline shown t ≠ debugInline shown t' := by
  intro he
  exact h (hs _ _ (List.append_cancel_right (List.append_cancel_left he)))

/-! ## Reports that quote -/

/-- A machine on which base64 decoding fails and names the first byte, as the library names the first symbol that is not base64. -/
def demoBox (value : Bytes) : Box where
  os := ⟨id, fun _ => "gone".toList, fun _ => "odd".toList, fun _ => "broken".toList, "not present".toList, "Invalid Length".toList, "aead::Error".toList⟩
  file _ := .cannotOpen
  var _ := some value
  unicode _ := false
  notUnicode v := v.map fun b => Char.ofNat b.toNat
  b64 t := .error (t.map fun b => Char.ofNat b.toNat)
  gcm := ⟨fun _ _ _ _ => none, fun _ _ _ _ => none⟩
  utf8 _ := []

/-- Everything allowed. -/
def allOn : DangerZone := ⟨true, true, true, true, true, true⟩

theorem resolve_one {b : Box} {dz : DangerZone} {n : String} {d : SecretDef} {e : Failure} (hk : d.encryptedBy = none)
    (h : maybeResolve b dz n d [] = .error e) : resolve b dz [(n, d)] = .error e := by
  unfold resolve
  rw [show firstMissing [(n, d)] [(n, d)] = none by simp [firstMissing, hk]]
  exact loop_error (by simp) (by simp [pass, h])

theorem demo_base64 (t : Bytes) (ht : t = [33] ∨ t = [35]) : resolve (demoBox []) allOn [("disk", ⟨.inline t, true, none⟩)] =
    .error ((bad 200 ("invalid base64: ".toList ++ t.map fun b => Char.ofNat b.toNat)).context (of "disk" ++ "failed to decode".toList) (here 177)) := by
  apply resolve_one rfl
  rcases ht with rfl | rfl <;> rfl

/-- C97 is false of secrets in base64: with the same public configuration, two secrets that are not base64 give different reports. -/
theorem C97_false_base64 : ∃ (b : Box) (defs defs' : List (String × SecretDef)) (e e' : Failure), publics defs = publics defs' ∧
    resolve b allOn defs = .error e ∧ resolve b allOn defs' = .error e' ∧ e.report ≠ e'.report := by
  refine ⟨demoBox [], [("disk", ⟨.inline [33], true, none⟩)], [("disk", ⟨.inline [35], true, none⟩)], _, _, rfl, demo_base64 _ (Or.inl rfl),
    demo_base64 _ (Or.inr rfl), ?_⟩
  rw [report_context, report_context]
  intro h
  have h1 := List.append_cancel_left (List.append_cancel_left h)
  rw [bad_report (d := "200".toList) (by decide), bad_report (d := "200".toList) (by decide)] at h1
  exact absurd h1 (by decide)

/-- C97 is false of a variable that is not Unicode: the report shows its bytes, whatever they are, if the library's text does. -/
theorem C97_false_variable (value : Bytes) : ∃ e, resolve (demoBox value) allOn [("disk", ⟨.env "KEY", false, none⟩)] = .error e ∧
    (value.map fun b => Char.ofNat b.toNat) <:+: e.report := by
  refine ⟨_, resolve_one rfl rfl, ?_⟩
  rw [bad_report (d := "277".toList) (by decide)]
  exact ⟨"Invalid parameter error: ".toList ++ (of "disk" ++ "failed to read environment variable '".toList ++ chars "KEY" ++ "': ".toList),
    " (at src/config/v2/secrets.rs:".toList ++ ("277".toList ++ ")".toList), by simp only [List.append_assoc]; rfl⟩

/-- An encrypted secret that is not base64, and its key. -/
def demoWrapped : List (String × SecretDef) :=
  [("kek", ⟨.inline (List.replicate 32 7), false, none⟩), ("z", ⟨.inline [33], true, some "kek"⟩)]

theorem demo_unnamed : resolve (demoBox []) allOn demoWrapped = .error (bad 200 "invalid base64: !".toList) := by
  unfold resolve
  rw [show firstMissing demoWrapped demoWrapped = none by decide]
  exact loop_error (by decide) rfl

/-- C97 is false of an encrypted secret that is not base64: the report names no secret. -/
theorem C97_false_unnamed : ∃ e, resolve (demoBox []) allOn demoWrapped = .error e ∧ 'z' ∉ e.report := by
  refine ⟨_, demo_unnamed, ?_⟩
  rw [bad_report (d := "200".toList) (by decide)]
  decide

/-! ## Non-trivial cases -/

/-- An error with two contexts. -/
def demoFailure : Failure :=
  ((fresh (.stripeSize 3 512 40) ⟨"src/a.rs".toList, 12⟩).context "fetching".toList ⟨"src/b.rs".toList, 7⟩).context "starting".toList
    ⟨"src/c.rs".toList, 1⟩

/-- C97: its report. -/
example : demoFailure.report = ("starting (at src/c.rs:1)\n  - caused by: fetching (at src/b.rs:7)\n  - caused by: " ++
    "Stripe 3 size mismatch: expected 512 bytes, got 40 bytes (at src/a.rs:12)").toList := by decide +kernel

/-- C97: it is plain, so it can be read back. -/
example : demoFailure.plain := by
  intro p hp
  have : p ∈ [("starting".toList, (⟨"src/c.rs".toList, 1⟩ : Loc)), ("fetching".toList, ⟨"src/b.rs".toList, 7⟩),
    ("Stripe 3 size mismatch: expected 512 bytes, got 40 bytes".toList, ⟨"src/a.rs".toList, 12⟩)] := hp
  simp only [List.mem_cons, List.not_mem_nil, or_false] at this
  rcases this with rfl | rfl | rfl <;> decide

/-- C97: a file that is not there is reported with the name of the secret, and is one of the reports listed. -/
example : ∃ e, resolve (demoBox []) .off [("disk", ⟨.file "/k".toList, false, none⟩)] = .error e ∧
    e.report = "Invalid parameter error: secrets.disk: failed to open '/k': gone (at src/config/v2/secrets.rs:220)".toList ∧
    e.report ∈ oneReports (demoBox []).os ⟨"disk", .file "/k".toList, false, none⟩ := by
  refine ⟨_, resolve_one rfl rfl, ?_, ?_⟩
  · decide +kernel
  · decide +kernel

end Verif.Report
