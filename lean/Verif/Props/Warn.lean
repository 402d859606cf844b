import Verif.Props.Load
import Verif.Spec.Warn

/-! # C101: what loading a configuration warns about -/

namespace Verif.Config
open Verif

theorem mem_ignored (d : DangerZone) (f : String) : f ∈ d.ignoredFlags ↔ d.enabled = false ∧
    ((f = "allow_unencrypted_disk" ∧ d.unencryptedDisk = true) ∨ (f = "allow_inline_plaintext_secrets" ∧ d.inlinePlaintext = true) ∨
      (f = "allow_secret_over_regular_file" ∧ d.regularFile = true) ∨ (f = "allow_unencrypted_connection" ∧ d.unencryptedConnection = true) ∨
      (f = "allow_env_secrets" ∧ d.envSecrets = true)) := by
  obtain ⟨a, b, c, d, e, g⟩ := d
  cases a <;> cases b <;> cases c <;> cases d <;> cases e <;> cases g <;> simp [DangerZone.ignoredFlags]

theorem nodup_ignored (d : DangerZone) : d.ignoredFlags.Nodup := by
  obtain ⟨a, b, c, d, e, g⟩ := d
  cases a <;> cases b <;> cases c <;> cases d <;> cases e <;> cases g <;> decide

/-- What a danger zone of a document says, by names. -/
def FlagsOf (m : Tbl) (dz : DangerZone) : Prop :=
  (dz.enabled = true ↔ settings m ["danger_zone", "enabled"] = some (.value (.bool true))) ∧
  ∀ f, f ∈ dz.ignoredFlags ↔ dz.enabled = false ∧ f ∈ switches ∧ settings m ["danger_zone", f] = some (.value (.bool true))

theorem flagsOf {m : Tbl} {o : Option DangerZone} (h : optSection m "danger_zone" decodeDanger = .ok o) : FlagsOf m (o.getD .off) := by
  have key : ((o.getD .off).enabled = true ↔ settings m ["danger_zone", "enabled"] = some (.value (.bool true))) ∧
      ((o.getD .off).unencryptedDisk = true ↔ settings m ["danger_zone", "allow_unencrypted_disk"] = some (.value (.bool true))) ∧
      ((o.getD .off).inlinePlaintext = true ↔ settings m ["danger_zone", "allow_inline_plaintext_secrets"] = some (.value (.bool true))) ∧
      ((o.getD .off).regularFile = true ↔ settings m ["danger_zone", "allow_secret_over_regular_file"] = some (.value (.bool true))) ∧
      ((o.getD .off).unencryptedConnection = true ↔ settings m ["danger_zone", "allow_unencrypted_connection"] = some (.value (.bool true))) ∧
      ((o.getD .off).envSecrets = true ↔ settings m ["danger_zone", "allow_env_secrets"] = some (.value (.bool true))) := by
    rcases optSection_ok h with ⟨rfl, hn⟩ | ⟨t, y, rfl, ht, hdec⟩
    · simp only [settings_none _ _ _ hn, DangerZone.off, Option.getD]; simp
    · simp only [settings_sub _ _ _ _ ht, settings_one]
      exact decodeDanger_fields hdec
  obtain ⟨h1, h2, h3, h4, h5, h6⟩ := key
  refine ⟨h1, fun f => ?_⟩
  rw [mem_ignored]
  constructor
  · rintro ⟨he, h⟩
    rcases h with ⟨rfl, h⟩ | ⟨rfl, h⟩ | ⟨rfl, h⟩ | ⟨rfl, h⟩ | ⟨rfl, h⟩
    · exact ⟨he, by decide, h2.mp h⟩
    · exact ⟨he, by decide, h3.mp h⟩
    · exact ⟨he, by decide, h4.mp h⟩
    · exact ⟨he, by decide, h5.mp h⟩
    · exact ⟨he, by decide, h6.mp h⟩
  · rintro ⟨he, hf, hs⟩
    refine ⟨he, ?_⟩
    simp only [switches, List.mem_cons, List.not_mem_nil, or_false] at hf
    rcases hf with rfl | rfl | rfl | rfl | rfl
    · exact Or.inl ⟨rfl, h2.mpr hs⟩
    · exact Or.inr (Or.inl ⟨rfl, h3.mpr hs⟩)
    · exact Or.inr (Or.inr (Or.inl ⟨rfl, h4.mpr hs⟩))
    · exact Or.inr (Or.inr (Or.inr (Or.inl ⟨rfl, h5.mpr hs⟩)))
    · exact Or.inr (Or.inr (Or.inr (Or.inr ⟨rfl, h6.mpr hs⟩)))

/-- The log of a load, and what an accepted one has read. -/
theorem loadedFrom {d : Disk} {e : Env} {path : List Char} {log : List Warning} {ok : Bool} (h : LoadedFrom d e path log ok) :
    (d.read path = none ∧ log = [] ∧ ok = false) ∨ (d.read path = some none ∧ log = warnLoose path (d.mode path) ∧ ok = false) ∨
    ∃ root ks, d.read path = some (some root) ∧ log = warnLoose path (d.mode path) ++ logValue e root ks ∧
      (ok = true → ∃ m dz secrets, loadMerged e root ks = .ok m ∧ loadCommon e m = .ok (dz, secrets)) := by
  have gen : ∀ {α : Type} (ks : List String) (load : Env → Tbl → Except CErr α)
      (_ : ∀ root c, load e root = .ok c → ∃ m dz secrets, loadMerged e root ks = .ok m ∧ loadCommon e m = .ok (dz, secrets))
      (r : Except PErr α), loadPath ks load d e path = (log, r) → r.toBool = ok →
      (d.read path = none ∧ log = [] ∧ ok = false) ∨ (d.read path = some none ∧ log = warnLoose path (d.mode path) ∧ ok = false) ∨
      ∃ root ks, d.read path = some (some root) ∧ log = warnLoose path (d.mode path) ++ logValue e root ks ∧
        (ok = true → ∃ m dz secrets, loadMerged e root ks = .ok m ∧ loadCommon e m = .ok (dz, secrets)) := by
    intro α ks load hl r hr hb
    unfold loadPath at hr
    split at hr
    · cases hr; exact Or.inl ⟨by assumption, rfl, hb.symm⟩
    · cases hr; exact Or.inr (Or.inl ⟨by assumption, rfl, hb.symm⟩)
    · rename_i root hroot
      simp only [Prod.mk.injEq] at hr
      refine Or.inr (Or.inr ⟨root, ks, hroot, hr.1.symm, fun hok => ?_⟩)
      cases hc : load e root with
      | error x => rw [hc] at hr; rw [← hr.2] at hb; rw [← hb] at hok; cases hok
      | ok c => exact hl root c hc
  rcases h with ⟨r, h, hb⟩ | ⟨r, h, hb⟩ | ⟨r, h, hb⟩ | ⟨r, h, hb⟩
  · refine gen _ Config.load ?_ r h hb
    intro root c hc
    simp only [Config.load, ok_bind] at hc
    obtain ⟨m, hm, ⟨dz, secrets⟩, hc, _⟩ := hc
    exact ⟨m, dz, secrets, hm, hc⟩
  · refine gen _ TargetConfig.load ?_ r h hb
    intro root c hc
    simp only [TargetConfig.load, ok_bind] at hc
    obtain ⟨m, hm, ⟨dz, secrets⟩, hc, _⟩ := hc
    exact ⟨m, dz, secrets, hm, hc⟩
  · refine gen _ ExportConfig.load ?_ r h hb
    intro root c hc
    simp only [ExportConfig.load, ok_bind] at hc
    obtain ⟨m, hm, ⟨dz, secrets⟩, hc, _⟩ := hc
    exact ⟨m, dz, secrets, hm, hc⟩
  · refine gen _ ServerConfig.load ?_ r h hb
    intro root c hc
    simp only [ServerConfig.load, ok_bind] at hc
    obtain ⟨m, hm, ⟨dz, secrets⟩, hc, _⟩ := hc
    exact ⟨m, dz, secrets, hm, hc⟩

theorem not_ignored_loose {path : List Char} {mode : Option Nat} {l : List String} : Warning.ignored l ∉ warnLoose path mode := by
  unfold warnLoose
  split
  · exact List.not_mem_nil
  · split
    · intro h; rw [List.mem_singleton] at h; cases h
    · exact List.not_mem_nil

theorem ignored_mem_log {e : Env} {root : Tbl} {ks : List String} {l : List String} (h : Warning.ignored l ∈ logValue e root ks) :
    ∃ m o, loadMerged e root ks = .ok m ∧ optSection m "danger_zone" decodeDanger = .ok o ∧ l = (o.getD .off).ignoredFlags := by
  unfold logValue at h
  split at h
  · cases h
  · rename_i m hm
    unfold logCommon at h
    split at h
    · cases h
    · rename_i o ho
      refine ⟨m, o, hm, ho, ?_⟩
      unfold DangerZone.warnIgnored at h
      split at h
      · cases h
      · rw [List.mem_singleton] at h; cases h; rfl

theorem loadCommon_danger {e : Env} {m : Tbl} {p : DangerZone × List (String × Bytes)} (h : loadCommon e m = .ok p) :
    ∃ o, optSection m "danger_zone" decodeDanger = .ok o := by
  unfold loadCommon at h
  split at h
  · cases h
  · exact ⟨_, by assumption⟩

/-- **C101.** A switch that loading reports as ignored is one that the files set while they do not enable the danger zone. So for every
load, accepted or not. -/
theorem C101_ignored_true {d : Disk} {e : Env} {path : List Char} {log : List Warning} {ok : Bool} (h : LoadedFrom d e path log ok) {root : Tbl}
    (hr : d.read path = some (some root)) (hd : Docs e root) {f : String} (hf : NamesIgnored log f) :
    f ∈ switches ∧ Says e root ["danger_zone", f] (.bool true) ∧ ¬Says e root ["danger_zone", "enabled"] (.bool true) := by
  obtain ⟨l, hl, hfl⟩ := hf
  rcases loadedFrom h with ⟨h0, _⟩ | ⟨h0, _⟩ | ⟨root', ks, h0, h1, _⟩
  · rw [h0] at hr; cases hr
  · rw [h0] at hr; cases hr
  · rw [h0] at hr; cases hr
    rw [h1] at hl
    rcases List.mem_append.mp hl with hl | hl
    · exact absurd hl not_ignored_loose
    · obtain ⟨m, o, hm, ho, rfl⟩ := ignored_mem_log hl
      obtain ⟨f1, f2⟩ := flagsOf ho
      obtain ⟨g1, g2, g3⟩ := (f2 f).mp hfl
      have hm := (loadMerged_ok hm).1
      refine ⟨g2, (merged_has hd hm _ _).mp g3, fun hc => ?_⟩
      rw [f1.mpr ((merged_has hd hm _ _).mpr hc)] at g1
      cases g1

/-- **C101.** When a configuration is accepted, every switch that the files set while they do not enable the danger zone is reported. -/
theorem C101_ignored_all {d : Disk} {e : Env} {path : List Char} {log : List Warning} (h : LoadedFrom d e path log true) {root : Tbl}
    (hr : d.read path = some (some root)) (hd : Docs e root) {f : String} (hf : f ∈ switches)
    (hs : Says e root ["danger_zone", f] (.bool true)) (hn : ¬Says e root ["danger_zone", "enabled"] (.bool true)) : NamesIgnored log f := by
  rcases loadedFrom h with ⟨_, _, h0⟩ | ⟨_, _, h0⟩ | ⟨root', ks, h0, h1, h2⟩
  · cases h0
  · cases h0
  · rw [h0] at hr; cases hr
    obtain ⟨m, dz, secrets, hm, hc⟩ := h2 rfl
    obtain ⟨o, ho⟩ := loadCommon_danger hc
    obtain ⟨f1, f2⟩ := flagsOf ho
    have hm' := (loadMerged_ok hm).1
    have hen : (o.getD .off).enabled = false := by
      cases hb : (o.getD .off).enabled with
      | false => rfl
      | true => exact absurd ((merged_has hd hm' _ _).mp (f1.mp hb)) hn
    have hmem : f ∈ (o.getD .off).ignoredFlags := (f2 f).mpr ⟨hen, hf, (merged_has hd hm' _ _).mpr hs⟩
    refine ⟨_, ?_, hmem⟩
    rw [h1]
    refine List.mem_append.mpr (Or.inr ?_)
    unfold logValue
    rw [hm]
    dsimp only
    unfold logCommon
    rw [ho]
    dsimp only
    unfold DangerZone.warnIgnored
    split
    · rename_i h; rw [List.isEmpty_iff] at h; rw [h] at hmem; cases hmem
    · exact List.mem_singleton.mpr rfl

/-- **C101.** It is one warning, and it names no switch twice. -/
theorem C101_ignored_once {d : Disk} {e : Env} {path : List Char} {log : List Warning} {ok : Bool} (h : LoadedFrom d e path log ok)
    {l l' : List String} (hl : Warning.ignored l ∈ log) (hl' : Warning.ignored l' ∈ log) : l = l' ∧ l.Nodup ∧ l ≠ [] ∧ log.length ≤ 2 := by
  rcases loadedFrom h with ⟨_, h1, _⟩ | ⟨_, h1, _⟩ | ⟨root, ks, _, h1, _⟩
  · rw [h1] at hl; cases hl
  · rw [h1] at hl; exact absurd hl not_ignored_loose
  · rw [h1] at hl hl' ⊢
    have hl := (List.mem_append.mp hl).resolve_left not_ignored_loose
    have hl' := (List.mem_append.mp hl').resolve_left not_ignored_loose
    obtain ⟨m, o, hm, ho, e1⟩ := ignored_mem_log hl
    obtain ⟨m', o', hm', ho', e2⟩ := ignored_mem_log hl'
    rw [hm] at hm'; cases hm'
    rw [ho] at ho'; cases ho'
    refine ⟨e1.trans e2.symm, e1 ▸ nodup_ignored _, ?_, ?_⟩
    · rintro rfl
      unfold logValue at hl
      rw [hm] at hl
      dsimp only at hl
      unfold logCommon at hl
      rw [ho] at hl
      dsimp only at hl
      unfold DangerZone.warnIgnored at hl
      rw [← e1] at hl
      cases hl
    · have a : (warnLoose path (d.mode path)).length ≤ 1 := by
        unfold warnLoose; split
        · exact Nat.zero_le _
        · split
          · exact Nat.le_refl _
          · exact Nat.zero_le _
      have b : (logValue e root ks).length ≤ 1 := by
        unfold logValue; split
        · exact Nat.zero_le _
        · unfold logCommon; split
          · exact Nat.zero_le _
          · unfold DangerZone.warnIgnored; split
            · exact Nat.zero_le _
            · exact Nat.le_refl _
      rw [List.length_append]; omega

/-! ## The mode of the file -/

theorem and63 (m : Nat) : m &&& 63 ≠ 0 ↔ Loose m := by
  rw [show (63 : Nat) = 2 ^ 6 - 1 from rfl, Nat.and_two_pow_sub_one_eq_mod]
  constructor
  · intro h
    apply Classical.byContradiction
    intro hn
    apply h
    apply Nat.eq_of_testBit_eq
    intro i
    rw [Nat.testBit_mod_two_pow, Nat.zero_testBit]
    by_cases hi : i < 6
    · cases hb : m.testBit i with
      | false => simp
      | true => exact absurd ⟨i, hi, hb⟩ hn
    · simp [hi]
  · rintro ⟨i, hi, hb⟩ h0
    have : (m % 2 ^ 6).testBit i = true := by rw [Nat.testBit_mod_two_pow]; simp [hi, hb]
    rw [h0, Nat.zero_testBit] at this
    cases this

theorem ofOctal_octal4 (n : Nat) (h : n < 4096) : ofOctal (octal4 n) = n := by
  simp only [ofOctal, octal4, List.foldl]
  omega

theorem octal4_digits (n : Nat) : (octal4 n).length = 4 ∧ ∀ x ∈ octal4 n, x < 8 := by
  refine ⟨rfl, ?_⟩
  intro x hx
  simp only [octal4, List.mem_cons, List.not_mem_nil, or_false] at hx
  omega

/-- **C101.** Once the file could be read, there is a warning about its mode exactly if someone other than the owner has some access, even if
the file is refused; the warning tells the file and the twelve permission bits in four octal digits. Partial: about
the configuration file, not the files it includes (`C101_false_included`). -/
theorem C101_loose_partial {d : Disk} {e : Env} {path : List Char} {log : List Warning} {ok : Bool} (h : LoadedFrom d e path log ok) {o : Option Tbl}
    (hr : d.read path = some o) :
    ((∃ p l, Warning.loose p l ∈ log) ↔ ∃ m, d.mode path = some m ∧ Loose m) ∧
    ∀ p l, Warning.loose p l ∈ log → p = path ∧ l.length = 4 ∧ (∀ x ∈ l, x < 8) ∧ ∃ m, d.mode path = some m ∧ ofOctal l = m % 4096 := by
  have hnl : ∀ root ks p l, Warning.loose p l ∉ logValue e root ks := by
    intro root ks p l h
    unfold logValue at h
    split at h
    · cases h
    · unfold logCommon at h
      split at h
      · cases h
      · unfold DangerZone.warnIgnored at h
        split at h
        · cases h
        · rw [List.mem_singleton] at h; cases h
  have hlog : ∀ p l, Warning.loose p l ∈ log ↔ Warning.loose p l ∈ warnLoose path (d.mode path) := by
    intro p l
    rcases loadedFrom h with ⟨h0, _⟩ | ⟨_, h1, _⟩ | ⟨root, ks, _, h1, _⟩
    · rw [h0] at hr; cases hr
    · rw [h1]
    · rw [h1, List.mem_append]
      exact ⟨fun h => h.resolve_right (hnl _ _ _ _), Or.inl⟩
  have hw : ∀ p l, Warning.loose p l ∈ warnLoose path (d.mode path) ↔
      ∃ m, d.mode path = some m ∧ Loose m ∧ p = path ∧ l = octal4 (m &&& 4095) := by
    intro p l
    unfold warnLoose
    split
    · rename_i hn; simp [hn]
    · rename_i m hm
      by_cases hc : m &&& 63 ≠ 0
      · rw [if_pos hc, List.mem_singleton]
        constructor
        · intro h; cases h; exact ⟨m, hm, (and63 m).mp hc, rfl, rfl⟩
        · rintro ⟨m', h1, _, rfl, rfl⟩
          rw [hm] at h1; cases h1; rfl
      · rw [if_neg hc]
        constructor
        · intro h; cases h
        · rintro ⟨m', h1, h2, _⟩
          rw [hm] at h1; cases h1
          exact absurd ((and63 m).mpr h2) hc
  refine ⟨⟨?_, ?_⟩, ?_⟩
  · rintro ⟨p, l, h⟩
    obtain ⟨m, h1, h2, _⟩ := (hw p l).mp ((hlog p l).mp h)
    exact ⟨m, h1, h2⟩
  · rintro ⟨m, h1, h2⟩
    exact ⟨path, octal4 (m &&& 4095), (hlog _ _).mpr ((hw _ _).mpr ⟨m, h1, h2, rfl, rfl⟩)⟩
  · intro p l h
    obtain ⟨m, h1, _, rfl, rfl⟩ := (hw p l).mp ((hlog p l).mp h)
    refine ⟨rfl, (octal4_digits _).1, (octal4_digits _).2, m, h1, ?_⟩
    have hmod : m &&& 4095 = m % 4096 := by
      rw [show (4095 : Nat) = 2 ^ 12 - 1 from rfl, Nat.and_two_pow_sub_one_eq_mod]
    rw [hmod]
    exact ofOctal_octal4 _ (Nat.mod_lt _ (by decide))

theorem loadPath_ok {α : Type} (ks : List String) (load : Env → Tbl → Except CErr α) (d : Disk) (e : Env) (path : List Char) (c : α) :
    (loadPath ks load d e path).2 = .ok c ↔ ∃ root, d.read path = some (some root) ∧ load e root = .ok c := by
  unfold loadPath
  split
  · rename_i h; simp [h]
  · rename_i h; simp [h]
  · rename_i root h
    rw [h]
    dsimp only
    cases hc : load e root with
    | error x => simp [hc]
    | ok y => simp [hc]

/-- **C101.** Warnings refuse nothing: the file is accepted exactly if it can be read and its contents are accepted, whatever its mode. -/
theorem C101_only_warns (d : Disk) (e : Env) (path : List Char) :
    (∀ c, (Config.loadPath d e path).2 = .ok c ↔ ∃ root, d.read path = some (some root) ∧ Config.load e root = .ok c) ∧
    (∀ c, (TargetConfig.loadPath d e path).2 = .ok c ↔ ∃ root, d.read path = some (some root) ∧ TargetConfig.load e root = .ok c) ∧
    (∀ c, (ExportConfig.loadPath d e path).2 = .ok c ↔ ∃ root, d.read path = some (some root) ∧ ExportConfig.load e root = .ok c) ∧
    (∀ c, (ServerConfig.loadPath d e path).2 = .ok c ↔ ∃ root, d.read path = some (some root) ∧ ServerConfig.load e root = .ok c) :=
  ⟨loadPath_ok _ _ d e path, loadPath_ok _ _ d e path, loadPath_ok _ _ d e path, loadPath_ok _ _ d e path⟩

/-! ## Ignored switches have no effect -/

theorem loadDecoded_off {w : World} {dz : DangerZone} (h : dz.enabled = false) (s : SecretDef) : loadDecoded w dz s = loadDecoded w .off s := by
  have : loadSource w dz s.source s.encryptedBy.isSome = loadSource w .off s.source s.encryptedBy.isSome := by
    cases s.source with
    | file p => simp [loadSource, loadFile, h, DangerZone.off]
    | inline t => simp [loadSource, loadInline, h, DangerZone.off]
    | env v => simp [loadSource, loadEnv, h, DangerZone.off]
  unfold loadDecoded
  rw [this]

theorem maybeResolve_off {w : World} {dz : DangerZone} (h : dz.enabled = false) : maybeResolve w dz = maybeResolve w .off := by
  funext n s r
  unfold maybeResolve
  rw [loadDecoded_off h]

theorem pass_off {w : World} {dz : DangerZone} (h : dz.enabled = false) (l : List (String × SecretDef)) :
    ∀ r, pass w dz l r = pass w .off l r := by
  induction l with
  | nil => intro r; rfl
  | cons p l ih =>
    obtain ⟨n, s⟩ := p
    intro r
    unfold pass
    rw [maybeResolve_off h]
    split
    · rfl
    · exact ih _
    · rw [ih]

theorem resolveLoop_eq (w : World) (dz : DangerZone) (count : Nat) (l : List (String × SecretDef)) (r : List (String × Bytes)) :
    resolveLoop w dz count l r = if r.length < count then
      (match pass w dz l r with
        | .error e => .error e
        | .ok (r', rest) => if rest.length = l.length then .error .circular else resolveLoop w dz count rest r')
      else .ok r := by
  rw [resolveLoop]
  split
  · split
    · rename_i h; rw [h]
    · rename_i h; rw [h]
  · rfl

theorem resolveLoop_off {w : World} {dz : DangerZone} (h : dz.enabled = false) (count : Nat) (n : Nat) :
    ∀ (l : List (String × SecretDef)), l.length ≤ n → ∀ r, resolveLoop w dz count l r = resolveLoop w .off count l r := by
  induction n with
  | zero =>
    intro l hl r
    rw [resolveLoop_eq, resolveLoop_eq, pass_off h]
    cases hp : pass w .off l r with
    | error x => rfl
    | ok p =>
      obtain ⟨r', rest⟩ := p
      dsimp only
      have := pass_length hp
      rw [if_pos (show rest.length = l.length by omega), if_pos (show rest.length = l.length by omega)]
  | succ n ih =>
    intro l hl r
    rw [resolveLoop_eq, resolveLoop_eq, pass_off h]
    cases hp : pass w .off l r with
    | error x => rfl
    | ok p =>
      obtain ⟨r', rest⟩ := p
      dsimp only
      have := pass_length hp
      by_cases hc : rest.length = l.length
      · rw [if_pos hc, if_pos hc]
      · rw [if_neg hc, if_neg hc, ih rest (by omega) r']

theorem resolveSecrets_off {w : World} {dz : DangerZone} (h : dz.enabled = false) (defs : List (String × SecretDef)) :
    resolveSecrets w dz defs = resolveSecrets w .off defs := by
  unfold resolveSecrets
  rw [resolveLoop_off h _ _ defs (Nat.le_refl _)]

theorem boolAt_ok {t : Tbl} {k : String} (h : ∀ v, t.get k = some v → ∃ b, v = .atom (.bool b)) : ∃ b, boolAt t k = some b := by
  unfold boolAt
  cases hg : t.get k with
  | none => exact ⟨false, rfl⟩
  | some v => obtain ⟨b, rfl⟩ := h v hg; exact ⟨b, rfl⟩

theorem notEnabled {m : Tbl} (h : NotEnabled m) : ∃ o, optSection m "danger_zone" decodeDanger = .ok o ∧ (o.getD .off).enabled = false := by
  rcases h with h | ⟨t, ht, hall⟩
  · exact ⟨none, by unfold optSection; rw [h], rfl⟩
  · have hk : known t ["enabled", "allow_unencrypted_disk", "allow_inline_plaintext_secrets", "allow_secret_over_regular_file",
        "allow_unencrypted_connection", "allow_env_secrets"] = true := by
      unfold known
      rw [List.all_eq_true]
      intro k hk
      rw [get_keys] at hk
      cases hg : t.get k with
      | none => exact absurd hg hk
      | some v =>
        rcases hall k v hg with ⟨rfl, _⟩ | ⟨hs, _⟩
        · decide
        · simp only [switches, List.mem_cons, List.not_mem_nil, or_false] at hs
          rcases hs with rfl | rfl | rfl | rfl | rfl <;> decide
    have hb : ∀ k, ∃ b, boolAt t k = some b := fun k => boolAt_ok fun v hv => by
      rcases hall k v hv with ⟨_, rfl⟩ | ⟨_, hb⟩
      · exact ⟨false, rfl⟩
      · exact hb
    obtain ⟨a, ha⟩ := hb "enabled"
    obtain ⟨b, hb'⟩ := hb "allow_unencrypted_disk"
    obtain ⟨c, hc⟩ := hb "allow_inline_plaintext_secrets"
    obtain ⟨d, hd⟩ := hb "allow_secret_over_regular_file"
    obtain ⟨f, hf⟩ := hb "allow_unencrypted_connection"
    obtain ⟨g, hg⟩ := hb "allow_env_secrets"
    have ha0 : a = false := by
      cases a with
      | false => rfl
      | true =>
        rcases hall _ _ ((boolAt_true ha).mp rfl) with ⟨_, h⟩ | ⟨h, _⟩
        · cases h
        · exact absurd h (by decide)
    have hdec : decodeDanger t = some ⟨a, b, c, d, f, g⟩ := by
      unfold decodeDanger
      rw [hk, ha, hb', hc, hd, hf, hg]
      rfl
    refine ⟨some ⟨a, b, c, d, f, g⟩, ?_, ha0⟩
    unfold optSection
    rw [ht]
    dsimp only
    rw [hdec]

theorem known_alike {m m' : Tbl} (h : AlikeButDanger m m') {ks : List String} (hk : "danger_zone" ∈ ks) : known m ks = known m' ks := by
  have one : ∀ a b : Tbl, AlikeButDanger a b → known a ks = true → known b ks = true := by
    intro a b hab ha
    unfold known at ha ⊢
    rw [List.all_eq_true] at ha ⊢
    intro k hkb
    by_cases hd : k = "danger_zone"
    · subst hd; simpa using hk
    · refine ha k ?_
      rw [get_keys] at hkb ⊢
      rwa [hab k hd]
  cases h1 : known m ks with
  | true => exact (one m m' h h1).symm
  | false =>
    cases h2 : known m' ks with
    | false => rfl
    | true => rw [one m' m (fun k hk => (h k hk).symm) h2] at h1; cases h1

theorem optSection_alike {α : Type} {m m' : Tbl} (h : AlikeButDanger m m') {k : String} (hk : k ≠ "danger_zone") (dec : Tbl → Option α) :
    optSection m k dec = optSection m' k dec := by unfold optSection; rw [h k hk]

theorem reqSection_alike {α : Type} {m m' : Tbl} (h : AlikeButDanger m m') {k : String} (hk : k ≠ "danger_zone") (dec : Tbl → Option α) :
    reqSection m k dec = reqSection m' k dec := by unfold reqSection; rw [optSection_alike h hk]

/-- Both common parts fail alike, or yield the same secrets with a danger zone that is not enabled. -/
theorem common_alike {e : Env} {m m' : Tbl} (h : AlikeButDanger m m') (hn : NotEnabled m) (hn' : NotEnabled m') :
    (∃ x, loadCommon e m = .error x ∧ loadCommon e m' = .error x) ∨
    ∃ dz dz' s, loadCommon e m = .ok (dz, s) ∧ loadCommon e m' = .ok (dz', s) ∧ dz.enabled = false ∧ dz'.enabled = false := by
  obtain ⟨o, ho, he⟩ := notEnabled hn
  obtain ⟨o', ho', he'⟩ := notEnabled hn'
  unfold loadCommon
  rw [ho, ho', ← optSection_alike h (by decide)]
  dsimp only
  cases optSection m "secrets" (decodeSecrets e.world.utf8) with
  | error x => exact Or.inl ⟨x, rfl, rfl⟩
  | ok defs =>
    dsimp only
    rw [resolveSecrets_off he, resolveSecrets_off he']
    cases resolveSecrets e.world .off ((defs.getD []).map fun p => (p.1, p.2.resolve e.dir)) with
    | error x => exact Or.inl ⟨_, rfl, rfl⟩
    | ok s => exact Or.inr ⟨_, _, s, rfl, rfl, he, he'⟩

theorem remote_off {r : Remote} {dz dz' : DangerZone} {s : List (String × Bytes)} (h : dz.enabled = false) (h' : dz'.enabled = false) :
    r.validate dz s = r.validate dz' s := by unfold Remote.validate; rw [h, h', Bool.false_and, Bool.false_and]

theorem sourceOk_off {o : Option StripeSource} {dz dz' : DangerZone} {s : List (String × Bytes)} (h : dz.enabled = false) (h' : dz'.enabled = false) :
    sourceOk o dz s = sourceOk o dz' s := by
  cases o with
  | none => rfl
  | some x =>
    cases x with
    | raw a b c => rfl
    | archive a => rfl
    | remote r => exact remote_off h h'

theorem checkEncryption_off {o : Option String} {dz dz' : DangerZone} {s : List (String × Bytes)} (h : dz.enabled = false) (h' : dz'.enabled = false) :
    checkEncryption o dz s = checkEncryption o dz' s := by
  cases o with
  | none => unfold checkEncryption; rw [h, h', Bool.false_and, Bool.false_and]
  | some x => rfl

theorem loadMerged_alike {e : Env} {root root' m m' : Tbl} (hm : resolveIncludes e.ws e.files e.dir root = .ok m)
    (hm' : resolveIncludes e.ws e.files e.dir root' = .ok m') (h : AlikeButDanger m m') {ks : List String} (hk : "danger_zone" ∈ ks) :
    (loadMerged e root ks = .error .unknownKey ∧ loadMerged e root' ks = .error .unknownKey) ∨
    (loadMerged e root ks = .ok m ∧ loadMerged e root' ks = .ok m') := by
  unfold loadMerged
  rw [hm, hm']
  dsimp only
  rw [known_alike h hk]
  cases known m' ks with
  | true => exact Or.inr ⟨rfl, rfl⟩
  | false => exact Or.inl ⟨rfl, rfl⟩

/-- **C101.** The switches of a danger zone that is not enabled change nothing: two configurations that differ in them alone, or of which one has
no danger zone, are both refused for the same reason, or both accepted with the same settings and secrets. -/
theorem C101_no_effect {e : Env} {root root' m m' : Tbl} (hm : resolveIncludes e.ws e.files e.dir root = .ok m)
    (hm' : resolveIncludes e.ws e.files e.dir root' = .ok m') (h : AlikeButDanger m m') (hn : NotEnabled m) (hn' : NotEnabled m') :
    (Config.load e root).map (fun c => (c.device, c.tuning, c.encryption, c.source, c.secrets)) =
      (Config.load e root').map (fun c => (c.device, c.tuning, c.encryption, c.source, c.secrets)) ∧
    (TargetConfig.load e root).map (fun c => (c.target, c.secrets)) = (TargetConfig.load e root').map (fun c => (c.target, c.secrets)) ∧
    (ExportConfig.load e root).map (fun c => (c.archive, c.secrets)) = (ExportConfig.load e root').map (fun c => (c.archive, c.secrets)) ∧
    (ServerConfig.load e root).map (fun c => (c.server, c.secrets)) = (ServerConfig.load e root').map (fun c => (c.server, c.secrets)) := by
  refine ⟨?_, ?_, ?_, ?_⟩
  · unfold Config.load
    rcases loadMerged_alike hm hm' h (ks := ["device", "tuning", "encryption", "danger_zone", "stripe_source", "secrets"]) (by decide) with
      ⟨h1, h2⟩ | ⟨h1, h2⟩
    · rw [h1, h2]
    · rw [h1, h2]
      rcases common_alike (e := e) h hn hn' with ⟨x, h3, h4⟩ | ⟨dz, dz', s, h3, h4, h5, h6⟩
      · simp only [bind, Except.bind, h3, h4]
      · simp only [bind, Except.bind, h3, h4]
        rw [← reqSection_alike h (by decide), ← optSection_alike h (by decide), ← optSection_alike h (by decide), ← optSection_alike h (by decide)]
        cases reqSection m "device" decodeDevice with
        | error x => rfl
        | ok dev =>
          cases optSection m "tuning" decodeTuning with
          | error x => rfl
          | ok tun =>
            dsimp only
            split
            · rfl
            · cases optSection m "encryption" decodeEncryption with
              | error x => rfl
              | ok enc =>
                cases optSection m "stripe_source" decodeSource with
                | error x => rfl
                | ok src =>
                  dsimp only
                  rw [sourceOk_off h5 h6]
                  split
                  · rfl
                  · rw [checkEncryption_off h5 h6]
                    cases checkEncryption enc dz' s with
                    | error x => rfl
                    | ok u => rfl
  · unfold TargetConfig.load
    rcases loadMerged_alike hm hm' h (ks := ["target", "danger_zone", "secrets"]) (by decide) with ⟨h1, h2⟩ | ⟨h1, h2⟩
    · rw [h1, h2]
    · rw [h1, h2]
      rcases common_alike (e := e) h hn hn' with ⟨x, h3, h4⟩ | ⟨dz, dz', s, h3, h4, h5, h6⟩
      · simp only [bind, Except.bind, h3, h4]
      · simp only [bind, Except.bind, h3, h4]
        rw [← reqSection_alike h (by decide)]
        cases reqSection m "target" decodeStorage with
        | error x => rfl
        | ok t => dsimp only; split <;> rfl
  · unfold ExportConfig.load
    rcases loadMerged_alike hm hm' h (ks := ["archive", "danger_zone", "secrets"]) (by decide) with ⟨h1, h2⟩ | ⟨h1, h2⟩
    · rw [h1, h2]
    · rw [h1, h2]
      rcases common_alike (e := e) h hn hn' with ⟨x, h3, h4⟩ | ⟨dz, dz', s, h3, h4, h5, h6⟩
      · simp only [bind, Except.bind, h3, h4]
      · simp only [bind, Except.bind, h3, h4]
        rw [← reqSection_alike h (by decide)]
        cases reqSection m "archive" decodeStorage with
        | error x => rfl
        | ok t => dsimp only; split <;> rfl
  · unfold ServerConfig.load
    rcases loadMerged_alike hm hm' h (ks := ["server", "danger_zone", "secrets"]) (by decide) with ⟨h1, h2⟩ | ⟨h1, h2⟩
    · rw [h1, h2]
    · rw [h1, h2]
      rcases common_alike (e := e) h hn hn' with ⟨x, h3, h4⟩ | ⟨dz, dz', s, h3, h4, h5, h6⟩
      · simp only [bind, Except.bind, h3, h4]
      · simp only [bind, Except.bind, h3, h4]
        rw [← reqSection_alike h (by decide)]
        cases reqSection m "server" decodeRemote with
        | error x => rfl
        | ok t => dsimp only; rw [remote_off h5 h6]; split <;> rfl

/-! ## Examples -/

/-- The demo configuration of C44 with a switch that is ignored, in a file that others may read. -/
def demoIgnored : Tbl := .sub "danger_zone" (.leaf "allow_env_secrets" (.bool true) .nil) demoConf

def demoDisk : Disk := ⟨fun p => if p = "/etc/c.toml".toList then some (some demoIgnored) else none,
  fun p => if p = "/etc/c.toml".toList then some 0o100640 else some 0o100644⟩

example : (Config.loadPath demoDisk demoEnv "/etc/c.toml".toList).1 =
      [.loose "/etc/c.toml".toList [0, 6, 4, 0], .ignored ["allow_env_secrets"]] ∧
    (Config.loadPath demoDisk demoEnv "/etc/c.toml".toList).2.toBool = true := ⟨by decide +kernel, by decide +kernel⟩

/-- C101: it is accepted with the same settings when the switch is left out. -/
example : ∃ m m', resolveIncludes demoEnv.ws demoEnv.files demoEnv.dir demoIgnored = .ok m ∧
    resolveIncludes demoEnv.ws demoEnv.files demoEnv.dir demoConf = .ok m' ∧ AlikeButDanger m m' ∧ NotEnabled m ∧ NotEnabled m' := by
  refine ⟨.sub "danger_zone" (.leaf "allow_env_secrets" (.bool true) .nil) _, _, rfl, rfl, ?_,
    Or.inr ⟨.leaf "allow_env_secrets" (.bool true) .nil, rfl, ?_⟩, Or.inl rfl⟩
  · intro k hk
    simp [Tbl.get, hk]
  · intro k v hv
    simp only [Tbl.get] at hv
    split at hv
    · cases hv; rename_i h; subst h; exact Or.inr ⟨by decide, true, rfl⟩
    · cases hv

/-- **C101.** Not every file of a configuration is looked at: the configuration includes a file that everyone may read, is accepted, and there is
no warning. -/
theorem C101_false_included : ∃ (d : Disk) (e : Env) (path inc : List Char) (t : Tbl) (m : Nat), (∃ root, d.read path = some (some root) ∧ Docs e root ∧
      ∃ l, includeList root = some l ∧ t ∈ listedDocs e.files e.dir l) ∧ e.files inc = .ok t ∧ d.mode inc = some m ∧ Loose m ∧
      (Config.loadPath d e path).1 = [] ∧ (Config.loadPath d e path).2.toBool = true := by
  refine ⟨⟨fun p => if p = "/etc/u/c.toml".toList then some (some demoConf) else none,
      fun p => if p = "/etc/u/c.toml".toList then some 0o100600 else some 0o100644⟩, demoEnv, "/etc/u/c.toml".toList, "/etc/u/enc.toml".toList,
    .sub "encryption" (.sub "xts_key" (.leaf "ref" (.str "k") .nil) .nil) .nil, 0o100644,
    ⟨demoConf, by simp, demo_docs, ["enc.toml".toList], rfl, ?_⟩, rfl, rfl, ⟨2, by decide, by decide⟩, by decide +kernel, by decide +kernel⟩
  refine List.mem_filterMap.mpr ⟨_, List.mem_singleton.mpr rfl, ?_⟩
  rw [show join demoEnv.dir (entryPath "enc.toml".toList) = "/etc/u/enc.toml".toList from by decide +kernel]
  rfl

end Verif.Config
