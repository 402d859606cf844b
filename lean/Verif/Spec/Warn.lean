import Verif.Spec.Load
import Verif.Model.Warn

/-! # Warnings of loading, in words

Specification vocabulary for C101. -/

namespace Verif.Config
open Verif

/-- The switches that weaken a check. -/
def switches : List String :=
  ["allow_unencrypted_disk", "allow_inline_plaintext_secrets", "allow_secret_over_regular_file", "allow_unencrypted_connection",
    "allow_env_secrets"]

/-- One of the four kinds of configuration was loaded from the file `path`, with these warnings; `ok` tells whether it was accepted. -/
def LoadedFrom (d : Disk) (e : Env) (path : List Char) (log : List Warning) (ok : Bool) : Prop :=
  (∃ r, Config.loadPath d e path = (log, r) ∧ r.toBool = ok) ∨ (∃ r, TargetConfig.loadPath d e path = (log, r) ∧ r.toBool = ok) ∨
  (∃ r, ExportConfig.loadPath d e path = (log, r) ∧ r.toBool = ok) ∨ (∃ r, ServerConfig.loadPath d e path = (log, r) ∧ r.toBool = ok)

/-- Some warning names the switch as ignored. -/
def NamesIgnored (log : List Warning) (flag : String) : Prop := ∃ l, Warning.ignored l ∈ log ∧ flag ∈ l

/-- Someone other than the owner may read, write or run a file of this mode: one of the six lowest bits is set. -/
def Loose (mode : Nat) : Prop := ∃ i, i < 6 ∧ mode.testBit i = true

/-- The number that digits to base eight stand for. -/
def ofOctal (l : List Nat) : Nat := l.foldl (fun n d => 8 * n + d) 0

/-- The danger zone of a document is not enabled: there is none, or it has nothing but switches, and `enabled` is not true. -/
def NotEnabled (m : Tbl) : Prop :=
  m.get "danger_zone" = none ∨
  ∃ t, m.get "danger_zone" = some (.table t) ∧
    ∀ k v, t.get k = some v → (k = "enabled" ∧ v = .atom (.bool false)) ∨ (k ∈ switches ∧ ∃ b, v = .atom (.bool b))

/-- Two documents that differ at most in the danger zone. -/
def AlikeButDanger (m m' : Tbl) : Prop := ∀ k, k ≠ "danger_zone" → m.get k = m'.get k

end Verif.Config
