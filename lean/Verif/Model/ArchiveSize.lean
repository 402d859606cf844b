import Verif.Model.Archive
import Verif.Model.Shell

/-! # The sizes the archive command reports

Models `physical_size_bytes` of the archiver (/repo/src/archive/archiver.rs:36, 229-232, 285-313), left out of
`Model/Archive`, and the end of `run` in /repo/src/bin/archive.rs with its statistics file. -/

namespace Verif.Archive
open Verif

/-- What a step of the archiver adds to `physical_size_bytes`: a data object when its put is started
(archiver.rs:216-232), metadata.json (298-300) and stripe-mapping (309-311) when their puts have succeeded. -/
def added (c : Cfg) (s : St) : Lab → Nat
  | .fetched id true buf =>
    match makeObject c id buf with
    | .ok (some o) => if objectKey (c.P.sha o) ∈ s.seen then 0 else o.length
    | _ => 0
  | .uploaded _ true =>
    match s.phase with
    | .metaPut => match archiveMeta c with | .ok m => (c.P.encMeta m).length | .error _ => 0
    | .mapPut => match serializeMapping c.P (entries c.count s.hashes) c.hkey c.keys with | .ok b => b.length | .error _ => 0
    | _ => 0
  | _ => 0

/-- Runs of the archiver with the value of `physical_size_bytes` (archiver.rs:81, 231, 298, 309), a saturating sum. -/
inductive SRun (c : Cfg) (s0 : St) : List Lab → St → Nat → Prop where
  | nil : SRun c s0 [] s0 0
  | snoc {s s' : St} {p : Nat} {ls : List Lab} {l : Lab} : SRun c s0 ls s p → Step c s l s' →
      SRun c s0 (ls ++ [l]) s' (Shell.satAdd p (added c s l))

/-- `ArchiveStats` (bin/archive.rs:73-77). -/
structure Stats where
  physical : Nat
  logical : Nat
deriving DecidableEq

/-- The rest of `run` after `archive_all` (bin/archive.rs:131-149), on a device of `sectors` sectors: whether the command
succeeds and the statistics it has written. `stats` is `none` without `--stats`, otherwise whether the file can be
written. -/
def command (s : St) (p sectors : Nat) (stats : Option Bool) : Bool × Option Stats :=
  if s.phase = .done then
    match stats with
    | none => (true, none)
    | some true => (true, some { physical := p, logical := min (sectors * 512) (2 ^ 64 - 1) })
    | some false => (false, none)
  else (false, none)

end Verif.Archive
