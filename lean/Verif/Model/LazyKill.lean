import Verif.Model.Lazy
import Verif.Spec.DiskKill

/-! # The backend process dies and is started again

The machine stays up, so both devices keep what is in the page cache, and keep the possibility of losing it in a
later power loss. Nothing in start-up flushes either device (`build_with_bgworker`, backends/common/mod.rs:135-183;
`UbiMetadata::load_from_bdev`, metadata/load.rs; the devices are opened without O_SYNC unless `write_through` is
set). Requests that were in flight at the devices stop where they are: the kernel waits for or cancels them before
the process is gone, and a new process is only started then. -/

namespace Verif.Lazy
open Verif Verif.Metadata Verif.Disk

/-- State after the restart: what `Sys.boot` builds (backends/common/mod.rs:53-183) from the current contents, over
the same two devices. -/
def Sys.restart {D} (c : Cfg D) (hdrs : Bytes) (s : Sys D) (buf0 : Nat → Nat → D) : Sys D :=
  { Sys.boot c hdrs s.t.vol s.m.vol buf0 with
    t := { s.t with ops := fun _ => none }
    m := { s.m with ops := fun _ => none } }

/-- Runs with power losses and deaths of the backend process; `none` is a death. The metadata are read from the
metadata device as it is now. (`load_from_bdev`, metadata/load.rs:11-33). -/
inductive KRun {D : Type} (c : Cfg D) : Sys D → List (Option (Ev D)) → Sys D → Prop where
  | nil (s : Sys D) : KRun c s [] s
  | step {s s' s'' : Sys D} {es : List (Option (Ev D))} {ls : List (Lab D)} {a : Act D} :
      KRun c s es s' → Step c s' a ls s'' → KRun c s (es ++ (visible ls).map some) s''
  | crash {s s' : Sys D} {es : List (Option (Ev D))} {tv : Nat → D} {mv : Nat → Bytes} {meta' : Meta}
      (buf0 : Nat → Nat → D) :
      KRun c s es s' → s'.t.survives tv → s'.m.survives mv →
      fromBytes (devBytes c.msec mv) = .ok meta' →
      KRun c s (es ++ [some .crash]) (Sys.boot c meta'.headers tv mv buf0)
  | kill {s s' : Sys D} {es : List (Option (Ev D))} {meta' : Meta} (buf0 : Nat → Nat → D) :
      KRun c s es s' → fromBytes (devBytes c.msec s'.m.vol) = .ok meta' →
      KRun c s (es ++ [none]) (s'.restart c meta'.headers buf0)

/-- The metadata device has nothing in its cache that a power loss could take back. No counterpart in the code. -/
def Sys.metaClean {D} (s : Sys D) : Prop := ∀ x v, s.m.pers x v → v = s.m.vol x

/-- This step is the successful completion of a flush of the metadata device (metadata_flusher.rs:120-178). -/
def metaFlush {D} (s : Sys D) : Act D → Prop
  | .metaDone k ok _ => ok = true ∧ ∃ snap, s.m.ops k = some (.flush snap)
  | _ => False

/-- Runs in which no power loss falls between a death of the backend with unflushed metadata and the next flush of the
metadata device. The last index says whether we are in such a window. (Steps and restarts as in `KRun`.) -/
inductive SafeRun {D : Type} (c : Cfg D) : Sys D → List (Option (Ev D)) → Sys D → Bool → Prop where
  | nil (s : Sys D) : SafeRun c s [] s false
  | step {s s' s'' : Sys D} {es : List (Option (Ev D))} {ls : List (Lab D)} {a : Act D} {d : Bool} :
      SafeRun c s es s' d → Step c s' a ls s'' → SafeRun c s (es ++ (visible ls).map some) s'' d
  | flush {s s' s'' : Sys D} {es : List (Option (Ev D))} {ls : List (Lab D)} {a : Act D} {d : Bool} :
      SafeRun c s es s' d → Step c s' a ls s'' → metaFlush s' a →
      SafeRun c s (es ++ (visible ls).map some) s'' false
  | crash {s s' : Sys D} {es : List (Option (Ev D))} {tv : Nat → D} {mv : Nat → Bytes} {meta' : Meta}
      (buf0 : Nat → Nat → D) :
      SafeRun c s es s' false → s'.t.survives tv → s'.m.survives mv →
      fromBytes (devBytes c.msec mv) = .ok meta' →
      SafeRun c s (es ++ [some .crash]) (Sys.boot c meta'.headers tv mv buf0) false
  | kill {s s' : Sys D} {es : List (Option (Ev D))} {meta' : Meta} {d : Bool} (buf0 : Nat → Nat → D) :
      SafeRun c s es s' d → fromBytes (devBytes c.msec s'.m.vol) = .ok meta' →
      SafeRun c s (es ++ [none]) (s'.restart c meta'.headers buf0) true
  | cleanKill {s s' : Sys D} {es : List (Option (Ev D))} {meta' : Meta} {d : Bool} (buf0 : Nat → Nat → D) :
      SafeRun c s es s' d → fromBytes (devBytes c.msec s'.m.vol) = .ok meta' → s'.metaClean →
      SafeRun c s (es ++ [none]) (s'.restart c meta'.headers buf0) false

end Verif.Lazy
