import Verif.Model.LazyKill

/-! # Settings changed between two starts of the backend

The configuration file is read once, when the backend starts (/repo/src/backends/common/mod.rs:53-183); a user may edit
it before the next start. The metadata device records the stripe size, the number of stripes and, per stripe, whether
the source holds it (`UbiMetadata`, metadata/types.rs); the rest comes from the configuration of the day: where the
stripes are fetched from, `autofetch`, `copy_on_read` and `track_written`. Nothing in the code compares it with the
configuration of the last run. -/

namespace Verif.Lazy
open Verif Verif.Metadata Verif.Disk

/-- `c'` is a configuration for the same volume as `c`. The data and metadata devices, the encryption key and so the
stripes and their flags are the same, and whatever the new source holds has the contents of the old one (it may be
of another kind, and hold fewer stripes: `srcHas`, `srcStripes`). Everything else is free. A volume started
without its source has `srcHas = fun _ => false` and `image = false` (`StripeSourceBuilder::build`,
stripe_source/builder.rs:43-89, then takes an empty device; `build_raw_image_device` gives no image,
backends/common/mod.rs:203-211): no step looks at `src` then. `srcStripes`: start-up refuses a source with more
stripes than the metadata (stripe_fetcher.rs:67-74). -/
structure SameVolume {D} (c c' : Cfg D) : Prop where
  ss : c'.ss = c.ss
  n : c'.n = c.n
  tsec : c'.tsec = c.tsec
  msec : c'.msec = c.msec
  hs : c'.hs = c.hs
  src : c'.src = c.src
  enc : c'.enc = c.enc
  srcStripes : c'.srcStripes ≤ c'.n

/-- The volume is started without its source (stripe_source/builder.rs:82-88, block_device/bdev_null.rs: an empty
device; backends/common/mod.rs:203-211: no image). -/
def Cfg.detached {D} (c : Cfg D) : Prop := (∀ k, c.srcHas k = false) ∧ c.image = false

/-- Runs of the backend on a volume, with power losses and deaths of the process (`none`), in which every start after
the first may use another configuration `c'` for the same volume that satisfies `ok`. As in `SafeRun` (Model/LazyKill)
the last index says whether we are between a death of the process with unflushed metadata and the next flush of the
metadata device, where no power loss may fall. Starts: backends/common/mod.rs:53-183. -/
inductive ConfRun {D : Type} (ok : Cfg D → Prop) (c0 : Cfg D) (s0 : Sys D) :
    List (Option (Ev D)) → Cfg D → Sys D → Bool → Prop where
  | nil : ok c0 → ConfRun ok c0 s0 [] c0 s0 false
  | step {c : Cfg D} {s s' : Sys D} {es : List (Option (Ev D))} {ls : List (Lab D)} {a : Act D} {d : Bool} :
      ConfRun ok c0 s0 es c s d → Step c s a ls s' → ConfRun ok c0 s0 (es ++ (visible ls).map some) c s' d
  | flush {c : Cfg D} {s s' : Sys D} {es : List (Option (Ev D))} {ls : List (Lab D)} {a : Act D} {d : Bool} :
      ConfRun ok c0 s0 es c s d → Step c s a ls s' → metaFlush s a →
      ConfRun ok c0 s0 (es ++ (visible ls).map some) c s' false
  | crash {c c' : Cfg D} {s : Sys D} {es : List (Option (Ev D))} {tv : Nat → D} {mv : Nat → Bytes} {meta' : Meta}
      (buf0 : Nat → Nat → D) :
      ConfRun ok c0 s0 es c s false → SameVolume c c' → ok c' → s.t.survives tv → s.m.survives mv →
      fromBytes (devBytes c'.msec mv) = .ok meta' →
      ConfRun ok c0 s0 (es ++ [some .crash]) c' (Sys.boot c' meta'.headers tv mv buf0) false
  | kill {c c' : Cfg D} {s : Sys D} {es : List (Option (Ev D))} {meta' : Meta} {d : Bool} (buf0 : Nat → Nat → D) :
      ConfRun ok c0 s0 es c s d → SameVolume c c' → ok c' → fromBytes (devBytes c'.msec s.m.vol) = .ok meta' →
      ConfRun ok c0 s0 (es ++ [none]) c' (s.restart c' meta'.headers buf0) true
  | cleanKill {c c' : Cfg D} {s : Sys D} {es : List (Option (Ev D))} {meta' : Meta} {d : Bool} (buf0 : Nat → Nat → D) :
      ConfRun ok c0 s0 es c s d → SameVolume c c' → ok c' → fromBytes (devBytes c'.msec s.m.vol) = .ok meta' →
      s.metaClean → ConfRun ok c0 s0 (es ++ [none]) c' (s.restart c' meta'.headers buf0) false

end Verif.Lazy
