import Verif.Model.LiveArchive
import Verif.Model.Util

/-! # Model of dumping the metadata of a volume in use

`dump-metadata` opens the metadata file read-only, loads it as the archive tool does and prints three lists of stripes
(/repo/src/bin/dump-metadata.rs:111-169). Nothing locks the file or asks whether a backend is running on it. Its steps are therefore the
steps `sector` and `load` of `LiveArchive.Tool.Step`, beside a backend that goes on serving its guest (`LiveArchive.Beside`).

Not modelled here: the lines about sizes, source and version (dump-metadata.rs:156-163). -/

namespace Verif.LiveDump
open Verif Verif.Metadata

variable {D : Type}

/-- The lists the tool prints once its metadata are loaded, nothing before (dump-metadata.rs:127-154, 164-166): fetched, written and
has-source stripes. -/
def printed (t : LiveArchive.Tool D) : Option (List Char × List Char × List Char) := t.md.map fun m => Tools.dumpLists m.headers

end Verif.LiveDump
