import Verif.Model.LiveArchive
import Verif.Spec.Disk

/-! # Specification: what an archive of a volume in use should hold -/

namespace Verif.LiveArchive
open Verif Verif.Disk

variable {D : Type}

/-- Started with one of the contents `init g`, a plain disk that sees the events `es0` and then `es` could hold `v` in sector `x` at
some moment during `es`. -/
def Held (init : (Nat → D) → Nat → D) (es0 es : List (Ev D)) (x : Nat) (v : D) : Prop :=
  ∃ g es1 es2 d, es = es1 ++ es2 ∧ Disk.Run (Dev.fresh (init g)) (es0 ++ es1) d ∧ d.vol x = v

/-- The whole of `out`, as far as given, could be the content of the disk at one moment during `es`, or what a power loss at that moment
leaves. -/
def Snapshot (init : (Nat → D) → Nat → D) (es0 es : List (Ev D)) (out : Nat → Option D) : Prop :=
  ∃ g es1 es2 d w, es = es1 ++ es2 ∧ Disk.Run (Dev.fresh (init g)) (es0 ++ es1) d ∧ (w = d.vol ∨ d.survives w) ∧
    ∀ x v, out x = some v → w x = v

end Verif.LiveArchive
