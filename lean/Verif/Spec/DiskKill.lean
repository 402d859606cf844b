import Verif.Spec.Disk

/-! # Specification: a plain disk whose server is killed and started again

Power stays on, so neither the contents nor the set of contents that may survive a later power loss change;
the requests in flight are never answered. -/

namespace Verif.Disk

variable {D : Type}

/-- The server of the disk dies and is started again. -/
def Disk.kill (d : Disk D) : Disk D := { d with ops := fun _ => none }

/-- Runs of the plain disk with power losses (an event of `Disk.Step`) and deaths of the server (`none`). -/
inductive Disk.KRun : Disk D → List (Option (Ev D)) → Disk D → Prop where
  | nil (d : Disk D) : Disk.KRun d [] d
  | snoc {d d' d'' : Disk D} {es : List (Option (Ev D))} {es' : List (Ev D)} :
      Disk.KRun d es d' → Disk.Step d' es' d'' → Disk.KRun d (es ++ es'.map some) d''
  | kill {d d' : Disk D} {es : List (Option (Ev D))} :
      Disk.KRun d es d' → Disk.KRun d (es ++ [none]) (Disk.kill d')

end Verif.Disk
