import Verif.Model.Names

/-! # What C75 speaks about -/

namespace Verif.Names
open Verif

/-- No other backend uses `p` as its socket, its link or a directory above its link. -/
def Alone (cfg : Nat → Conf) (i : Nat) (p : Path) : Prop :=
  ∀ j, j ≠ i → (cfg j).rpc ≠ some p ∧ ∀ l, (cfg j).link = some l → ¬ p <+: l

/-- No other program acts on `p`. -/
def Untouched (es : List Ev) (p : Path) : Prop := ∀ e, Ev.user p e ∉ es

/-- A mode that gives nothing to others and nobody the right to execute. -/
def Tight (mode : Nat) : Prop := mode ||| 0o660 = 0o660

/-- The backend is past starting its RPC server and has not ended. -/
def Inst.running (x : Inst) : Prop := match x.pc with
  | .rmSock | .umask | .bind | .restore _ | .chmod | .gone | .failed => False
  | _ => True

end Verif.Names
