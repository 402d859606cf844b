import Verif.Spec.Wake
import Verif.Model.Sessions

/-! # A driver that outlives the connection

The virtual machine goes on while its connection to the backend is lost and made anew. The driver does not notice: its rings stay as
they are. -/

namespace Verif.Wake
open Verif

/-- Everything that can happen on a queue over any number of sessions. A session ends when its worker waits for events. -/
inductive SRun (eventIdx : Bool) (size : Nat) (kind : Nat → Kind) : Sys → Prop where
  | init : SRun eventIdx size kind Sys.init
  | worker {s s' : Sys} {idle : Bool} : SRun eventIdx size kind s → WStep eventIdx kind s idle s' → SRun eventIdx size kind s'
  | driver {s s' : Sys} : SRun eventIdx size kind s → DStep eventIdx size s s' → SRun eventIdx size kind s'
  | client {s : Sys} (fromUsed k : Bool) : SRun eventIdx size kind s → s.pc = .wait → SRun eventIdx size kind (s.nextClient fromUsed k)

end Verif.Wake
