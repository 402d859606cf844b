import Verif.Proof.LazyAck
import Verif.Proof.LazyDemo
import Verif.Props.LazySafety

/-! # C08: an acknowledged write is in a stripe marked written -/

namespace Verif.Lazy
open Verif Verif.Metadata Verif.Disk

variable {D : Type} {c : Cfg D} {hdrs : Bytes} {tv : Nat → D} {mv : Nat → Bytes} {b0 : Nat → Nat → D} {s : Sys D} {ls : List (Lab D)}

/-- **C08**, by what the guest sees: once a write has been acknowledged, its stripes are marked written in every outcome of a power loss,
then and ever after. The write is `(q, w)`; nothing answered it between its issue and the response. -/
theorem C08_acknowledged_is_marked (ht : c.track = true) (hb : Bootable c hdrs mv) (h : Run c (Sys.boot c hdrs tv mv b0) ls s)
    {e0 e1 e2 : List (Ev D)} {q w off cnt x : Nat} {data : Nat → D} {o : List (Option D)}
    (hv : visible ls = (e0 ++ Ev.issue q w (.write off cnt data) :: e1 ++ [Ev.resp q w true o]) ++ e2)
    (ho : unanswered (q, w) e1) (hx : covers off cnt x) : FlagDurable c s (x / c.ss) WRITTEN :=
  let ⟨h1, h2⟩ := acked_marked ht hb h hv ho hx
  written_durable ((Sound.boot (tv := tv) (b0 := b0) hb).run h) h2 h1

/-- In the demo run a write of sector 1 is acknowledged, then a flush; a power loss follows and a read after it. -/
example : ∃ mv s ls, Bootable demoCfg [4, 0] mv ∧ demoCfg.track = true ∧ Run demoCfg (demoBoot mv) ls s ∧
    visible ls = ([] ++ Ev.issue 0 7 (.write 1 1 fun _ => 55) :: [] ++ [.resp 0 7 true []]) ++
      [.issue 0 8 .flush, .resp 0 8 true [], .crash, .issue 0 9 (.read 0 2), .resp 0 9 true [some 100, some 55]] ∧
    covers 1 1 1 ∧ FlagDurable demoCfg s 0 WRITTEN := by
  obtain ⟨mv, hb⟩ := demo_bootable
  obtain ⟨s, ls, hr, hv⟩ := demo_crash hb
  exact ⟨mv, s, ls, hb, rfl, hr, hv, ⟨Nat.le_refl _, by decide⟩,
    C08_acknowledged_is_marked rfl hb hr (e0 := []) (e1 := []) hv (unanswered_nil _) (x := 1) ⟨Nat.le_refl _, by decide⟩⟩

end Verif.Lazy
