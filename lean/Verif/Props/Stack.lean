import Verif.Proof.Recode
import Verif.Props.Lazy
import Verif.Props.Uring
import Verif.Props.WriteThrough

/-! # C65: the layers of a volume, put together

The lazily fetched disk (Model/Stack, over the code of Model/Lazy) exchanges events with two devices. Each of them is one of the two
engines, with or without the encrypting channel on top (backends/common/mod.rs:486-519). -/

set_option maxRecDepth 8000

namespace Verif.Stack
open Verif Verif.Metadata Verif.Disk Verif.Crypt Verif.Lazy

/-- Histories of an engine on a file with contents `v` (`create_io_engine_device`), as its users see them: io_uring without
write-through, the synchronous engine with and without. -/
inductive Engine {D : Type} (v : Nat → D) : List (Ev D) → Prop where
  | uring (cap : Nat) (as : List (Uring.Act D)) (s : Uring.Sys D) (h : Uring.Run cap false true v as s) : Engine v (as.flatMap Uring.Act.view)
  | sync (as : List (SyncIo.Act D)) (s : SyncIo.Sys D) (h : SyncIo.Run v as s) : Engine v (as.flatMap SyncIo.Act.view)
  | through (as : List (SyncIo.Act D)) (s : SyncIo.Sys D) (h : WriteThrough.SyncRun v as s) : Engine v (as.flatMap SyncIo.Act.view)

/-- Histories of a device of a volume as `build_block_device` makes it (backends/common/mod.rs:486-519). `v` is what its users
would read at the start: the file, or the file decrypted. -/
inductive Device (p : Xts) (hp : p.Lawful) (k : Keys) (v : Nat → Bytes) : List (Ev Bytes) → Prop where
  | clear {es : List (Ev Bytes)} (h : Engine v es) : Device p hp k v es
  | encrypted {es : List (Ev Bytes)} {ws : List (Ev Sector)} {rd : Nat × Nat → Option (Nat × Nat)} (w : Nat → Sector)
      (hw : ∀ x, v x = (decS hp k x (w x)).1) (hc : CryptRun p k es ws rd) (h : Engine w ws) : Device p hp k v es

theorem Engine.refines {D : Type} {v : Nat → D} {es : List (Ev D)} (h : Engine v es) : ∃ d, Disk.Run (Dev.fresh v) es d := by
  cases h with
  | uring cap as s h => exact Uring.C63_uring h
  | sync as s h => exact SyncIo.C63_sync h
  | through as s h =>
    obtain ⟨p, hp⟩ := WriteThrough.C105_sync_plain h
    exact SyncIo.C63_sync hp

variable {p : Xts} {hp : p.Lawful} {k : Keys} {c : Cfg Bytes} {hdrs : Bytes} {tv : Nat → Bytes} {mv : Nat → Bytes}

theorem Device.refines {v : Nat → Bytes} {es : List (Ev Bytes)} (h : Device p hp k v es) : ∃ d, Disk.Run (Dev.fresh v) es d := by
  cases h with
  | clear h => exact h.refines
  | encrypted w hw hc h =>
    obtain ⟨d, hd⟩ := h.refines
    obtain ⟨u, h1, -, -⟩ := crypt_refines hp hc hd
    rw [show v = fun x => plain hp k x (w x) from funext hw]
    exact ⟨u, h1⟩

/-- **C65** A volume built of the real layers, each run on its own and connected by what they exchange, shows its guest a plain
disk: for every history, with completions delivered and handled at any time, transfers in any order, failures and power
losses. The disk initially held the image on the stripes still to be fetched and the (decrypted) local contents elsewhere. -/
theorem C65_stack {ls : List (Lab Bytes)} {et em : List (Ev Bytes)} {h : Host Bytes} (hb : Bootable c hdrs mv) (hr : ORun c ls et em h)
    (ht : Device p hp k tv et) (hm : Device p hp k mv em) :
    ∃ g d, Disk.Run (Dev.fresh (preloadWith c g hdrs tv)) (visible ls) d := by
  obtain ⟨dt, h1⟩ := ht.refines
  obtain ⟨dm, h2⟩ := hm.refines
  obtain ⟨b0, s, h3⟩ := (open_closed hb hr h1 h2).run
  exact C05_refines_plain_disk hb h3

/-- **C65**, read off the plain disk: what a completed write put in a sector and a later completed flush covers is read back by
the guest through the whole stack, after any number of power losses, until the sector is written again. -/
theorem C65_flushed_survives {ls : List (Lab Bytes)} {et em : List (Ev Bytes)} {h : Host Bytes}
    {e0 e1 e2 e3 e4 e5 : List (Ev Bytes)} {q w off cnt qf f q' r off' cnt' x : Nat} {data : Nat → Bytes} {o1 o2 out : List (Option Bytes)}
    (hb : Bootable c hdrs mv) (hr : ORun c ls et em h) (ht : Device p hp k tv et) (hm : Device p hp k mv em)
    (hv : visible ls = (e0 ++ Ev.issue q w (.write off cnt data) :: e1 ++ [Ev.resp q w true o1]) ++ e2 ++
      (Ev.issue qf f .flush :: e3 ++ [Ev.resp qf f true o2]) ++ e4 ++
      (Ev.issue q' r (.read off' cnt') :: e5 ++ [Ev.resp q' r true out]))
    (hx : covers off cnt x) (hx' : covers off' cnt' x)
    (h0 : settledWrites e0 x) (h1 : quiet e1 x) (h2 : quiet e2 x) (h3 : quiet e3 x) (h4 : quiet e4 x) (h5 : quiet e5 x)
    (a1 : unanswered (q, w) e1) (a2 : ∀ e ∈ e2, e ≠ .crash) (a3 : unanswered (qf, f) e3) (a5 : unanswered (q', r) e5) :
    out[x - off']? = some (some (data x)) := by
  obtain ⟨dt, g1⟩ := ht.refines
  obtain ⟨dm, g2⟩ := hm.refines
  obtain ⟨b0, s, g3⟩ := (open_closed hb hr g1 g2).run
  exact C06_flushed_survives hb g3 hv hx hx' h0 h1 h2 h3 h4 h5 a1 a2 a3 a5

/-- **C65**, what reaches the file: every sector an encrypted device's engine is told to write is the encryption, for its own sector
number, of the sector the layer above wrote. -/
theorem C65_only_ciphertext {es : List (Ev Bytes)} {ws : List (Ev Sector)} {rd : Nat × Nat → Option (Nat × Nat)} (hp : p.Lawful)
    (hc : CryptRun p k es ws rd) {q id off cnt x : Nat} {data : Nat → Sector} (h : Ev.issue q id (.write off cnt data) ∈ ws)
    (hx : covers off cnt x) :
    ∃ data', Ev.issue q id (.write off cnt data') ∈ es ∧ (data x).1 = encSector p k x (data' x) := by
  induction hc with
  | nil => cases h
  | step _ hs ih =>
    rcases List.mem_append.1 h with h | h
    · obtain ⟨data', h1, h2⟩ := ih h
      exact ⟨data', List.mem_append_left _ h1, h2⟩
    · cases hs with
      | write q' id' off' cnt' data' buf buf' hb he =>
        simp only [List.mem_singleton, Ev.issue.injEq, Req.write.injEq] at h
        obtain ⟨rfl, rfl, rfl, rfl, rfl⟩ := h
        refine ⟨data', by simp, ?_⟩
        have h1 := encrypt_slices hp he hx
        have h2 := hb (x - off) (by obtain ⟨h1, h2⟩ := hx; omega)
        rw [show off + (x - off) = x by obtain ⟨h1, h2⟩ := hx; omega, ← h1] at h2
        rw [h2]
        exact (congrArg Subtype.val ((inverse hp k).2 x (bufData buf' off cnt x))).symm
      | _ => simp at h

end Verif.Stack
