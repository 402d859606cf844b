import Verif.Proof.RecodeThrough
import Verif.Proof.CryptComplete
import Verif.Props.CacheMode
import Verif.Props.RestoreLimits
import Verif.Props.StackDemo

/-! # C105 and C106 for encrypted devices -/

set_option maxRecDepth 8000

namespace Verif.WriteThrough
open Verif Verif.Disk Verif.Crypt Verif.Stack

variable {p : Xts} {k : Keys} {cap : Nat} {sync : Bool} {w : Nat → Sector} {es : List (Ev Bytes)} {rd : Nat × Nat → Option (Nat × Nat)}

/-- C105, encrypted: what the users of an encrypting device see, over an io_uring device opened for write-through, they could have seen of one
disk that writes through and holds the decrypted contents. -/
theorem C105_encrypted (hp : p.Lawful) {as : List (Uring.Act Sector)} {s : Uring.Sys Sector} (h : Run cap sync w as s)
    (hc : CryptRun p k es (as.flatMap Uring.Act.view) rd) :
    ∃ d, WDisk.Run (WDisk.fresh fun x => decSector p k x (w x).1) es d := by
  obtain ⟨d, hd⟩ := C105_uring h
  obtain ⟨u, hu, -⟩ := wcrypt_refines hp hc hd
  exact ⟨u, hu⟩

/-- C105, encrypted, for the synchronous engine: the same. -/
theorem C105_encrypted_sync (hp : p.Lawful) {as : List (SyncIo.Act Sector)} {s : SyncIo.Sys Sector} (h : SyncRun w as s)
    (hc : CryptRun p k es (as.flatMap SyncIo.Act.view) rd) :
    ∃ d, WDisk.Run (WDisk.fresh fun x => decSector p k x (w x).1) es d := by
  obtain ⟨d, hd⟩ := C105_sync h
  obtain ⟨u, hu, -⟩ := wcrypt_refines hp hc hd
  exact ⟨u, hu⟩

/-- C105, encrypted: data of a write answered with success last, with no flush, as in `C105_lasts`. -/
theorem C105_encrypted_lasts (hp : p.Lawful) {as : List (Uring.Act Sector)} {s : Uring.Sys Sector} (h : Run cap sync w as s)
    (hc : CryptRun p k es (as.flatMap Uring.Act.view) rd) {e0 e1 e2 e3 e4 : List (Ev Bytes)} {q i off cnt q' r off' cnt' x : Nat}
    {data : Nat → Bytes} {out out' : List (Option Bytes)}
    (he : es = (e0 ++ Ev.issue q i (.write off cnt data) :: e1 ++ [Ev.resp q i true out]) ++
      (e2 ++ ((Ev.issue q' r (.read off' cnt') :: e3 ++ [Ev.resp q' r true out']) ++ e4)))
    (h0 : settledWrites e0 x) (h1 : quiet e1 x) (ho1 : unanswered (q, i) e1) (h2 : quiet e2 x) (h3 : quiet e3 x) (ho3 : unanswered (q', r) e3)
    (hx : covers off cnt x) (hx' : covers off' cnt' x) : out'[x - off']? = some (some (data x)) := by
  obtain ⟨d, hd⟩ := C105_encrypted hp h hc
  exact lasts hd he h0 h1 ho1 h2 h3 ho3 hx hx'

/-- A write, a power loss and a read, for any two contents. -/
theorem demo_sync {D : Type} (v data : Nat → D) : ∃ s, SyncRun v
    [.add 0 7 (.write 5 1 data), .exec (0, 7) 5, .done 0 7 true, .poll 0 [(7, true, [])], .crash,
     .add 0 8 (.read 5 1), .exec (0, 8) 5, .done 0 8 true, .poll 0 [(8, true, [some (data 5)])]] s := by
  have h1 := (SyncRun.nil (v := v)).snoc (.other rfl (.add _ 0 7 (.write 5 1 data) rfl (by simp [SyncIo.Sys.fresh])))
  have h2 := h1.snoc (.other rfl (.exec _ (0, 7) 5))
  have h3 := h2.snoc (.done _ 0 7 true rfl ⟨.write 5 1 data (upd (fun _ => false) 5 true), rfl, by
    intro _ x hx
    have : x = 5 := by obtain ⟨_, _⟩ := hx; omega
    subst this; rfl⟩)
  have h4 := h3.snoc (.other rfl (.poll _ 0 rfl))
  have h5 := h4.snoc (.other rfl (.crash _ (fun x => if x = 5 then data 5 else v x) (by
    intro x
    by_cases hx : x = 5
    · subst hx
      exact ⟨.inr ⟨⟨Nat.le_refl _, by decide⟩, rfl⟩, fun _ => .inl rfl⟩
    · refine ⟨.inl (if_neg hx), fun hc => absurd ?_ hx⟩
      obtain ⟨_, _⟩ := hc
      omega)))
  have h6 := h5.snoc (.other rfl (.add _ 0 8 (.read 5 1) rfl (by simp [SyncIo.Sys.fresh])))
  have h7 := h6.snoc (.other rfl (.exec _ (0, 8) 5))
  have h8 := h7.snoc (.done _ 0 8 true rfl ⟨.read 5 1 (upd (fun _ => none) 5 (some (data 5))), rfl, by
    intro _ x hx
    have : x = 5 := by obtain ⟨_, _⟩ := hx; omega
    subst this; simp⟩)
  have h9 := h8.snoc (.other rfl (.poll _ 0 rfl))
  exact ⟨_, h9⟩

open Verif.Restore (seven) in
/-- The same through the encrypting channel. -/
theorem demo_encrypted (hp : p.Lawful) (k : Keys) (w : Nat → Sector) : ∃ (as : List (SyncIo.Act Sector)) (s : SyncIo.Sys Sector)
    (rd : Nat × Nat → Option (Nat × Nat)) (b : Bytes), SyncRun w as s ∧
      CryptRun p k ([Ev.issue 0 7 (.write 5 1 fun _ => seven), .resp 0 7 true []] ++ ([.crash] ++ [Ev.issue 0 8 (.read 5 1), .resp 0 8 true [some b]]))
        (as.flatMap SyncIo.Act.view) rd := by
  have hl : seven.length = 512 := by simp [seven]
  obtain ⟨buf', e1, e2, -, -⟩ := encrypt_ok (k := k) (start := 5) (count := 1) hp (Nat.le_of_eq (by rw [hl]) : 1 * 512 ≤ seven.length)
  obtain ⟨out, d1, -, -, -⟩ := decrypt_ok (k := k) (start := 5) (count := 1) (buf := readBuf [some (bufData buf' 5 1 5)]) hp
    (by rw [readBuf_length]; simp)
  obtain ⟨s, hs⟩ := demo_sync w (bufData buf' 5 1)
  have c1 := (CryptRun.nil (p := p) (k := k)).step (.write _ 0 7 5 1 (fun _ => seven) seven buf' (by
    intro j hj
    have : j = 0 := by omega
    subst this
    simp [slice, hl]) e1)
  have c2 := c1.step (.done _ 0 7 true [] (fun _ => rfl))
  have c3 := c2.step (.crash _)
  have c4 := c3.step (.read _ 0 8 5 1)
  have c5 := c4.step (.readDone _ 0 8 5 1 [some (bufData buf' 5 1 5)] out (by simp) d1)
  exact ⟨_, s, _, slice out (0 * 512) 512, hs, c5⟩

open Verif.Restore (seven) in
/-- What such a history reads is what was written. -/
example (hp : p.Lawful) (k : Keys) (w : Nat → Sector) : ∃ (as : List (SyncIo.Act Sector)) (s : SyncIo.Sys Sector)
    (rd : Nat × Nat → Option (Nat × Nat)), SyncRun w as s ∧
      CryptRun p k [Ev.issue 0 7 (.write 5 1 fun _ => seven), .resp 0 7 true [], .crash, Ev.issue 0 8 (.read 5 1), .resp 0 8 true [some seven]]
        (as.flatMap SyncIo.Act.view) rd := by
  obtain ⟨as, s, rd, b, h1, h2⟩ := demo_encrypted hp k w
  obtain ⟨d, hd⟩ := C105_encrypted_sync hp h1 h2
  have hb := lasts (e0 := []) (e1 := []) (e2 := [.crash]) (e3 := []) (e4 := []) (x := 5) hd rfl
    (by intro a b _ _ _ _ _ h; cases a <;> cases h) (quiet_nil 5) (fun e he => absurd he List.not_mem_nil)
    (by intro _ _ _ _ _ h; simp at h) (quiet_nil 5) (fun e he => absurd he List.not_mem_nil) ⟨Nat.le_refl _, by decide⟩ ⟨Nat.le_refl _, by decide⟩
  have : b = seven := by simpa using hb
  subst this
  exact ⟨as, s, rd, h1, h2⟩

/-- Histories of a device of a volume opened for write-through (`build_block_device`): either engine, with or without encryption. `v` is what its
users would read at the start. -/
inductive Device (p : Xts) (k : Keys) (v : Nat → Bytes) : List (Ev Bytes) → Prop where
  | uring (cap : Nat) (as : List (Uring.Act Bytes)) (s : Uring.Sys Bytes) (h : Run cap true v as s) : Device p k v (as.flatMap Uring.Act.view)
  | sync (as : List (SyncIo.Act Bytes)) (s : SyncIo.Sys Bytes) (h : SyncRun v as s) : Device p k v (as.flatMap SyncIo.Act.view)
  | encrypted {es : List (Ev Bytes)} {rd : Nat × Nat → Option (Nat × Nat)} (w : Nat → Sector) (hw : ∀ x, v x = decSector p k x (w x).1) (cap : Nat)
      (as : List (Uring.Act Sector)) (s : Uring.Sys Sector) (h : Run cap true w as s) (hc : CryptRun p k es (as.flatMap Uring.Act.view) rd) :
      Device p k v es
  | encryptedSync {es : List (Ev Bytes)} {rd : Nat × Nat → Option (Nat × Nat)} (w : Nat → Sector) (hw : ∀ x, v x = decSector p k x (w x).1)
      (as : List (SyncIo.Act Sector)) (s : SyncIo.Sys Sector) (h : SyncRun w as s) (hc : CryptRun p k es (as.flatMap SyncIo.Act.view) rd) :
      Device p k v es

theorem Device.refines (hp : p.Lawful) {v : Nat → Bytes} (h : Device p k v es) : ∃ d, WDisk.Run (WDisk.fresh v) es d := by
  cases h with
  | uring cap as s h => exact C105_uring h
  | sync as s h => exact C105_sync h
  | encrypted w hw cap as s h hc => rw [funext hw]; exact C105_encrypted hp h hc
  | encryptedSync w hw as s h hc => rw [funext hw]; exact C105_encrypted_sync hp h hc

theorem quiet_devices {c : Lazy.Cfg Bytes} {ls : List (Lazy.Lab Bytes)} {et em : List (Ev Bytes)} {h : Host Bytes} (hr : ORun c ls et em h)
    (hq : Ev.crash ∉ Lazy.visible ls) : Ev.crash ∉ et ∧ Ev.crash ∉ em := by
  induction hr with
  | nil => simp
  | @step ls ls' et et' em em' h h' _ hs ih =>
    rw [Lazy.visible_append] at hq
    obtain ⟨i1, i2⟩ := ih fun hm => hq (List.mem_append_left _ hm)
    have : Ev.crash ∉ et' ∧ Ev.crash ∉ em' := by
      cases hs with
      | crash => exact absurd (by simp [Lazy.visible]) hq
      | _ => simp [Stack.issues, metaIssues]
    exact ⟨by simp [i1, this.1], by simp [i2, this.2]⟩

/-- C105, the whole volume: as long as the power stays on, a volume whose data and metadata devices are opened for write-through, with either
engine and with or without encryption, shows its guest a plain disk that initially held the image on the stripes still to be fetched and the
local contents elsewhere. -/
theorem C105_volume (hp : p.Lawful) {c : Lazy.Cfg Bytes} {hdrs : Bytes} {tv mv : Nat → Bytes} {ls : List (Lazy.Lab Bytes)} {et em : List (Ev Bytes)}
    {h : Host Bytes} (hb : Lazy.Bootable c hdrs mv) (hr : ORun c ls et em h) (ht : Device p k tv et) (hm : Device p k mv em)
    (hq : Ev.crash ∉ Lazy.visible ls) :
    ∃ g d, Disk.Run (Dev.fresh (Lazy.preloadWith c g hdrs tv)) (Lazy.visible ls) d := by
  obtain ⟨q1, q2⟩ := quiet_devices hr hq
  obtain ⟨dt, h1⟩ := ht.refines hp
  obtain ⟨dm, h2⟩ := hm.refines hp
  obtain ⟨pt, h1⟩ := h1.plain fun e he hc => q1 (hc ▸ he)
  obtain ⟨pm, h2⟩ := h2.plain fun e he hc => q2 (hc ▸ he)
  obtain ⟨b0, s, h3⟩ := (open_closed hb hr h1 h2).run
  exact Lazy.C05_refines_plain_disk hb h3

open Verif.Restore (seven plainCfg plain_bootable) in
/-- A volume whose backend starts and whose guest writes a sector meets the hypotheses. -/
example : ∃ mv ls et em h, Lazy.Bootable plainCfg [0] mv ∧ ORun plainCfg ls et em h ∧ Device p k (fun _ => zeros 512) et ∧ Device p k mv em ∧
    Lazy.visible ls = [.issue 0 7 (.write 0 1 fun _ => seven), .resp 0 7 true []] := by
  obtain ⟨mv, hb⟩ := plain_bootable
  obtain ⟨md, hl, hh⟩ := hb.load
  have o1 := (ORun.nil (c := plainCfg)).step .start
  have o2 := o1.step (.loaded [some (mv 0), some (mv 1)] md (fun _ => zeros 512) mv (fun _ _ => zeros 512) (by
    rw [← hl]; rfl))
  rw [hh] at o2
  have st := Lazy.Step.write (c := plainCfg) (Lazy.Sys.boot plainCfg [0] (fun _ => zeros 512) mv fun _ _ => zeros 512) 0 7 0 1 (fun _ => seven) true
    ⟨by decide, by decide, by decide⟩ ⟨rfl, rfl, (by intro r hr; cases hr), (by intro r hr; cases hr)⟩
  have hadd : Lazy.addWrite plainCfg (Lazy.Sys.boot plainCfg [0] (fun _ => zeros 512) mv fun _ _ => zeros 512) 0 7 0 1 (fun _ => seven) true =
      (Lazy.toBase (Lazy.Sys.boot plainCfg [0] (fun _ => zeros 512) mv fun _ _ => zeros 512) 0 { id := 7, off := 0, cnt := 1, out := some fun _ => seven },
        [.toBase 0 { id := 7, off := 0, cnt := 1, out := some fun _ => seven }]) := rfl
  rw [hadd] at st
  have o3 := o2.step (.call _ _ _ _ rfl st)
  have o4 := o3.step (.deliver _ (.guest 0 7) true [] rfl)
  have o5 := o4.step (.handleGuest _ 0 7 true [] (by simp))
  have d1 := (SyncRun.nil (v := fun _ : Nat => zeros 512)).snoc (.other rfl (.add _ 1 7 (.write 0 1 fun _ => seven) rfl (by simp [SyncIo.Sys.fresh])))
  have d2 := d1.snoc (.other rfl (.exec _ (1, 7) 0))
  have d3 := d2.snoc (.done _ 1 7 true rfl ⟨.write 0 1 (fun _ => seven) (upd (fun _ => false) 0 true), rfl, by
    intro _ x hx
    have : x = 0 := by obtain ⟨_, _⟩ := hx; omega
    subst this; rfl⟩)
  have d4 := d3.snoc (.other rfl (.poll _ 1 rfl))
  have m1 := (SyncRun.nil (v := mv)).snoc (.other rfl (.add _ 1 0 (.read 0 2) rfl (by simp [SyncIo.Sys.fresh])))
  have m2 := m1.snoc (.other rfl (.exec _ (1, 0) 0))
  have m3 := m2.snoc (.other rfl (.exec _ (1, 0) 1))
  have m4 := m3.snoc (.done _ 1 0 true rfl ⟨.read 0 2 (upd (upd (fun _ => none) 0 (some (mv 0))) 1 (some (mv 1))), rfl, by
    intro _ x hx
    have : x = 0 ∨ x = 1 := by obtain ⟨_, _⟩ := hx; omega
    rcases this with rfl | rfl <;> simp [upd]⟩)
  have m5 := m4.snoc (.other rfl (.poll _ 1 rfl))
  exact ⟨mv, _, _, _, _, hb, o5, .sync _ _ d4, .sync _ _ m5, rfl⟩

end Verif.WriteThrough

namespace Verif.CacheMode
open Verif Verif.Disk Verif.Config Verif.Crypt Verif.Stack

/-- C106, encrypted (partial as `C106_kept_partial`): with the encrypting channel over the file the driver finds the same. -/
theorem C106_encrypted_partial {p : Xts} {k : Keys} {w : Nat → Sector} {es : List (Ev Bytes)} {ws : List (Ev Sector)}
    {rd : Nat × Nat → Option (Nat × Nat)} (hp : p.Lawful) {tx : Assemble.Text} {c : Config} {l : Assemble.Log}
    {r : Except Assemble.Err Assemble.Parts} (h : Assemble.Run (Assemble.Program.run tx c .backend) l r) (ht : c.tuning.validate = true)
    {f : Assemble.File} (hf : .openFile f ∈ Assemble.asked l) (sectors : Nat) (hs : sectors < 2 ^ 64) (accepted : Nat)
    (ha : accepted.testBit 9 = true ∨ accepted.testBit 11 = true) (hc : CryptRun p k es ws rd) (he : Serves f w ws) :
    Kept (mode accepted (fromLe (slice (space c.tuning sectors) 32 1))) es := by
  rcases served h ht hf sectors hs accepted ha he with ⟨d, hd⟩ | ⟨hm, d, hd⟩
  · obtain ⟨u, hu, -⟩ := wcrypt_refines hp hc hd
    exact kept_through hu _
  · obtain ⟨u, hu, -⟩ := crypt_refines hp hc hd
    rw [hm]
    exact kept_back hu

end Verif.CacheMode
