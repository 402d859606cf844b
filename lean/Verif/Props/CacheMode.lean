import Verif.Model.CacheMode
import Verif.Spec.CacheMode
import Verif.Props.Assemble
import Verif.Props.FrontSetup
import Verif.Props.WriteThrough

/-! # C106: the cache mode the driver is told -/

set_option maxRecDepth 8000

namespace Verif.CacheMode
open Verif Verif.Disk Verif.Config

variable {D : Type} {v : Nat → D} {es : List (Ev D)}

/-- C106: the features a backend offers are these; FLUSH (9) and CONFIG_WCE (11) are among them. -/
theorem C106_offered (i : Nat) : features.testBit i = true ↔ i ∈ [1, 2, 6, 9, 10, 11, 12, 28, 29, 30, 32] := by
  simp only [features, Nat.testBit_or, Nat.testBit_two_pow, Bool.or_eq_true, decide_eq_true_eq, List.mem_cons, List.not_mem_nil, or_false]
  omega

/-- C106: a driver that has accepted CONFIG_WCE is told write-through exactly if the configuration asks for it; one that has accepted only
FLUSH is never told so. -/
theorem C106_told {t : Tuning} (ht : t.validate = true) (sectors : Nat) (hs : sectors < 2 ^ 64) (accepted : Nat)
    (ha : accepted.testBit 9 = true ∨ accepted.testBit 11 = true) :
    mode accepted (fromLe (slice (space t sectors) 32 1)) = .writethrough ↔ accepted.testBit 11 = true ∧ t.writeThrough = true := by
  obtain ⟨h1, _, h3, h4, _⟩ := (C47_accepted_iff t).mp ht
  have hq : Setup.queues t = t.numQueues := Nat.mod_eq_of_lt (by omega)
  have hb : fromLe (slice (space t sectors) 32 1) = if t.writeThrough then 0 else 1 :=
    (Tracker.C43_fields ⟨sectors, t.segSizeMax, t.segCountMax, Setup.queues t, t.writeThrough⟩ hs (by simp only; omega)
      (by simp only; omega) (by simp only [hq]; omega) 60 (Nat.le_refl _)).2.2.2.2.1
  rw [hb]
  unfold mode
  cases h11 : accepted.testBit 11 <;> cases h9 : accepted.testBit 9 <;> cases t.writeThrough <;> simp_all

theorem kept_through {d : WDisk D} (h : WDisk.Run (WDisk.fresh v) es d) (m : Mode) : Kept m es := by
  intro x e0 e1 q w off cnt data o1 e2 e3 q' r off' cnt' out e4 he hx hx' h0 h1 h2 h3 a1 a3 _
  exact WriteThrough.lasts h he h0 h1 a1 h2 h3 a3 hx hx'

theorem kept_back {d : Disk D} (h : Disk.Run (Dev.fresh v) es d) : Kept .writeback es := by
  intro x e0 e1 q w off cnt data o1 e2 e3 q' r off' cnt' out e4 he hx hx' h0 h1 h2 h3 a1 a3 hf
  obtain ⟨a, b, qf, f, o2, c, rfl, ha, hb⟩ := hf rfl
  subst he
  obtain ⟨m1, g1, g2⟩ := h.split _ _ rfl
  obtain ⟨m2, g3, g4⟩ := g2.split _ _ rfl
  obtain ⟨m3, g5, -⟩ := g4.split _ _ rfl
  obtain ⟨n1, k1, k2⟩ := g3.split _ _ rfl
  obtain ⟨n2, k3, k4⟩ := k2.split _ _ rfl
  have r1 := Rest.write g1 rfl h0 h1 a1 hx
  have r2 := (r1.run k1 (quiet_mono h2 fun e he => by simp [he]) ha).flush k3 (quiet_mono h2 fun e he => by simp [he]) hb
  exact (r2.run k4 (quiet_mono h2 fun e he => by simp [he])).toRest.read g5 h3 a3 hx'

/-- Of any file the backend has opened: either it writes through, or the driver goes by a cache. -/
theorem served {tx : Assemble.Text} {c : Config} {l : Assemble.Log} {r : Except Assemble.Err Assemble.Parts}
    (h : Assemble.Run (Assemble.Program.run tx c .backend) l r) (ht : c.tuning.validate = true) {f : Assemble.File} (hf : .openFile f ∈ Assemble.asked l)
    (sectors : Nat) (hs : sectors < 2 ^ 64) (accepted : Nat) (ha : accepted.testBit 9 = true ∨ accepted.testBit 11 = true)
    (he : Serves f v es) : (∃ d, WDisk.Run (WDisk.fresh v) es d) ∨
      mode accepted (fromLe (slice (space c.tuning sectors) 32 1)) = .writeback ∧ ∃ d, Disk.Run (Dev.fresh v) es d := by
  have hw : f.writeThrough = c.tuning.writeThrough := (Assemble.C79_asked h _ hf).2.1
  unfold Serves at he
  have hm := C106_told ht sectors hs accepted ha
  cases hwt : f.writeThrough with
  | true =>
    rw [hwt] at he
    cases hsy : f.sync <;> rw [hsy] at he <;> obtain ⟨as, s, hr, rfl⟩ := he
    · exact .inl (WriteThrough.C105_uring hr)
    · exact .inl (WriteThrough.C105_sync hr)
  | false =>
    rw [hwt] at he hw
    have : mode accepted (fromLe (slice (space c.tuning sectors) 32 1)) = .writeback := by
      cases hmm : mode accepted (fromLe (slice (space c.tuning sectors) 32 1)) with
      | writeback => rfl
      | writethrough => rw [← hw] at hm; exact absurd (hm.mp hmm).2 (by simp)
    cases hsy : f.sync <;> rw [hsy] at he <;> obtain ⟨as, s, hr, rfl⟩ := he
    · exact .inr ⟨this, Uring.C63_uring hr⟩
    · exact .inr ⟨this, SyncIo.C63_sync hr⟩

/-- C106 (partial: the driver has accepted FLUSH or CONFIG_WCE): **a driver that goes by the cache mode of the virtio rules finds after any
power losses what it may count on**, whatever the configuration, of any file the backend has opened, with either engine. -/
theorem C106_kept_partial {tx : Assemble.Text} {c : Config} {l : Assemble.Log} {r : Except Assemble.Err Assemble.Parts}
    (h : Assemble.Run (Assemble.Program.run tx c .backend) l r) (ht : c.tuning.validate = true) {f : Assemble.File} (hf : .openFile f ∈ Assemble.asked l)
    (sectors : Nat) (hs : sectors < 2 ^ 64) (accepted : Nat) (ha : accepted.testBit 9 = true ∨ accepted.testBit 11 = true)
    (he : Serves f v es) : Kept (mode accepted (fromLe (slice (space c.tuning sectors) 32 1))) es := by
  rcases served h ht hf sectors hs accepted ha he with ⟨d, hd⟩ | ⟨hm, d, hd⟩
  · exact kept_through hd _
  · rw [hm]; exact kept_back hd

open Verif.Assemble in
/-- The demo backend opens its data file, and its `[tuning]` section is accepted. -/
example : (confOf rawRoot).tuning.validate = true ∧
    (against (demoOut (demoMeta Metadata.HAS_SOURCE 10) fun _ => false) (Program.run demoText (confOf rawRoot) .backend)).1.any
      (fun y => match y.1 with | .openFile f => f.path == "/etc/u/disk.raw".toList && !f.readonly && !f.writeThrough | _ => false) = true := by
  decide +kernel

/-- A driver that has accepted everything offered, and one that has accepted everything but CONFIG_WCE, meet the hypothesis. -/
example : features.testBit 11 = true ∧ (features - 2 ^ 11).testBit 11 = false ∧ (features - 2 ^ 11).testBit 9 = true := by decide +kernel

/-- C106 is false of the code for a driver that accepts neither FLUSH nor CONFIG_WCE, which virtio allows: the device is then to write through,
but unless the configuration says so, it does not. A write is acknowledged, and after a power loss the old data are back. -/
theorem C106_false (f : Assemble.File) (hs : f.sync = true) (hw : f.writeThrough = false) :
    ∃ (accepted : Nat) (es : List (Ev Nat)), (∀ i, accepted.testBit i = true → features.testBit i = true) ∧ accepted.testBit 32 = true ∧
      Serves f (fun _ => 0) es ∧ ∀ writeback, ¬ Kept (mode accepted writeback) es := by
  have h1 := (SyncIo.Run.nil (v := fun _ : Nat => (0 : Nat))).snoc (.add _ 0 7 (.write 5 1 fun _ => 42) rfl (by simp [SyncIo.Sys.fresh]))
  have h2 := h1.snoc (.exec _ (0, 7) 5)
  have h3 := h2.snoc (.done _ 0 7 true rfl ⟨.write 5 1 (fun _ => 42) (upd (fun _ => false) 5 true), rfl, by
    intro _ x hx
    have : x = 5 := by obtain ⟨_, _⟩ := hx; omega
    subst this; rfl⟩)
  have h4 := h3.snoc (.poll _ 0 rfl)
  have h5 := h4.snoc (.crash _ (fun _ => 0) (fun x => ⟨.inl rfl, by simp [Dev.exec, Disk.issue, Dev.issueWrite, covers]⟩))
  have h6 := h5.snoc (.add _ 0 8 (.read 5 1) rfl (by simp [SyncIo.Sys.fresh]))
  have h7 := h6.snoc (.exec _ (0, 8) 5)
  have h8 := h7.snoc (.done _ 0 8 true rfl ⟨.read 5 1 (upd (fun _ => none) 5 (some 0)), rfl, by
    intro _ x hx
    have : x = 5 := by obtain ⟨_, _⟩ := hx; omega
    subst this; simp⟩)
  have h9 := h8.snoc (.poll _ 0 rfl)
  refine ⟨2 ^ 32, [.issue 0 7 (.write 5 1 fun _ => 42), .resp 0 7 true [], .crash, .issue 0 8 (.read 5 1), .resp 0 8 true [some 0]], ?_, ?_, ?_, ?_⟩
  · intro i hi
    rw [Nat.testBit_two_pow, decide_eq_true_eq] at hi
    subst hi
    exact (C106_offered 32).mpr (by simp)
  · rw [Nat.testBit_two_pow]; simp
  · unfold Serves
    rw [hs, hw]
    exact ⟨_, _, h9, rfl⟩
  · intro writeback hk
    have hm : mode (2 ^ 32) writeback = .writethrough := by
      unfold mode
      rw [Nat.testBit_two_pow, Nat.testBit_two_pow]
      simp
    rw [hm] at hk
    have := hk 5 [] [] 0 7 5 1 (fun _ => 42) [] [.crash] [] 0 8 5 1 [some 0] [] rfl ⟨Nat.le_refl _, by decide⟩ ⟨Nat.le_refl _, by decide⟩
      (by intro a b _ _ _ _ _ h; cases a <;> cases h) (quiet_nil 5) (by intro _ _ _ _ _ h; simp at h) (quiet_nil 5)
      (fun e he => absurd he List.not_mem_nil) (fun e he => absurd he List.not_mem_nil) (by simp)
    simp at this

end Verif.CacheMode
