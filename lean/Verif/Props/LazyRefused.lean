import Verif.Model.LazyRefused
import Verif.Props.Lazy
import Verif.Proof.LazyDemo

/-! # C66: a refused submission of a background fetch

False of the code with the io_uring engine: the fetcher tries again with the same id while the refused entry is still in the
ring, and the entry overwrites what the guest has written since. The property holds as long as no left-over entry reaches the kernel. -/

set_option maxRecDepth 8000

namespace Verif.Lazy
open Verif Verif.Metadata Verif.Disk

variable {D : Type} {c : Cfg D} {hdrs : Bytes} {tv : Nat → D} {mv : Nat → Bytes} {b0 : Nat → Nat → D}

/-- Without left-over entries in the kernel the steps are those of the lazy disk. -/
theorem RRun.closed {ls : List (Lab D)} {r0 r : RSys D} (h : RRun c (fun r => r.late = []) r0 ls r) : Run c r0.s ls r.s := by
  induction h with
  | nil => exact .nil _
  | snoc hr hs hp ih =>
    have hl : _ = [] := (show ∀ {r0 r : RSys D} {ls}, RRun c (fun r => r.late = []) r0 ls r → r.late = [] by
      intro r0 r ls h; cases h <;> assumption) hr
    cases hs with
    | step a _ s' h ha =>
      have := ih.step h
      split <;> exact this
    | write k b g _ s' h hb => exact ih.step h
    | flush k _ s' h hf => exact ih.step h
    | exec i k off cnt x data done h hx => rw [hl] at h; simp at h
    | done i k op ok h hf => rw [hl] at h; simp at h
  | crash buf0 hr ht hm hmd hp ih => exact ih.crash buf0 ht hm hmd

/-- **C66** (partial: until a submission on the fetcher's channel is accepted after a refused one) However many submissions
of the fetcher are refused, the guest sees a plain disk, also across power losses, as long as no entry of a refused submission has reached the kernel.
The synchronous engine refuses none (bdev_sync.rs:90-92). -/
theorem C66_refused_partial {ls : List (Lab D)} {r : RSys D} (hb : Bootable c hdrs mv)
    (h : RRun c (fun r => r.late = []) (RSys.boot c hdrs tv mv b0) ls r) :
    ∃ g d, Disk.Run (Dev.fresh (preloadWith c g hdrs tv)) (visible ls) d := C05_refines_plain_disk hb h.closed

/-! ## What goes wrong -/

/-- Reached with the guest seeing `es`. -/
def RReach (c : Cfg D) (r0 : RSys D) (es : List (Ev D)) (r : RSys D) : Prop := ∃ ls, RRun c (fun _ => True) r0 ls r ∧ visible ls = es

theorem RReach.next {r0 r r' : RSys D} {es : List (Ev D)} {ls : List (Lab D)} (h : RReach c r0 es r) (hs : RStep c r ls r') :
    RReach c r0 (es ++ visible ls) r' := by
  obtain ⟨l, h1, rfl⟩ := h
  exact ⟨_, h1.snoc hs trivial, visible_append _ _⟩

theorem RReach.step {r0 : RSys D} {s s' : Sys D} {ring late : List (Nat × Op D)} {es : List (Ev D)} {a : Act D} {ls : List (Lab D)}
    (h : RReach c r0 es { s, ring, late }) (hs : Step c s a ls s') (ha : a.accepted = true) (hq : submits s a = false) :
    RReach c r0 (es ++ visible ls) { s := s', ring, late } := by
  have := h.next (.step _ a ls s' hs ha)
  simp only [hq] at this
  exact this

theorem RReach.quiet {r0 : RSys D} {s s' : Sys D} {ring late : List (Nat × Op D)} {es : List (Ev D)} {a : Act D}
    (h : RReach c r0 es { s, ring, late }) (hs : Step c s a [] s') (ha : a.accepted = true) (hq : submits s a = false) :
    RReach c r0 es { s := s', ring, late } := by
  have := h.step hs ha hq
  simpa [visible] using this

theorem RReach.submit {r0 : RSys D} {s s' : Sys D} {ring late : List (Nat × Op D)} {es : List (Ev D)} {a : Act D} {ls : List (Lab D)}
    (h : RReach c r0 es { s, ring, late }) (hs : Step c s a ls s') (ha : a.accepted = true) (hq : submits s a = true) :
    RReach c r0 (es ++ visible ls) { s := s', ring := [], late := late ++ ring } := by
  have := h.next (.step _ a ls s' hs ha)
  simp only [hq] at this
  exact this

/-- One metadata update of stripe 0 runs to its end. -/
theorem refused_meta {r0 : RSys D} {s : Sys D} {ring late : List (Nat × Op D)} {es : List (Ev D)} (h : RReach c r0 es { s, ring, late })
    {mask : UInt8} {q : List (Nat × UInt8)} {n : Nat}
    (h1 : s.fl.queue = (0, mask) :: q) (h2 : s.fl.free = n + 1) (h3 : s.fl.busy 1 = false) (h4 : flag (s.fl.hdrs.getD 0 0) mask = false)
    (f w : Bool) (hf : flag (s.fl.hdrs.getD 0 0 ||| mask) FETCHED = f) (hw : flag (s.fl.hdrs.getD 0 0 ||| mask) WRITTEN = w) :
    ∃ s', RReach c r0 es { s := s', ring, late } ∧ s'.fl.queue = q ∧ s'.fl.free = n + 1 ∧ s'.fl.busy 1 = false ∧
      s'.fl.hdrs = s.fl.hdrs.set 0 (s.fl.hdrs.getD 0 0 ||| mask) ∧
      s'.sh.fs = (if f then upd s.sh.fs 0 .fetched else s.sh.fs) ∧ s'.sh.ws = (if w then upd s.sh.ws 0 true else s.sh.ws) ∧
      s'.ch = s.ch ∧ s'.t = s.t ∧ s'.fe = s.fe := by
  have r := h.quiet (Step.startMeta _ true _ (startMeta_go h1 h2 h3 h4)) rfl rfl
  have r := r.quiet (Step.execMetaW (k := 0) (x := 1) (ops_issueWrite_same _ _ _ _ _) ⟨Nat.le_refl _, by decide⟩) rfl rfl
  have r := r.quiet (Step.metaDone _ 0 true true ⟨_, rfl, fun _ x hx => by
    have : x = 1 := by have : 1 ≤ x := hx.1; have : x < 1 + 1 := hx.2; omega
    subst this; exact upd_same _ _ _⟩) rfl rfl
  have r := r.quiet (Step.metaFlushed (k := 0) f w rfl rfl ⟨_, rfl, fun _ => trivial⟩ hf hw) rfl rfl
  exact ⟨_, r, rfl, rfl, rfl, rfl, rfl, rfl, rfl, rfl, rfl⟩

/-- The volume without written tracking. -/
def refCfg : Cfg Nat := { demoCfg with track := false }

theorem ref_bootable : ∃ mv, Bootable refCfg [4, 0] mv := by
  obtain ⟨mv, h⟩ := demo_bootable
  exact ⟨mv, ⟨h.ss, h.load, h.len, h.sectors, h.hs, h.srcStripes⟩⟩

/-- The hypotheses of `C66_refused_partial` are met with a refused submission: the guest's write waits, the stripe is read from
its source, and the submission of its copy is refused. -/
example (mv : Nat → Bytes) : ∃ ls r, RRun refCfg (fun r => r.late = []) (RSys.boot refCfg [4, 0] (fun x => x) mv fun _ _ => 0) ls r ∧
    visible ls = [.issue 0 7 (.write 1 1 fun _ => 55)] ∧ r.ring.length = 1 := by
  have r := RRun.nil (c := refCfg) (P := fun r => r.late = []) (RSys.boot refCfg [4, 0] (fun x => x) mv fun _ _ => 0) rfl
  have r := r.snoc (.step _ _ _ _ (Step.write _ 0 7 1 1 (fun _ => 55) true ⟨by decide, by decide, by decide⟩
    ⟨rfl, rfl, (by intro r hr; cases hr), (by intro r hr; cases hr)⟩) rfl) rfl
  have r := r.snoc (.step _ _ _ _ (Step.receiveFetch _ 0 [] rfl) rfl) rfl
  have r := r.snoc (.step _ _ _ _ (Step.startFetch _ true _ _ rfl) rfl) rfl
  have r := r.snoc (RStep.write _ 0 0 (fun _ => 0) _ _ (Step.sourceDone _ 0 true false (fun _ => 0) _ _ rfl) rfl) rfl
  exact ⟨_, _, r, rfl, rfl⟩

/-- The guest's write waits for a stripe whose copy is refused once and then goes through; the left-over write is in the
kernel's hands. -/
theorem refused_fetch (mv : Nat → Bytes) : ∃ s, RReach refCfg (RSys.boot refCfg [4, 0] (fun x => x) mv fun _ _ => 0)
    [.issue 0 7 (.write 1 1 fun _ => 55)]
    { s := s, ring := [], late := [(0, .write 0 2 (fun x => fillBuf refCfg 0 (fun _ => 0) (x - 0)) fun _ => false)] } ∧
    s.sh.fs 0 = .notFetched ∧ s.fl.hdrs = [4, 0] ∧ s.fl.queue = [(0, 1)] ∧ s.fl.free = 16 ∧
    s.fl.busy 1 = false ∧ s.fl.updates 0 = none ∧ s.m = Dev.fresh mv ∧ (s.ch 0).queue = [demoWrite] ∧ (s.ch 0).finished = [] ∧
    (∀ id, (s.ch 0).img id = none) ∧ ∀ id, s.t.ops (.guest 0 id) = none := by
  have r : RReach refCfg (RSys.boot refCfg [4, 0] (fun x => x) mv fun _ _ => 0) []
    { s := Sys.boot refCfg [4, 0] (fun x => x) mv fun _ _ => 0, ring := [], late := [] } := ⟨[], .nil _ trivial, rfl⟩
  have r := r.step (Step.write _ 0 7 1 1 (fun _ => 55) true ⟨by decide, by decide, by decide⟩
    ⟨rfl, rfl, (by intro r hr; cases hr), (by intro r hr; cases hr)⟩) rfl rfl
  have r := r.step (Step.receiveFetch _ 0 [] rfl) rfl rfl
  have r := r.step (Step.startFetch _ true _ _ rfl) rfl rfl
  have r := r.next (RStep.write _ 0 0 (fun _ => 0) _ _ (Step.sourceDone _ 0 true false (fun _ => 0) _ _ rfl) rfl)
  have r := r.step (Step.startFetch _ true _ _ rfl) rfl rfl
  have r := r.submit (Step.sourceDone _ 0 true true (fun _ => 0) _ _ rfl) rfl rfl
  have r := r.step (Step.execData _ (.fetch 0) 0) rfl rfl
  have r := r.step (Step.execData _ (.fetch 0) 1) rfl rfl
  have r := r.submit (Step.targetDone _ 0 true true ⟨_, rfl, fun _ x hx => by
    have : x = 0 ∨ x = 1 := by have : x < 0 + 2 := hx.2; omega
    rcases this with rfl | rfl <;> rfl⟩) rfl rfl
  have r := r.step (Step.targetDone _ 0 true true ⟨_, rfl, fun _ => trivial⟩) rfl rfl
  have r := r.step (Step.takeFinished _ 0 true [] rfl) rfl rfl
  exact ⟨_, r, rfl, rfl, rfl, rfl, rfl, rfl, rfl, rfl, rfl, fun _ => rfl, fun _ => rfl⟩

/-- The write of the run, handed to the data device. -/
def refServe (s : Sys Nat) : Sys Nat := toBase (s.setCh 0 fun ch =>
      { ch with queue := [], requested := fun k => ch.requested k && !(stripes refCfg demoWrite).contains k }) 0 demoWrite

theorem RReach.cast {r0 r : RSys D} {es es' : List (Ev D)} (h : RReach c r0 es r) (e : es = es') : RReach c r0 es' r := e ▸ h

/-- A read of one sector of the stripe, once it counts as fetched. -/
theorem ref_read {r0 : RSys Nat} {s : Sys Nat} {ring late : List (Nat × Op Nat)} {es : List (Ev Nat)} {x : Nat}
    (h : RReach refCfg r0 es { s, ring, late }) (hx : x = 0 ∨ x = 1) (hfs : s.sh.fs 0 = .fetched) (hid : s.idFree 0 9) :
    ∃ r, RReach refCfg r0 (es ++ [.issue 0 9 (.read x 1), .resp 0 9 true [some (s.t.vol x)]]) r := by
  have hst : stripes refCfg { id := 9, off := x, cnt := 1, out := none : QReq Nat } = [0] := by rcases hx with rfl | rfl <;> decide
  have hadd : addRead refCfg s 0 9 x 1 true = (toBase s 0 { id := 9, off := x, cnt := 1, out := none },
      [.toBase 0 { id := 9, off := x, cnt := 1, out := none }]) := by
    unfold addRead
    simp only [hst, fetchStatus, hfs]
  have st := Step.read (c := refCfg) s 0 9 x 1 true
    ⟨by decide, by rcases hx with rfl | rfl <;> decide, by rcases hx with rfl | rfl <;> decide⟩ (fun h => by cases h) hid
  rw [hadd] at st
  have r := h.step st rfl rfl
  simp only [toBase] at r
  have r := r.quiet (Step.execDataR (o := .guest 0 9) (x := x) rfl ⟨Nat.le_refl _, by show x < x + 1; omega⟩) rfl rfl
  have r := r.step (Step.baseDone _ 0 9 true ⟨_, rfl, fun _ y hy => by
    have : y = x := by have : x ≤ y := hy.1; have : y < x + 1 := hy.2; omega
    subst this; simp [upd]⟩) rfl rfl
  refine ⟨_, r.cast ?_⟩
  simp [visible, Dev.result, upd, Dev.issueRead, List.range_succ]

/-- The whole run: the guest's write and a flush are acknowledged, then the left-over write reaches the disk, and the guest reads
the image's content again. -/
theorem refused_lost (mv : Nat → Bytes) : ∃ r, RReach refCfg (RSys.boot refCfg [4, 0] (fun x => x) mv fun _ _ => 0)
    [.issue 0 7 (.write 1 1 fun _ => 55), .resp 0 7 true [], .issue 0 8 .flush, .resp 0 8 true [],
     .issue 0 9 (.read 1 1), .resp 0 9 true [some 101]] r := by
  obtain ⟨s, r, h1, h3, h4, h5, h6, h7, h8, h9, h10, h11, h13⟩ := refused_fetch mv
  obtain ⟨s2, r, k1, k2, k3, k4, k5, k6, k7, k8, -⟩ := refused_meta r h4 h5 h6 (by rw [h3]; decide) true false (by rw [h3]; decide) (by rw [h3]; decide)
  have hfs : s2.sh.fs 0 = .fetched := by rw [k5]; rfl
  have hst : stripes refCfg demoWrite = [0] := by decide
  have hq : (s2.ch 0).queue = [demoWrite] := by rw [k7, h9]
  have hpq : processQueue refCfg s2 0 true = some (refServe s2, [.unwait 0 7, .toBase 0 demoWrite]) := by
    unfold processQueue refServe
    rw [hq]
    simp only [hst, fetchStatus, hfs]
    simp [demoWrite, refCfg]
  have hfin : (s2.ch 0).finished = [] := by rw [k7, h10]
  have hi : ∀ id, (s2.ch 0).img id = none := by rw [k7]; intro id; exact h11 id
  have hn : ∀ id, s2.t.ops (.guest 0 id) = none := by rw [k8]; intro id; exact h13 id
  clear k1 k2 k3 k4 k5 k6 k7 k8 h1 h3 h4 h5 h6 h7 h8 h9 h10 h11 h13
  have r := r.step (Step.processQueue _ 0 true _ _ hpq) rfl rfl
  obtain ⟨s3, e3, g1, g2, g3, g4, g5, g6⟩ : ∃ s3, refServe s2 = s3 ∧ s3.sh.fs 0 = .fetched ∧ (s3.ch 0).queue = [] ∧ (s3.ch 0).finished = [] ∧
      (∀ id, (s3.ch 0).img id = none) ∧ s3.t.ops (.guest 0 7) = some (.write 1 1 (fun _ => 55) fun _ => false) ∧
      ∀ id, id ≠ 7 → s3.t.ops (.guest 0 id) = none :=
    ⟨_, rfl, hfs, by simp [refServe, toBase, demoWrite, Sys.setCh, upd], by simp [refServe, toBase, demoWrite, Sys.setCh, upd, hfin],
      by simp [refServe, toBase, demoWrite, Sys.setCh, upd, hi], by simp [refServe, toBase, demoWrite, Sys.setCh, upd, Dev.issueWrite],
      by intro id h; simp [refServe, toBase, demoWrite, Sys.setCh, upd, Dev.issueWrite, h, hn]⟩
  rw [e3] at r
  clear e3 hpq hq
  have r := r.quiet (Step.execDataW (o := .guest 0 7) (x := 1) g5 ⟨Nat.le_refl _, by decide⟩) rfl rfl
  have r := r.step (Step.baseDone _ 0 7 true ⟨_, rfl, fun _ x hx => by
    have : x = 1 := by have : 1 ≤ x := hx.1; have : x < 1 + 1 := hx.2; omega
    subst this; exact upd_same _ _ _⟩) rfl rfl
  have r := r.step (Step.flush _ 0 8 ⟨by simp [Dev.complete, upd, g6], g4 8, (by rw [g2]; intro r h; cases h),
    (by rw [g3]; intro r h; cases h)⟩) rfl rfl
  have r := r.step (Step.baseDone _ 0 8 true ⟨_, rfl, fun _ => trivial⟩) rfl rfl
  have r := r.next (RStep.exec _ 0 0 0 2 1 _ _ rfl ⟨by decide, by decide⟩)
  obtain ⟨r', r⟩ := ref_read (x := 1) r (.inr rfl) g1 ⟨by simp [Dev.lateSector, Dev.complete, Dev.issueFlush, upd, g6], g4 9, (by rw [g2]; intro r h; cases h),
    (by rw [g3]; intro r h; cases h)⟩
  refine ⟨r', r.cast ?_⟩
  simp [visible, Dev.result, upd, Dev.lateSector, Dev.issueFlush, fillBuf, refCfg, demoCfg]

/-- **C66 is false of the code** Every request of this run is acknowledged: a write, a flush, and then a read of the same sector.
The read does not return the data of the write: a copy of the stripe that was refused and then repeated was left in the ring
and reached the disk last. No plain disk behaves like that. -/
theorem C66_false : ∃ mv r ls, Bootable refCfg [4, 0] mv ∧
    RRun refCfg (fun _ => True) (RSys.boot refCfg [4, 0] (fun x => x) mv fun _ _ => 0) ls r ∧
    visible ls = [.issue 0 7 (.write 1 1 fun _ => 55), .resp 0 7 true [], .issue 0 8 .flush, .resp 0 8 true [],
     .issue 0 9 (.read 1 1), .resp 0 9 true [some 101]] ∧
    ¬ ∃ v d, Disk.Run (Dev.fresh v) (visible ls) d := by
  obtain ⟨mv, hb⟩ := ref_bootable
  obtain ⟨r, ls, hr, hv⟩ := refused_lost mv
  refine ⟨mv, r, ls, hb, hr, hv, ?_⟩
  rintro ⟨v, d, hd⟩
  rw [hv] at hd
  obtain ⟨m1, g1, g2⟩ := hd.split [.issue 0 7 (.write 1 1 fun _ => 55), .resp 0 7 true []] _ rfl
  obtain ⟨m2, g3, g4⟩ := g2.split [.issue 0 8 .flush, .resp 0 8 true []] _ rfl
  have w : Rest m1 1 55 := Rest.write (es0 := []) (es := []) (data := fun _ => 55) g1 rfl
    (by intro a b q id off cnt data h; simp at h) (quiet_nil _) (unanswered_nil _) ⟨Nat.le_refl _, by decide⟩
  have w := w.run g3 (by intro q id off cnt data h; simp at h) (by simp)
  have := w.read (es := []) g4 (quiet_nil _) (unanswered_nil _) ⟨Nat.le_refl _, by decide⟩
  simp at this

end Verif.Lazy
