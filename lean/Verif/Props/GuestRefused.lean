import Verif.Model.GuestRefused
import Verif.Props.LazyRefused

/-! # C69: a guest request whose submission is refused

False of the code with the io_uring engine: the request is reported as failed, but its entry stays in the ring and the next accepted
submission of the channel hands it to the kernel. The write that "failed" then overwrites a newer one (`C69_false`), and its completion
answers a request that has already been answered (`C69_false_twice`). The property holds as long as no left-over entry reaches
the kernel. -/

set_option maxRecDepth 8000

namespace Verif.Lazy
open Verif Verif.Metadata Verif.Disk

variable {D : Type} {c : Cfg D} {hdrs : Bytes} {tv : Nat → D} {mv : Nat → Bytes} {b0 : Nat → Nat → D}

theorem GRun.last {P : GSys D → Prop} {ls : List (Lab D)} {g0 g : GSys D} (h : GRun c P g0 ls g) : P g := by cases h <;> assumption

/-- Without left-over entries in the kernel the steps are those of the lazy disk. -/
theorem GRun.closed {ls : List (Lab D)} {g0 g : GSys D} (h : GRun c (fun g => g.late = []) g0 ls g) : Run c g0.s ls g.s := by
  induction h with
  | nil => exact .nil _
  | snoc hr hs hp ih =>
    have hl := hr.last
    cases hs with
    | step a _ s' h ha => exact ih.step h
    | refused q r rest _ s' h hq hc => exact ih.step h
    | exec i q id off cnt x data done h hx => rw [hl] at h; simp at h
    | done i q id op ok h hf => rw [hl] at h; simp at h
  | crash buf0 hr ht hm hmd hp ih => exact ih.crash buf0 ht hm hmd

/-- **C69** (partial: until a submission on the channel is accepted after a refused one) However many submissions of waiting requests
are refused, the guest sees a plain disk, also across power losses, as long as no entry of a refused submission has reached the kernel.
The synchronous engine refuses none (bdev_sync.rs:90-92). -/
theorem C69_guest_refused_partial {ls : List (Lab D)} {g : GSys D} (hb : Bootable c hdrs mv)
    (h : GRun c (fun g => g.late = []) (GSys.boot c hdrs tv mv b0) ls g) :
    ∃ gg d, Disk.Run (Dev.fresh (preloadWith c gg hdrs tv)) (visible ls) d := C05_refines_plain_disk hb h.closed

/-! ## What goes wrong -/

/-- Reached with the guest seeing `es`. -/
def GReach (c : Cfg D) (P : GSys D → Prop) (g0 : GSys D) (es : List (Ev D)) (g : GSys D) : Prop := ∃ ls, GRun c P g0 ls g ∧ visible ls = es

variable {P : GSys D → Prop}

theorem GReach.next {g0 g g' : GSys D} {es : List (Ev D)} {ls : List (Lab D)} (h : GReach c P g0 es g) (hs : GStep c g ls g') (hp : P g') :
    GReach c P g0 (es ++ visible ls) g' := by
  obtain ⟨l, h1, rfl⟩ := h
  exact ⟨_, h1.snoc hs hp, visible_append _ _⟩

theorem GReach.cast {g0 g : GSys D} {es es' : List (Ev D)} (h : GReach c P g0 es g) (e : es = es') : GReach c P g0 es' g := e ▸ h

/-- A step with an empty ring. -/
theorem GReach.step {g0 : GSys D} {s s' : Sys D} {late : List (Nat × Nat × Op D)} {es : List (Ev D)} {a : Act D} {ls : List (Lab D)}
    (h : GReach c P g0 es { s, ring := [], late }) (hs : Step c s a ls s') (ha : a.accepted = true)
    (hp : P { s := s', ring := [], late }) : GReach c P g0 (es ++ visible ls) { s := s', ring := [], late } := by
  have := h.next (.step _ a ls s' hs ha) (by simpa using hp)
  simpa using this

theorem GReach.quiet {g0 : GSys D} {s s' : Sys D} {late : List (Nat × Nat × Op D)} {es : List (Ev D)} {a : Act D}
    (h : GReach c P g0 es { s, ring := [], late }) (hs : Step c s a [] s') (ha : a.accepted = true)
    (hp : P { s := s', ring := [], late }) : GReach c P g0 es { s := s', ring := [], late } := by
  simpa [visible] using h.step hs ha hp

/-- One metadata update of stripe 0 runs to its end. -/
theorem grefused_meta {g0 : GSys D} {s : Sys D} {es : List (Ev D)} (h : GReach c P g0 es { s, ring := [], late := [] })
    (hP : ∀ s ring, P { s, ring, late := [] }) {mask : UInt8} {q : List (Nat × UInt8)} {n : Nat}
    (h1 : s.fl.queue = (0, mask) :: q) (h2 : s.fl.free = n + 1) (h3 : s.fl.busy 1 = false) (h4 : flag (s.fl.hdrs.getD 0 0) mask = false)
    (f w : Bool) (hf : flag (s.fl.hdrs.getD 0 0 ||| mask) FETCHED = f) (hw : flag (s.fl.hdrs.getD 0 0 ||| mask) WRITTEN = w) :
    ∃ s', GReach c P g0 es { s := s', ring := [], late := [] } ∧
      s'.sh.fs = (if f then upd s.sh.fs 0 .fetched else s.sh.fs) ∧ s'.ch = s.ch ∧ s'.t = s.t := by
  have r := h.quiet (Step.startMeta _ true _ (startMeta_go h1 h2 h3 h4)) rfl (hP _ _)
  have r := r.quiet (Step.execMetaW (k := 0) (x := 1) (ops_issueWrite_same _ _ _ _ _) ⟨Nat.le_refl _, by decide⟩) rfl (hP _ _)
  have r := r.quiet (Step.metaDone _ 0 true true ⟨_, rfl, fun _ x hx => by
    have : x = 1 := by have : 1 ≤ x := hx.1; have : x < 1 + 1 := hx.2; omega
    subst this; exact upd_same _ _ _⟩) rfl (hP _ _)
  have r := r.quiet (Step.metaFlushed (k := 0) f w rfl rfl ⟨_, rfl, fun _ => trivial⟩ hf hw) rfl (hP _ _)
  exact ⟨_, r, rfl, rfl, rfl⟩

/-- What the refused submission leaves behind: the write is gone from the waiting queue and will be reported as failed. -/
def grefState (s : Sys Nat) : Sys Nat := finishFalse (s.setCh 0 fun ch =>
      { ch with queue := [], requested := fun k => ch.requested k && !(stripes refCfg demoWrite).contains k }) 0 7

/-- The guest's write has waited for its stripe, its submission is refused, and the guest is told that it failed. -/
theorem grefused_write (P : GSys Nat → Prop) (hP : ∀ s ring, P { s, ring, late := [] }) (mv : Nat → Bytes) :
    ∃ s, GReach refCfg P (GSys.boot refCfg [4, 0] (fun x => x) mv fun _ _ => 0)
      [.issue 0 7 (.write 1 1 fun _ => 55), .resp 0 7 false []]
      { s := s, ring := [(0, 7, .write 1 1 (fun _ => 55) fun _ => false)], late := [] } ∧
    s.sh.fs 0 = .fetched ∧ (s.ch 0).queue = [] ∧ (s.ch 0).finished = [] ∧
    (∀ id, (s.ch 0).img id = none) ∧ ∀ id, s.t.ops (.guest 0 id) = none := by
  have r : GReach refCfg P (GSys.boot refCfg [4, 0] (fun x => x) mv fun _ _ => 0) []
    { s := Sys.boot refCfg [4, 0] (fun x => x) mv fun _ _ => 0, ring := [], late := [] } := ⟨[], .nil _ (hP _ _), rfl⟩
  have r := r.step (Step.write _ 0 7 1 1 (fun _ => 55) true ⟨by decide, by decide, by decide⟩
    ⟨rfl, rfl, (by intro r hr; cases hr), (by intro r hr; cases hr)⟩) rfl (hP _ _)
  have r := r.step (Step.receiveFetch _ 0 [] rfl) rfl (hP _ _)
  have r := r.step (Step.startFetch _ true _ _ rfl) rfl (hP _ _)
  have r := r.step (Step.sourceDone _ 0 true true (fun _ => 0) _ _ rfl) rfl (hP _ _)
  have r := r.step (Step.execData _ (.fetch 0) 0) rfl (hP _ _)
  have r := r.step (Step.execData _ (.fetch 0) 1) rfl (hP _ _)
  have r := r.step (Step.targetDone _ 0 true true ⟨_, rfl, fun _ x hx => by
    have : x = 0 ∨ x = 1 := by have : x < 0 + 2 := hx.2; omega
    rcases this with rfl | rfl <;> rfl⟩) rfl (hP _ _)
  have r := r.step (Step.targetDone _ 0 true true ⟨_, rfl, fun _ => trivial⟩) rfl (hP _ _)
  have r := r.step (Step.takeFinished _ 0 true [] rfl) rfl (hP _ _)
  obtain ⟨s1, r, h3, h4, h5, h6, h9, h10, h11, h13⟩ : ∃ s, GReach refCfg P (GSys.boot refCfg [4, 0] (fun x => x) mv fun _ _ => 0)
      [.issue 0 7 (.write 1 1 fun _ => 55)] { s, ring := [], late := [] } ∧
      s.fl.hdrs = [4, 0] ∧ s.fl.queue = [(0, 1)] ∧ s.fl.free = 16 ∧
      s.fl.busy 1 = false ∧ (s.ch 0).queue = [demoWrite] ∧ (s.ch 0).finished = [] ∧
      (∀ id, (s.ch 0).img id = none) ∧ ∀ id, s.t.ops (.guest 0 id) = none :=
    ⟨_, r, rfl, rfl, rfl, rfl, rfl, rfl, fun _ => rfl, fun _ => rfl⟩
  obtain ⟨s2, r, k5, k7, k8⟩ := grefused_meta r hP h4 h5 h6 (by rw [h3]; decide) true false (by rw [h3]; decide) (by rw [h3]; decide)
  have hfs : s2.sh.fs 0 = .fetched := by rw [k5]; rfl
  have hst : stripes refCfg demoWrite = [0] := by decide
  have hq : (s2.ch 0).queue = [demoWrite] := by rw [k7, h9]
  have hpq : processQueue refCfg s2 0 false = some (grefState s2, [.unwait 0 7]) := by
    unfold processQueue grefState
    rw [hq]
    simp only [hst, fetchStatus, hfs]
    simp [demoWrite, refCfg]
  have r := r.next (GStep.refused _ 0 demoWrite [] _ _ (Step.processQueue _ 0 false _ _ hpq) hq
    (by simp only [hst, fetchStatus, hfs])) (hP _ _)
  have hfin : (grefState s2).ch 0 = { (grefState s2).ch 0 with finished := [(7, false)] } := by
    simp [grefState, finishFalse, Sys.setCh, upd, k7, h10]
  have r := r.next (GStep.step _ _ _ _ (Step.reportFinished _ 0 7 false [] (by rw [hfin])) rfl) (hP _ _)
  refine ⟨_, r.cast (by simp [visible]), ?_, ?_, ?_, ?_, ?_⟩
  · simpa [grefState, finishFalse, Sys.setCh, upd] using hfs
  · simp [grefState, finishFalse, Sys.setCh, upd]
  · simp [grefState, finishFalse, Sys.setCh, upd]
  · simp [grefState, finishFalse, Sys.setCh, upd, k7, h11]
  · simp [grefState, finishFalse, Sys.setCh, k8, h13]

/-- The hypotheses of `C69_guest_refused_partial` are met with a refused submission. -/
example (mv : Nat → Bytes) : ∃ ls g, GRun refCfg (fun g => g.late = []) (GSys.boot refCfg [4, 0] (fun x => x) mv fun _ _ => 0) ls g ∧
    visible ls = [.issue 0 7 (.write 1 1 fun _ => 55), .resp 0 7 false []] ∧ g.ring.length = 1 := by
  obtain ⟨s, ⟨ls, h, hv⟩, -⟩ := grefused_write (fun g => g.late = []) (fun _ _ => rfl) mv
  exact ⟨ls, _, h, hv, rfl⟩

/-- The guest tries again with other data and flushes; both are acknowledged, and the left-over entry is in the kernel's hands. -/
theorem grefused_retry (mv : Nat → Bytes) : ∃ s, GReach refCfg (fun _ => True) (GSys.boot refCfg [4, 0] (fun x => x) mv fun _ _ => 0)
      [.issue 0 7 (.write 1 1 fun _ => 55), .resp 0 7 false [], .issue 0 8 (.write 1 1 fun _ => 66), .resp 0 8 true [],
       .issue 0 6 .flush, .resp 0 6 true []]
      { s := s, ring := [], late := [(0, 7, .write 1 1 (fun _ => 55) fun _ => false)] } ∧
    s.sh.fs 0 = .fetched ∧ s.idFree 0 9 := by
  obtain ⟨s, r, hfs, hq, hfin, hi, hn⟩ := grefused_write (fun _ => True) (fun _ _ => trivial) mv
  have hst : stripes refCfg { id := 8, off := 1, cnt := 1, out := some (fun _ => 66) : QReq Nat } = [0] := by decide
  have hadd : addWrite refCfg s 0 8 1 1 (fun _ => 66) true = (toBase s 0 { id := 8, off := 1, cnt := 1, out := some fun _ => 66 },
      [.toBase 0 { id := 8, off := 1, cnt := 1, out := some fun _ => 66 }]) := by
    unfold addWrite
    simp only [hst, fetchStatus, hfs]
    simp [refCfg]
  have st := Step.write (c := refCfg) s 0 8 1 1 (fun _ => 66) true ⟨by decide, by decide, by decide⟩
    ⟨hn 8, hi 8, (by rw [hq]; intro r h; cases h), (by rw [hfin]; intro r h; cases h)⟩
  rw [hadd] at st
  have r := r.next (GStep.step _ _ _ _ st rfl) trivial
  simp [submitsOn] at r
  simp only [toBase] at r
  obtain ⟨s3, e3, g1, g2, g3, g4, g5, g6⟩ : ∃ s3 : Sys Nat, { s with t := s.t.issueWrite (.guest 0 8) 1 1 fun _ => 66 } = s3 ∧
      s3.sh.fs 0 = .fetched ∧ (s3.ch 0).queue = [] ∧ (s3.ch 0).finished = [] ∧
      (∀ id, (s3.ch 0).img id = none) ∧ s3.t.ops (.guest 0 8) = some (.write 1 1 (fun _ => 66) fun _ => false) ∧
      ∀ id, id ≠ 8 → s3.t.ops (.guest 0 id) = none :=
    ⟨_, rfl, hfs, hq, hfin, hi, by simp [Dev.issueWrite], by intro id h; simp [upd, Dev.issueWrite, h, hn]⟩
  rw [e3] at r
  have r := r.quiet (Step.execDataW (o := .guest 0 8) (x := 1) g5 ⟨Nat.le_refl _, by decide⟩) rfl trivial
  have r := r.step (Step.baseDone _ 0 8 true ⟨_, rfl, fun _ x hx => by
    have : x = 1 := by have : 1 ≤ x := hx.1; have : x < 1 + 1 := hx.2; omega
    subst this; exact upd_same _ _ _⟩) rfl trivial
  have r := r.step (Step.flush _ 0 6 ⟨by simp [Dev.complete, upd, g6], g4 6, (by rw [g2]; intro r h; cases h),
    (by rw [g3]; intro r h; cases h)⟩) rfl trivial
  have r := r.step (Step.baseDone _ 0 6 true ⟨_, rfl, fun _ => trivial⟩) rfl trivial
  refine ⟨_, r.cast ?_, g1, by simp [Dev.complete, Dev.issueFlush, upd, g6], g4 9, (by rw [g2]; intro r h; cases h),
    (by rw [g3]; intro r h; cases h)⟩
  simp [visible, Dev.result, upd, Dev.issueFlush]

/-- A read of the sector, once the stripe counts as fetched. -/
theorem gref_read {g0 : GSys Nat} {s : Sys Nat} {late : List (Nat × Nat × Op Nat)} {es : List (Ev Nat)}
    (h : GReach refCfg (fun _ => True) g0 es { s, ring := [], late }) (hfs : s.sh.fs 0 = .fetched) (hid : s.idFree 0 9) :
    ∃ r, GReach refCfg (fun _ => True) g0 (es ++ [.issue 0 9 (.read 1 1), .resp 0 9 true [some (s.t.vol 1)]]) r := by
  have hst : stripes refCfg { id := 9, off := 1, cnt := 1, out := none : QReq Nat } = [0] := by decide
  have hadd : addRead refCfg s 0 9 1 1 true = (toBase s 0 { id := 9, off := 1, cnt := 1, out := none },
      [.toBase 0 { id := 9, off := 1, cnt := 1, out := none }]) := by
    unfold addRead
    simp only [hst, fetchStatus, hfs]
  have st := Step.read (c := refCfg) s 0 9 1 1 true ⟨by decide, by decide, by decide⟩ (fun h => by cases h) hid
  rw [hadd] at st
  have r := h.step st rfl trivial
  simp only [toBase] at r
  have r := r.quiet (Step.execDataR (o := .guest 0 9) (x := 1) rfl ⟨Nat.le_refl _, by decide⟩) rfl trivial
  have r := r.step (Step.baseDone _ 0 9 true ⟨_, rfl, fun _ y hy => by
    have : y = 1 := by have : 1 ≤ y := hy.1; have : y < 1 + 1 := hy.2; omega
    subst this; simp [upd]⟩) rfl trivial
  refine ⟨_, r.cast ?_⟩
  simp [visible, Dev.result, upd, Dev.issueRead, List.range_succ]

/-- **C69 is false of the code** The guest's first write is reported as failed. It writes again, with other data, and flushes; both are
acknowledged. Then a read returns the data of the write that failed. No plain disk behaves like that. -/
theorem C69_false : ∃ mv g ls, Bootable refCfg [4, 0] mv ∧
    GRun refCfg (fun _ => True) (GSys.boot refCfg [4, 0] (fun x => x) mv fun _ _ => 0) ls g ∧
    visible ls = [.issue 0 7 (.write 1 1 fun _ => 55), .resp 0 7 false [], .issue 0 8 (.write 1 1 fun _ => 66), .resp 0 8 true [],
       .issue 0 6 .flush, .resp 0 6 true [], .issue 0 9 (.read 1 1), .resp 0 9 true [some 55]] ∧
    ¬ ∃ v d, Disk.Run (Dev.fresh v) (visible ls) d := by
  obtain ⟨mv, hb⟩ := ref_bootable
  obtain ⟨s, r, hfs, hid⟩ := grefused_retry mv
  have r := r.next (GStep.exec _ 0 0 7 1 1 1 _ _ rfl ⟨by decide, by decide⟩) trivial
  obtain ⟨g, ls, hr, hv⟩ := gref_read r hfs ⟨by simp [Dev.lateSector, hid.1], hid.2⟩
  have hv : visible ls = [.issue 0 7 (.write 1 1 fun _ => 55), .resp 0 7 false [], .issue 0 8 (.write 1 1 fun _ => 66), .resp 0 8 true [],
       .issue 0 6 .flush, .resp 0 6 true [], .issue 0 9 (.read 1 1), .resp 0 9 true [some 55]] := by
    rw [hv]; simp [visible, Dev.lateSector]
  refine ⟨mv, g, ls, hb, hr, hv, ?_⟩
  rintro ⟨v, d, hd⟩
  rw [hv] at hd
  obtain ⟨m1, g1, g2⟩ := hd.split [.issue 0 7 (.write 1 1 fun _ => 55), .resp 0 7 false [],
    .issue 0 8 (.write 1 1 fun _ => 66), .resp 0 8 true []] _ rfl
  obtain ⟨m2, g3, g4⟩ := g2.split [.issue 0 6 .flush, .resp 0 6 true []] _ rfl
  have w : Rest m1 1 66 := Rest.write (es0 := [.issue 0 7 (.write 1 1 fun _ => 55), .resp 0 7 false []]) (es := [])
    (data := fun _ => 66) g1 rfl
    (by
      intro a b q id off cnt data h _ hu
      match a, h with
      | [], h =>
        simp only [List.nil_append, List.cons.injEq, Ev.issue.injEq] at h
        obtain ⟨⟨rfl, rfl, -⟩, rfl⟩ := h
        exact (hu _ (List.mem_singleton.mpr rfl)).1 rfl
      | [_], h => simp at h
      | _ :: _ :: a, h => simp at h)
    (quiet_nil _) (unanswered_nil _) ⟨Nat.le_refl _, by decide⟩
  have w := w.run g3 (by intro q id off cnt data h; simp at h) (by simp)
  have := w.read (es := []) g4 (quiet_nil _) (unanswered_nil _) ⟨Nat.le_refl _, by decide⟩
  simp at this

/-- A plain disk answers only requests that were issued since the last answer. -/
theorem _root_.Verif.Disk.Disk.Run.stays_free {d d' : Disk D} {es : List (Ev D)} (h : Disk.Run d es d') {o : Nat × Nat} (h0 : d.ops o = none)
    (hi : ∀ r, Ev.issue o.1 o.2 r ∉ es) : d'.ops o = none := by
  refine h.inv (fun d => d.ops o = none) h0 fun d1 es1 d2 hs he hd => ?_
  cases hs with
  | issue q id r hn =>
    have hne : o ≠ (q, id) := by
      rintro rfl
      exact hi r (he _ (List.mem_singleton_self _))
    cases r <;> simp [Disk.issue, Dev.issueRead, Dev.issueWrite, Dev.issueFlush, upd, hne, hd]
  | exec o' x =>
    cases ho : (Dev.exec d1 o' x).ops o with
    | none => rfl
    | some op =>
      exfalso
      unfold Dev.exec at ho
      repeat' split at ho
      all_goals
        by_cases h : o = o'
        · subst h; simp_all
        · simp_all [upd]
  | respond q id ok hm => by_cases h : o = (q, id) <;> simp [Dev.complete, upd, h, hd]
  | crash v hv => rfl

/-- **C69 is false of the code**, a second way: the completion of the left-over entry comes back with the id of the request that was
reported as failed, so the same request is answered twice, the second time with success. With another request in that slot it
would be that request that is answered. -/
theorem C69_false_twice : ∃ mv g ls, Bootable refCfg [4, 0] mv ∧
    GRun refCfg (fun _ => True) (GSys.boot refCfg [4, 0] (fun x => x) mv fun _ _ => 0) ls g ∧
    visible ls = [.issue 0 7 (.write 1 1 fun _ => 55), .resp 0 7 false [], .issue 0 8 (.write 1 1 fun _ => 66), .resp 0 8 true [],
       .issue 0 6 .flush, .resp 0 6 true [], .resp 0 7 true []] ∧
    ¬ ∃ v d, Disk.Run (Dev.fresh v) (visible ls) d := by
  obtain ⟨mv, hb⟩ := ref_bootable
  obtain ⟨s, r, hfs, hid⟩ := grefused_retry mv
  have r := r.next (GStep.exec _ 0 0 7 1 1 1 _ _ rfl ⟨by decide, by decide⟩) trivial
  have r := r.next (GStep.done _ 0 0 7 _ true rfl (fun _ x hx => by
    have : x = 1 := by have : 1 ≤ x := hx.1; have : x < 1 + 1 := hx.2; omega
    subst this; exact upd_same _ _ _)) trivial
  obtain ⟨ls, hr, hv⟩ := r
  refine ⟨mv, _, ls, hb, hr, hv, ?_⟩
  rintro ⟨v, d, hd⟩
  rw [hv] at hd
  have hd : Disk.Run (Dev.fresh v) ([.issue 0 7 (.write 1 1 fun _ => 55)] ++ .resp 0 7 false [] :: ([.issue 0 8 (.write 1 1 fun _ => 66),
    .resp 0 8 true [], .issue 0 6 .flush, .resp 0 6 true []] ++ [.resp 0 7 true []])) d := hd
  obtain ⟨m1, -, g2⟩ := hd.split _ _ rfl
  obtain ⟨m2, m3, -, h2, h3⟩ := Disk.Run.event g2
  obtain ⟨-, rfl, -⟩ := resp_inv h2
  obtain ⟨m4, g4, g5⟩ := h3.split _ _ rfl
  obtain ⟨m5, m6, h5, h6, -⟩ := Disk.Run.event g5
  obtain ⟨⟨op, ho, -⟩, -⟩ := resp_inv h6
  have hn := (g4.trans h5).stays_free (o := (0, 7)) (by simp [Dev.complete]) (by simp)
  rw [hn] at ho
  cases ho

end Verif.Lazy
