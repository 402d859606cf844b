import Verif.Props.LiveArchive
import Verif.Proof.LazyDemo

/-! # C85: where archiving a volume in use goes wrong, and concrete cases -/

set_option maxRecDepth 8000

namespace Verif.LiveArchive
open Verif Verif.Metadata Verif.Disk Verif.Lazy

/-- **C85** "Every recorded sector holds what the volume held there while the tool ran" is false for a stripe marked written before it has been
fetched, which a guest write to a stripe still in the source brings about: `x` was recorded with `v`, but at no moment while the tool ran did the volume hold `v` there. -/
theorem C85_false_half_written :
    ∃ (c : Cfg Bytes) (hdrs : Bytes) (tv mv : Nat → Bytes) (b0 : Nat → Nat → Bytes) (ls0 ls : List (Lab Bytes)) (s0 s : Sys Bytes) (t : Tool Bytes) (x : Nat)
      (v : Bytes), Bootable c hdrs mv ∧ c.track = true ∧ Run c (Sys.boot c hdrs tv mv b0) ls0 s0 ∧ Beside c s0 ls s t ∧ x < c.tsec ∧ c.good x = true ∧
      t.out x = some v ∧ ¬ Held (fun g => preloadWith c g hdrs tv) (visible ls0) (visible ls) x v := by
  obtain ⟨mv, hb⟩ := Restore.late_bootable
  obtain ⟨s, ⟨ls0, hr, hv⟩, h1, h2, h3, h4⟩ := Restore.late_run mv
  obtain ⟨md, t1, ⟨ls1, hB1, hv1⟩, m1, -, hl, hsec⟩ := Along.load hb hr Along.start rfl
  obtain ⟨mv1, hi⟩ := inv hb hr hB1
  have hw := ((hi.md md m1).2 0 (by decide)).written h2
  obtain ⟨t2, ⟨ls, hB, hv2⟩, m2, hse, ho⟩ := Along.disk ⟨ls1, hB1, hv1⟩ m1
  have hrec : recorded (md.headers.getD (5 / Restore.lateCfg.ss) 0) = true := by
    show recorded (md.headers.getD 0 0) = true
    rw [recorded, hw]; rfl
  have hfd : Restore.fromDisk (md.headers.getD (5 / Restore.lateCfg.ss) 0) = true := by
    show Restore.fromDisk (md.headers.getD 0 0) = true
    rw [Restore.fromDisk, hw]; rfl
  have h5 := ho 5 (by decide) hrec hfd
  refine ⟨_, [4], fun _ => zeros 512, mv, fun _ _ => zeros 512, ls0, ls, s, s, t2, 5, _, hb, rfl, hr, hB, by decide, by decide, h5, fun hh => ?_⟩
  obtain ⟨g, hg⟩ := hh.unwritten (by
      rw [hv]
      intro q id off cnt data he hc
      simp only [List.mem_singleton, Ev.issue.injEq, Req.write.injEq] at he
      obtain ⟨-, -, rfl, rfl, -⟩ := he
      exact absurd hc.2 (by decide)) (by rw [hv2]; exact quiet_nil 5)
  rw [h4] at hg
  have h7 : preloadWith Restore.lateCfg g [4] (fun _ => zeros 512) 5 = Restore.seven := rfl
  rw [h7] at hg
  exact Restore.seven_ne hg.symm

/-! ### No single moment -/

def snapCfg : Cfg Bytes := Restore.twoStripes 0

/-- The volume runs the write and the flush; the tool had read the first sector before. -/
theorem snap_run (mv : Nat → Bytes) (hb : Bootable snapCfg [2, 2] mv) : ∃ s t,
    Along snapCfg (Sys.boot snapCfg [2, 2] (fun _ => zeros 512) mv fun _ _ => zeros 512)
      [.issue 0 7 (.write 0 1 fun _ => Restore.seven), .resp 0 7 true [], .issue 0 8 .flush, .resp 0 8 true [],
       .issue 0 9 (.write 1 1 fun _ => Restore.seven), .resp 0 9 true []] s t ∧
    t.out 0 = some (zeros 512) ∧ t.out 1 = some Restore.seven := by
  obtain ⟨md, t1, r, m1, -, hl, hsec⟩ := Along.load hb (.nil (Sys.boot snapCfg [2, 2] (fun _ => zeros 512) mv fun _ _ => zeros 512)) Along.start rfl
  have hmd : md.headers = [2, 2] := by
    obtain ⟨md', h1, h2⟩ := hb.load
    have : fromBytes (devBytes snapCfg.msec mv) = .ok md := hl
    rw [h1, Except.ok.injEq] at this
    rw [← this]; exact h2
  have r := r.tool (.disk _ md 0 m1 (by decide) (by rw [hmd]; decide) (by rw [hmd]; decide))
  have st := Lazy.Step.write (c := snapCfg) (Sys.boot snapCfg [2, 2] (fun _ => zeros 512) mv fun _ _ => zeros 512) 0 7 0 1 (fun _ => Restore.seven) true
    ⟨by decide, by decide, by decide⟩ ⟨rfl, rfl, (by intro r hr; cases hr), (by intro r hr; cases hr)⟩
  have hadd : addWrite snapCfg (Sys.boot snapCfg [2, 2] (fun _ => zeros 512) mv fun _ _ => zeros 512) 0 7 0 1 (fun _ => Restore.seven) true =
      (toBase (Sys.boot snapCfg [2, 2] (fun _ => zeros 512) mv fun _ _ => zeros 512) 0 { id := 7, off := 0, cnt := 1, out := some fun _ => Restore.seven },
        [.toBase 0 { id := 7, off := 0, cnt := 1, out := some fun _ => Restore.seven }]) := rfl
  rw [hadd] at st
  have r := r.step st
  simp only [toBase] at r
  have r := r.quiet (Lazy.Step.execDataW (o := .guest 0 7) (x := 0) rfl ⟨Nat.le_refl _, by decide⟩)
  have r := r.step (Lazy.Step.baseDone _ 0 7 true ⟨_, rfl, fun _ x hx => by
    have : x = 0 := by have : x < 0 + 1 := hx.2; omega
    subst this; rfl⟩)
  have r := r.step (Lazy.Step.flush _ 0 8 ⟨by simp [Sys.setCh, Dev.complete, Dev.issueWrite, upd, Sys.boot, Dev.fresh], rfl,
    (by intro r hr; cases hr), (by intro r hr; cases hr)⟩)
  have r := r.step (Lazy.Step.baseDone _ 0 8 true ⟨_, rfl, fun _ => trivial⟩)
  obtain ⟨s, es, hes, r, g1, g2, g3⟩ : ∃ s es, es = [Ev.issue 0 7 (.write 0 1 fun _ => Restore.seven), .resp 0 7 true [], .issue 0 8 .flush, .resp 0 8 true []] ∧
      Along snapCfg (Sys.boot snapCfg [2, 2] (fun _ => zeros 512) mv fun _ _ => zeros 512) es s
        { t1 with out := upd t1.out 0 (some (zeros 512)) } ∧ s.t.ops (.guest 0 9) = none ∧ s.ch 0 = (Sys.boot snapCfg [2, 2] (fun _ => zeros 512) mv fun _ _ => zeros 512).ch 0 ∧
        s.sh = (Sys.boot snapCfg [2, 2] (fun _ => zeros 512) mv fun _ _ => zeros 512).sh := by
    refine ⟨_, _, ?_, r, ?_, ?_, rfl⟩
    · simp [visible, Dev.result, Dev.issueFlush, Dev.issueWrite]
    · simp [Sys.setCh, Dev.complete, Dev.issueWrite, Dev.issueFlush, upd, Sys.boot, Dev.fresh]
    · rfl
  subst hes
  have st := Lazy.Step.write (c := snapCfg) s 0 9 1 1 (fun _ => Restore.seven) true
    ⟨by decide, by decide, by decide⟩ ⟨g1, by rw [g2]; rfl, (by rw [g2]; intro r hr; cases hr), (by rw [g2]; intro r hr; cases hr)⟩
  have hadd : addWrite snapCfg s 0 9 1 1 (fun _ => Restore.seven) true =
      (toBase s 0 { id := 9, off := 1, cnt := 1, out := some fun _ => Restore.seven },
        [.toBase 0 { id := 9, off := 1, cnt := 1, out := some fun _ => Restore.seven }]) := by
    unfold addWrite
    have e : stripes snapCfg { id := 9, off := 1, cnt := 1, out := some fun _ => Restore.seven : QReq Bytes } = [1] := by decide
    simp only [e, fetchStatus, g3]
    rfl
  rw [hadd] at st
  have r := r.step st
  simp only [toBase] at r
  have r := r.quiet (Lazy.Step.execDataW (o := .guest 0 9) (x := 1) (ops_issueWrite_same _ _ _ _ _) ⟨Nat.le_refl _, by decide⟩)
  have r := r.step (Lazy.Step.baseDone _ 0 9 true ⟨_, rfl, fun _ x hx => by
    have : x = 1 := by have : 1 ≤ x := hx.1; have : x < 1 + 1 := hx.2; omega
    subst this; exact upd_same _ _ _⟩)
  have r := r.tool (.disk _ md 1 m1 (by decide) (by rw [hmd]; decide) (by rw [hmd]; decide))
  have e : ∀ l l' : List (Ev Bytes), l = l' → ∀ s0 s t, Along snapCfg s0 l s t → Along snapCfg s0 l' s t := by
    intro l l' h s0 s t; rw [h]; exact id
  refine ⟨_, _, e _ _ ?_ _ _ _ r, rfl, rfl⟩
  simp [visible, Dev.result, Dev.issueWrite]

theorem Snapshot.sector {D : Type} {d : Disk D} {w : Nat → D} (hw : w = d.vol ∨ d.survives w)
    {x : Nat} {v : D} (h : Durable d x v) : w x = v := by
  rcases hw with rfl | hw
  · exact h.vol
  · exact h.pers _ (hw x)

/-- **C85** "The archive is the content of the volume at one moment" is false, also in the sense of what a power loss could leave. Here a
write is acknowledged and flushed before a second one is sent; the archive has the second and not the first. -/
theorem C85_false_snapshot :
    ∃ (c : Cfg Bytes) (hdrs : Bytes) (tv mv : Nat → Bytes) (b0 : Nat → Nat → Bytes) (ls : List (Lab Bytes)) (s : Sys Bytes) (t : Tool Bytes),
      Bootable c hdrs mv ∧ c.track = true ∧ Beside c (Sys.boot c hdrs tv mv b0) ls s t ∧ (∀ x, x < c.tsec → c.good x = true ∧ (t.out x).isSome = true) ∧
      ¬ Snapshot (fun g => preloadWith c g hdrs tv) [] (visible ls) t.out := by
  obtain ⟨mv, hb⟩ := Restore.two_bootable (s := 0) (by decide)
  have hb : Bootable snapCfg [2, 2] mv := hb
  obtain ⟨s, t, ⟨ls, hB, hv⟩, h0, h1⟩ := snap_run mv hb
  refine ⟨snapCfg, [2, 2], fun _ => zeros 512, mv, fun _ _ => zeros 512, ls, s, t, hb, rfl, hB, fun x hx => ?_, ?_⟩
  · have hx : x < 2 := hx
    match x, hx with
    | 0, _ => exact ⟨by decide, by rw [h0]; rfl⟩
    | 1, _ => exact ⟨by decide, by rw [h1]; rfl⟩
  · rintro ⟨g, e1, e2, d, w, he, hr, hw, ho⟩
    rw [hv] at he
    rw [List.nil_append] at hr
    have w0 := ho 0 _ h0
    have w1 := ho 1 _ h1
    have hini : ∀ x, x < 2 → preloadWith snapCfg g [2, 2] (fun _ => zeros 512) x = zeros 512 := by
      intro x hx
      match x, hx with
      | 0, _ => rfl
      | 1, _ => rfl
    by_cases hq : quiet e1 1
    · have hd : Durable (Dev.fresh (preloadWith snapCfg g [2, 2] fun _ => zeros 512) : Disk Bytes) 1 (zeros 512) :=
        ⟨⟨by intro o off cnt data done h; simp [Dev.fresh] at h, hini 1 (by decide)⟩, fun u hu => by rw [hu]; exact hini 1 (by decide)⟩
      have := Snapshot.sector hw (hd.run hr hq)
      rw [w1] at this
      exact Restore.seven_ne this
    · have hsplit : ∃ e3, quiet e3 0 ∧ e1 = ([] ++ Ev.issue 0 7 (.write 0 1 fun _ => Restore.seven) :: [] ++ [.resp 0 7 true []]) ++
          ((.issue 0 8 .flush :: [] ++ [.resp 0 8 true []]) ++ e3) := by
        have hpre : e1 <+: [Ev.issue 0 7 (.write 0 1 fun _ => Restore.seven), .resp 0 7 true [], .issue 0 8 .flush, .resp 0 8 true [],
            .issue 0 9 (.write 1 1 fun _ => Restore.seven), .resp 0 9 true []] := ⟨e2, he.symm⟩
        rw [List.prefix_iff_eq_take] at hpre
        have hlen : e1.length ≤ 6 := by have := congrArg List.length he; simp at this; omega
        by_cases h4 : e1.length ≤ 4
        · exfalso
          apply hq
          intro q id off cnt data hm
          rw [hpre] at hm
          have hm := List.take_subset_take_left _ h4 hm
          simp only [List.take, List.mem_cons, Ev.issue.injEq, Req.write.injEq, reduceCtorEq, and_false, false_or, or_false, List.not_mem_nil] at hm
          obtain ⟨-, -, rfl, rfl, -⟩ := hm
          intro hc
          exact absurd hc.2 (by decide)
        · have h56 : e1.length = 5 ∨ e1.length = 6 := by omega
          rcases h56 with h | h <;> rw [h] at hpre
          · refine ⟨[.issue 0 9 (.write 1 1 fun _ => Restore.seven)], ?_, hpre⟩
            intro q id off cnt data hm hc
            simp only [List.mem_cons, Ev.issue.injEq, Req.write.injEq, List.not_mem_nil, or_false] at hm
            obtain ⟨-, -, rfl, rfl, -⟩ := hm
            exact absurd hc.1 (by decide)
          · refine ⟨[.issue 0 9 (.write 1 1 fun _ => Restore.seven), .resp 0 9 true []], ?_, hpre⟩
            intro q id off cnt data hm hc
            simp only [List.mem_cons, Ev.issue.injEq, Req.write.injEq, List.not_mem_nil, or_false, reduceCtorEq] at hm
            obtain ⟨-, -, rfl, rfl, -⟩ := hm
            exact absurd hc.1 (by decide)
      obtain ⟨e3, hq3, rfl⟩ := hsplit
      obtain ⟨m1, g1, g2⟩ := hr.split _ _ rfl
      obtain ⟨m2, g3, g4⟩ := g2.split _ _ rfl
      have hd := (Rest.flush (Rest.write g1 rfl (by intro a q id off cnt data b he; simp at he) (quiet_nil _) (unanswered_nil _) (x := 0) ⟨Nat.le_refl _, by decide⟩) g3
        (quiet_nil _) (unanswered_nil _)).run g4 hq3
      have := Snapshot.sector hw hd
      rw [w0] at this
      exact Restore.seven_ne this.symm

/-! ### The hypotheses of the positive statements are met -/

/-- What the backend does while the tool waits. -/
theorem Along.of_run {D : Type} {c : Cfg D} {s0 s s' : Sys D} {t : Tool D} {es es' : List (Ev D)} (h : Along c s0 es s t) (hr : Reach c s es' s')
    (hc : Ev.crash ∉ es') : Along c s0 (es ++ es') s' t := by
  obtain ⟨ls, hr, rfl⟩ := hr
  induction hr with
  | nil => simpa [visible] using h
  | step _ hst ih =>
    rw [visible_append] at hc ⊢
    rw [← List.append_assoc]
    exact (ih fun hm => hc (List.mem_append_left _ hm)).step hst
  | crash => rw [visible_append] at hc; exact absurd (by simp [visible]) hc

/-- A write was acknowledged and flushed; then the tool runs. It loads the metadata and records 55 for the sector written. -/
example : ∃ (mv : Nat → Bytes) (ls0 ls : List (Lab Nat)) (s0 s : Sys Nat) (t : Tool Nat) (md : Meta), Bootable demoCfg [4, 0] mv ∧ demoCfg.track = true ∧
    Run demoCfg (Sys.boot demoCfg [4, 0] (fun x => x) mv fun _ _ => 0) ls0 s0 ∧ Beside demoCfg s0 ls s t ∧
    (∃ v : Nat → Bytes, ∀ x, x < demoCfg.msec → t.sectors x = some (v x)) ∧
    visible ls0 = ([] ++ Ev.issue 0 7 (.write 1 1 fun _ => 55) :: [] ++ [.resp 0 7 true []]) ++ [.issue 0 8 .flush, .resp 0 8 true []] ∧
    covers 1 1 1 ∧ visible ls = [] ∧ t.md = some md ∧ 1 < demoCfg.tsec ∧ demoCfg.good 1 = true ∧ t.out 1 = some 55 ∧
    Restore.archived md (1 / demoCfg.ss) = true ∧ Restore.writtenUnfetched (md.headers.getD (1 / demoCfg.ss) 0) = false := by
  obtain ⟨mv, hb⟩ := demo_bootable
  obtain ⟨s, ⟨ls0, hr, hv⟩, h1, h2, h3, h4⟩ := demo_run mv
  obtain ⟨md, t1, ⟨ls1, hB1, hv1⟩, m1, -, hl, hsec⟩ := Along.load hb hr Along.start rfl
  obtain ⟨t2, ⟨ls, hB, hv2⟩, m2, hse, ho⟩ := Along.disk ⟨ls1, hB1, hv1⟩ m1
  obtain ⟨mv1, hi⟩ := inv hb hr hB
  have hrec := C85_acknowledged_recorded (x := 1) rfl hb hr hB (e0 := []) (e1 := []) hv ⟨Nat.le_refl _, by decide⟩ (unanswered_nil _) m2
  obtain ⟨⟨⟨hd, mv2, hb2, hm⟩, -⟩, -⟩ := run_sim hb rfl hr
  obtain ⟨md', hl', -, hh⟩ := reload hb2 hm hm.dev.vol_pers
  rw [hl, Except.ok.injEq] at hl'
  subst hl'
  have hF := (hh 0 (by decide)).fetched h1
  have hwf : Restore.writtenUnfetched (md.headers.getD 0 0) = false := by
    rw [← half_eq, halfWritten, hF]; simp
  have ho := ho 1 (by decide) (by rw [recorded_eq]; exact hrec) (by
    show Restore.fromDisk (md.headers.getD 0 0) = true
    rw [Restore.fromDisk, hF, Bool.or_true])
  rw [h4] at ho
  refine ⟨mv, ls0, ls, s, s, t2, md, hb, rfl, hr, hB, ⟨_, by rw [hse]; exact hsec⟩, hv, ⟨Nat.le_refl _, by decide⟩, hv2, m2, by decide, by decide, ho, hrec, hwf⟩

/-- The tool loads the metadata before the first write arrives and reads the image; meanwhile the guest writes sector 1. Stripe 1 is left out. -/
example : ∃ (mv : Nat → Bytes) (ls : List (Lab Nat)) (s : Sys Nat) (t : Tool Nat) (md : Meta), Bootable demoCfg [4, 0] mv ∧ demoCfg.track = true ∧
    Beside demoCfg (Sys.boot demoCfg [4, 0] (fun x => x) mv fun _ _ => 0) ls s t ∧
    visible ls = [.issue 0 7 (.write 1 1 fun _ => 55), .resp 0 7 true [], .issue 0 8 .flush, .resp 0 8 true []] ∧
    t.md = some md ∧ s.t.vol 1 = 55 ∧ t.out 1 = some 101 ∧ t.out 0 = some 100 ∧ quiet (visible ls) 0 ∧
    Restore.archived md (0 / demoCfg.ss) = true ∧ Restore.writtenUnfetched (md.headers.getD (0 / demoCfg.ss) 0) = false ∧
    demoCfg.good 2 = true ∧ 2 / demoCfg.ss < demoCfg.n ∧ Restore.archived md (2 / demoCfg.ss) = false := by
  obtain ⟨mv, hb⟩ := demo_bootable
  obtain ⟨md, t1, r, m1, -, hl, hsec⟩ := Along.load hb (.nil (Sys.boot demoCfg [4, 0] (fun x => x) mv fun _ _ => 0)) Along.start rfl
  have hmd : md.headers = [4, 0] := by
    obtain ⟨md', h1, h2⟩ := hb.load
    have : fromBytes (devBytes demoCfg.msec mv) = .ok md := hl
    rw [h1, Except.ok.injEq] at this
    rw [← this]; exact h2
  obtain ⟨s, hr, -, -, -, h4⟩ := demo_run mv
  have r := r.tool (.source _ md 0 100 m1 (by decide) (by rw [hmd]; decide) (by rw [hmd]; decide) rfl)
  have r := r.of_run hr (by simp)
  have r := r.tool (.source _ md 1 101 m1 (by decide) (by rw [hmd]; decide) (by rw [hmd]; decide) rfl)
  obtain ⟨ls, hB, hv⟩ := r
  rw [List.nil_append] at hv
  refine ⟨mv, ls, s, _, md, hb, rfl, hB, hv, m1, h4, rfl, rfl, ?_, ?_, ?_, by decide, by decide, ?_⟩
  · rw [hv]
    intro q id off cnt data hm hc
    simp only [List.mem_cons, Ev.issue.injEq, Req.write.injEq, reduceCtorEq, and_false, false_or, or_false, List.not_mem_nil] at hm
    obtain ⟨-, -, rfl, rfl, -⟩ := hm
    exact absurd hc.1 (by decide)
  · unfold Restore.archived; rw [hmd]; decide
  · rw [hmd]; decide
  · unfold Restore.archived; rw [hmd]; decide

/-- A volume of two written stripes of 64 sectors archived while attached, and a volume restored from the archive: `C85_restored_partial`
covers every sector, and the new volume reads `seven` where the old one did. -/
example : ∃ (c' : Cfg Bytes) (mv nmv : Nat → Bytes) (ls : List (Lab Bytes)) (s : Sys Bytes) (t : Tool Bytes) (md : Meta) (als : List Archive.Lab)
    (ast : Archive.St) (src : Archive.Src), Bootable (Restore.twoStripes 6) [2, 2] mv ∧
    Beside (Restore.twoStripes 6) (Sys.boot (Restore.twoStripes 6) [2, 2] (Restore.twoDisk 6) mv fun _ _ => zeros 512) ls s t ∧
    t.md = some md ∧ Delivered (Restore.twoStripes 6) t (Restore.demoA 2 64 [2, 2]) als ∧
    Restore.Finished (Restore.demoA 2 64 [2, 2]) (fun _ => none) als ast src ∧
    Restore.Restored (Restore.demoA 2 64 [2, 2]).P src ast.store 6 c' nmv ∧ c'.ss = (Restore.twoStripes 6).ss ∧
    (∀ x, x < (Restore.twoStripes 6).tsec → (Restore.twoStripes 6).good x = true ∧ x / 64 < (Restore.twoStripes 6).n ∧ x / 64 < c'.n ∧
      Restore.writtenUnfetched (md.headers.getD (x / 64) 0) = false ∧ Restore.archived md (x / 64) = true) ∧
    ∀ ntv, preload c' (Meta.newFromSource 6 c'.n src.hasStripe).headers ntv 64 = Restore.seven := by
  obtain ⟨mv, hb⟩ := Restore.two_bootable (s := 6) (by decide)
  have hb : Bootable (Restore.twoStripes 6) [2, 2] mv := hb
  have h0 := Run.nil (c := Restore.twoStripes 6) (Sys.boot (Restore.twoStripes 6) [2, 2] (Restore.twoDisk 6) mv fun _ _ => zeros 512)
  obtain ⟨md, t1, r, m1, -, hl, -⟩ := Along.load hb h0 Along.start rfl
  have hmd : md.headers = [2, 2] := by
    obtain ⟨md', h1, h2⟩ := hb.load
    have : fromBytes (devBytes (Restore.twoStripes 6).msec mv) = .ok md := hl
    rw [h1, Except.ok.injEq] at this
    rw [← this]; exact h2
  obtain ⟨t, ⟨ls, hB, hv⟩, m2, -, ho⟩ := Along.disk r m1
  let bufs : Nat → Bytes := fun k => if k = 1 then Restore.stripeOf 64 Restore.seven else zeros (64 * 512)
  obtain ⟨als, ast, src, hf, hlab⟩ := Restore.demo_finished (count := 2) (ssc := 64) (headers := [2, 2]) (b := Restore.stripeOf 64 Restore.seven)
    (bufs := bufs) (by decide) (by decide) (by decide) (fun id => by
      show (if id = 1 then _ else _ : Bytes).length = _
      split
      · exact Restore.stripeOf_length Restore.seven_length (by decide)
      · exact zeros_length _)
    (fun id => by show (if id = 1 then _ else _) = _ ∨ (if id = 1 then _ else _) = _; split <;> simp)
  have hst : src.stripes ≤ 2 := Restore.stripes_le hf
  have hsc : src.ssc = 64 := Restore.ssc_of hf
  obtain ⟨nmv, hr⟩ := Restore.newVol_restored (P := (Restore.demoA 2 64 [2, 2]).P) (store := ast.store) (src := src) (shift := 6) (n := 2)
    (by decide) (by decide) (by rw [hsc]; show _ ≤ 2 * 64; omega)
  have hh : ∀ k, k < 2 → md.headers.getD k 0 = 2 := by
    intro k hk
    rw [hmd]
    match k, hk with
    | 0, _ => rfl
    | 1, _ => rfl
  have hd : Delivered (Restore.twoStripes 6) t (Restore.demoA 2 64 [2, 2]) als := by
    refine ⟨rfl, ⟨md, m2, hmd.symm⟩, rfl, fun k buf hk i hi md' hm' hlt _ => ?_⟩
    rw [hlab _ _ _ hk]
    have hi : i < 64 := hi
    have hlt : k * 64 + i < 128 := hlt
    have hk2 : k = 0 ∨ k = 1 := by omega
    have hq : (k * 64 + i) / (Restore.twoStripes 6).ss < 2 := by show (k * 64 + i) / 64 < 2; omega
    show t.out (k * 64 + i) = _
    rw [ho _ hlt (by rw [hh _ hq]; decide) (by rw [hh _ hq]; decide), Option.some.injEq]
    show (if k * 64 + i = 64 then _ else _) = slice (if k = 1 then _ else _) _ _
    rcases hk2 with rfl | rfl
    · rw [if_neg (by omega), if_neg (by decide), Archive.slice_zeros _ _ _ (by omega)]
    · rw [if_pos rfl, Restore.stripeOf_slice Restore.seven_length hi]
      by_cases h0 : i = 0
      · rw [if_pos h0, if_pos (by omega)]
      · rw [if_neg h0, if_neg (by omega)]
  have hx : ∀ x, x < (Restore.twoStripes 6).tsec → (Restore.twoStripes 6).good x = true ∧ x / 64 < (Restore.twoStripes 6).n ∧ x / 64 < 2 ∧
      Restore.writtenUnfetched (md.headers.getD (x / 64) 0) = false ∧ Restore.archived md (x / 64) = true := by
    intro x hx
    have hx : x < 128 := hx
    refine ⟨rfl, by show _ < 2; omega, by omega, ?_, ?_⟩
    · rw [hh _ (by omega)]; decide
    · unfold Restore.archived; rw [hh _ (by omega)]; decide
  refine ⟨_, mv, nmv, ls, _, t, md, als, ast, src, hb, hB, m2, hd, hf, hr, rfl, hx, fun ntv => ?_⟩
  obtain ⟨g1, g2, g3, g4, g5⟩ := hx 64 (by decide)
  have := (C85_restored_partial (ntv := ntv) hb h0 hB m2 hd hf hr rfl (x := 64) (by decide) g1 g2 g3 g4).1 g5
  obtain ⟨g, hg⟩ := this.unwritten (quiet_nil _) (by rw [hv]; exact quiet_nil _)
  rw [hg]
  rfl

end Verif.LiveArchive
