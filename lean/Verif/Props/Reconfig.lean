import Verif.Proof.Reconfig
import Verif.Proof.LazyDemo

/-! # C93: settings changed between two starts of the backend

`ConfRun ok c0 s0 es c s d` (Model/Reconfig): the backend is started with configuration `c0`, and after every power loss
(`some .crash`) or death of the process (`none`) with any other configuration for the same volume that satisfies `ok`:
another kind of source, a source with fewer stripes or none, `autofetch`, `copy_on_read` and `track_written` on or off.
`es` is what the guests see. `Disk.KRun` (Spec/DiskKill) is the plain disk.

The full property has two parts. *Data*: whatever the settings of each run, the guests see one plain disk; it inherits
the gap of C64 (a power loss after a death with unflushed metadata), hence `_partial`. *Flags*: a stripe not marked as
written has its original content. That is false if tracking was off in an earlier run (`C93_false_tracking`) and proved
if it was on in all of them (`C93_tracked`). -/

set_option maxRecDepth 8000

namespace Verif.Lazy
open Verif Verif.Metadata Verif.Disk

variable {D : Type} {c c' c0 : Cfg D} {ok : Cfg D → Prop} {hdrs : Bytes} {tv tv' : Nat → D} {mv mv' : Nat → Bytes} {b0 : Nat → Nat → D}
  {s : Sys D} {es : List (Option (Ev D))} {d : Bool} {md : Meta}

/-- **C93** Whatever settings the volume is started with each time, the guests see one plain disk, which held the image on the stripes to
be fetched and the local contents elsewhere when it was first started. -/
theorem C93_plain_disk_partial (hb : Bootable c0 hdrs mv) (h : ConfRun ok c0 (Sys.boot c0 hdrs tv mv b0) es c s d) :
    ∃ g a, Disk.KRun (Dev.fresh (preloadWith c0 g hdrs tv)) es a :=
  let ⟨_, _, hfam, _⟩ := (conf_sim hb rfl h).1
  let ⟨g, a, _, h1, _⟩ := hfam.sim
  ⟨g, a, h1⟩

/-- **C93** At any moment, whatever survives a power loss, the volume can be started with any settings: the metadata load and describe
the same stripes. -/
theorem C93_starts (hb : Bootable c0 hdrs mv) (h : ConfRun ok c0 (Sys.boot c0 hdrs tv mv b0) es c s false) (hv : SameVolume c c')
    (hm : s.m.survives mv') : ∃ md, fromBytes (devBytes c'.msec mv') = .ok md ∧ Bootable c' md.headers mv' := by
  obtain ⟨p, hs, hp⟩ := ((conf_sim hb rfl h).1.change hv).survives
  obtain ⟨⟨⟨_, _, hb', hmeta⟩, -⟩, -⟩ := hs
  obtain ⟨md, h1, h2, -⟩ := reload hb' hmeta (mv' := mv') fun x => hp x _ (hm x)
  exact ⟨md, h1, h2⟩

theorem conf_same (hb : Bootable c0 hdrs mv) {s0 : Sys D} (h : ConfRun ok c0 s0 es c s d) : SameVolume c0 c := by
  induction h with
  | nil => exact ⟨rfl, rfl, rfl, rfl, rfl, rfl, rfl, hb.srcStripes⟩
  | step _ _ ih => exact ih
  | flush _ _ _ ih => exact ih
  | crash _ _ hv _ _ _ _ ih => exact ⟨hv.ss.trans ih.ss, hv.n.trans ih.n, hv.tsec.trans ih.tsec, hv.msec.trans ih.msec, hv.hs.trans ih.hs,
      hv.src.trans ih.src, hv.enc.trans ih.enc, hv.srcStripes⟩
  | kill _ _ hv _ _ ih => exact ⟨hv.ss.trans ih.ss, hv.n.trans ih.n, hv.tsec.trans ih.tsec, hv.msec.trans ih.msec, hv.hs.trans ih.hs,
      hv.src.trans ih.src, hv.enc.trans ih.enc, hv.srcStripes⟩
  | cleanKill _ _ hv _ _ _ ih => exact ⟨hv.ss.trans ih.ss, hv.n.trans ih.n, hv.tsec.trans ih.tsec, hv.msec.trans ih.msec, hv.hs.trans ih.hs,
      hv.src.trans ih.src, hv.enc.trans ih.enc, hv.srcStripes⟩

/-- **C93** If written tracking was on in every run, a stripe whose flags say "not written" presents its original content, and holds it
if it is local, whatever else was changed in between. -/
theorem C93_tracked (hb : Bootable c0 hdrs mv) (h : ConfRun (fun c => c.track = true) c0 (Sys.boot c0 hdrs tv mv b0) es c s false)
    (h1 : s.t.survives tv') (h2 : s.m.survives mv') (h3 : fromBytes (devBytes c0.msec mv') = .ok md) {x : Nat} (hx : x < c0.tsec)
    (hg : c0.good x = true) (hw : flag (md.headers.getD (x / c0.ss) 0) WRITTEN = false) :
    preload c0 md.headers tv' x = preload c0 hdrs tv x ∧
    (flag (md.headers.getD (x / c0.ss) 0) FETCHED = true → tv' x = preload c0 hdrs tv x) := by
  have hv := conf_same hb h
  obtain ⟨p, hs, hp⟩ := (conf_sim hb rfl h).1.survives
  obtain ⟨hi, hwb, -⟩ := conf_winv (fun _ h => h) hb rfl h
  have hg' : c.good x = true := by unfold Cfg.good at hg ⊢; rw [hv.hs, hv.ss, hv.src]; exact hg
  have hpre : preload c md.headers tv' = preload c0 md.headers tv' := by
    funext y; unfold preload preloadWith; rw [hv.ss, hv.src]
  obtain ⟨-, g2, g3⟩ := crash_original hs (WInv.wp.mpr hi) hwb (tv := tv') (mv' := mv') (md := md) (x := x) h1 (fun x => hp x _ (h2 x))
    (by rw [hv.msec]; exact h3) ⟨hg', by rw [hv.tsec]; exact hx⟩ (by rw [hv.ss]; exact hw)
  rw [hpre] at g3
  exact ⟨g3, fun hf => g2 (.inr (by rw [hv.ss]; exact hf))⟩

/-- **C93** A volume started without its source: a read that is answered with success is of stripes that were local at the start. Reads
of the others are answered with an error or not at all, never with other data. -/
theorem C93_detached_read (hd : c.detached) (hb : Bootable c hdrs mv) {ls : List (Lab D)} (h : Run c (Sys.boot c hdrs tv mv b0) ls s)
    {e0 e1 e2 : List (Ev D)} {q r off cnt x : Nat} {out : List (Option D)}
    (hv : visible ls = (e0 ++ Ev.issue q r (.read off cnt) :: e1 ++ [Ev.resp q r true out]) ++ e2) (ho : unanswered (q, r) e1)
    (hx : covers off cnt x) :
    flag (hdrs.getD (x / c.ss) 0) HAS_SOURCE = false ∨ flag (hdrs.getD (x / c.ss) 0) FETCHED = true := by
  have := det_answered hd hb h rfl hv ho hx
  rw [show (Shared.load hdrs).isLocal (x / c.ss) = _ from boot_isLocal (c := c) (hdrs := hdrs) (tv := tv) (mv := mv) (b0 := b0)] at this
  simpa using this

/-- **C93** The same of writes: none is acknowledged into a stripe whose image data are missing. -/
theorem C93_detached_write (hd : c.detached) (hb : Bootable c hdrs mv) {ls : List (Lab D)} (h : Run c (Sys.boot c hdrs tv mv b0) ls s)
    {e0 e1 e2 : List (Ev D)} {q w off cnt x : Nat} {data : Nat → D} {out : List (Option D)}
    (hv : visible ls = (e0 ++ Ev.issue q w (.write off cnt data) :: e1 ++ [Ev.resp q w true out]) ++ e2) (ho : unanswered (q, w) e1)
    (hx : covers off cnt x) :
    flag (hdrs.getD (x / c.ss) 0) HAS_SOURCE = false ∨ flag (hdrs.getD (x / c.ss) 0) FETCHED = true := by
  have := det_answered hd hb h rfl hv ho hx
  rw [show (Shared.load hdrs).isLocal (x / c.ss) = _ from boot_isLocal (c := c) (hdrs := hdrs) (tv := tv) (mv := mv) (b0 := b0)] at this
  simpa using this

/-- **C93** The flags are not touched by a start without the source: the stripes that were missing are still missing afterwards, so that
the volume can be started with its source again. -/
theorem C93_detached_keeps (hd : c.detached) (hb : Bootable c hdrs mv) {ls : List (Lab D)} (h : Run c (Sys.boot c hdrs tv mv b0) ls s)
    (hm : s.m.survives mv') (hld : fromBytes (devBytes c.msec mv') = .ok md) {k : Nat} (hs : flag (hdrs.getD k 0) HAS_SOURCE = true)
    (hf : flag (hdrs.getD k 0) FETCHED = false) :
    flag (md.headers.getD k 0) HAS_SOURCE = true ∧ flag (md.headers.getD k 0) FETCHED = false := by
  obtain ⟨g1, g2⟩ := crash_hdrOk ((Sound.boot (tv := tv) (b0 := b0) hb).run h) hm hld
  refine ⟨by rw [← g1.hs, hb.hs]; exact hs, ?_⟩
  cases hq : flag (md.headers.getD k 0) FETCHED with
  | false => rfl
  | true =>
    exfalso
    have hk : k < c.n := by
      refine Nat.lt_of_not_le fun hn => ?_
      rw [List.getD_eq_getElem?_getD, List.getElem?_eq_none (by have := hb.len; omega)] at hs
      exact absurd hs (by decide)
    have := (h.det hd hb).settled ((g2 k hk).settled hq)
    rw [show (Shared.load hdrs).isLocal k = _ from boot_isLocal (c := c) (hdrs := hdrs) (tv := tv) (mv := mv) (b0 := b0), hs, hf] at this
    simp at this

/-! ### Cases -/

/-- The demo volume with tracking off. -/
def quietCfg : Cfg Nat := { demoCfg with track := false }
/-- The demo volume without its source. -/
def bareCfg : Cfg Nat := { demoCfg with srcHas := fun _ => false, srcStripes := 0, autofetch := true }

theorem quiet_bootable {mv : Nat → Bytes} (hb : Bootable demoCfg [4, 0] mv) : Bootable quietCfg [4, 0] mv :=
  Bootable.change (c := demoCfg) (c' := quietCfg) ⟨rfl, rfl, rfl, rfl, rfl, rfl, rfl, hb.srcStripes⟩ hb
theorem bare_same : SameVolume demoCfg bareCfg := ⟨rfl, rfl, rfl, rfl, rfl, rfl, rfl, by decide⟩
theorem bare_bootable {mv : Nat → Bytes} (hb : Bootable demoCfg [4, 0] mv) : Bootable bareCfg [4, 0] mv := hb.change bare_same

theorem Run.conf {s0 s : Sys D} {ls : List (Lab D)} (hok : ok c0) (h : Run c0 s0 ls s) (hc : Ev.crash ∉ visible ls) :
    ConfRun ok c0 s0 ((visible ls).map some) c0 s false := by
  induction h with
  | nil => exact .nil hok
  | step _ hst ih =>
    rw [visible_append] at hc ⊢
    rw [List.map_append]
    exact (ih fun h => hc (List.mem_append_left _ h)).step hst
  | crash => rw [visible_append] at hc; exact absurd (List.mem_append_right _ (by simp [visible])) hc

/-- The hypotheses of `C93_plain_disk_partial` are met: a stripe is fetched, written and flushed, then the volume is started without its
source and with autofetch, and a read still returns the data. -/
example : ∃ mv s, Bootable demoCfg [4, 0] mv ∧ ConfRun (fun c => c.track = true) demoCfg (demoBoot mv)
    ([some (.issue 0 7 (.write 1 1 fun _ => 55)), some (.resp 0 7 true []), some (.issue 0 8 .flush), some (.resp 0 8 true []), none,
     some (.issue 0 9 (.read 1 1)), some (.resp 0 9 true [some 55])]) bareCfg s true := by
  obtain ⟨mv, hb⟩ := demo_bootable
  obtain ⟨s, ⟨ls, hr, hv⟩, h1, h2, h3, h4⟩ := demo_run mv
  obtain ⟨⟨⟨hd, mv1, hb1, hm⟩, hf⟩, hfam⟩ := run_sim hb rfl hr
  obtain ⟨md, hld, hbt, hh⟩ := reload hb1 hm (mv' := s.m.vol) hm.dev.vol_pers
  have r := hr.conf (ok := fun c => c.track = true) rfl (by rw [hv]; simp)
  rw [hv] at r
  have r := r.kill (fun _ _ => 0) bare_same rfl hld
  have hfs : (s.restart bareCfg md.headers fun _ _ => 0).sh.fs 0 = .fetched := by
    have := hh 0 (by decide)
    show loadFs _ = _
    unfold loadFs
    rw [this.fetched h1, this.src]
    rfl
  have hadd : addRead bareCfg (s.restart bareCfg md.headers fun _ _ => 0) 0 9 1 1 true =
      (toBase (s.restart bareCfg md.headers fun _ _ => 0) 0 { id := 9, off := 1, cnt := 1, out := none },
        [.toBase 0 { id := 9, off := 1, cnt := 1, out := none }]) := by
    unfold addRead
    have : stripes bareCfg { id := 9, off := 1, cnt := 1, out := none : QReq Nat } = [0] := by decide
    simp only [this, fetchStatus, hfs]
  have st := Step.read (c := bareCfg) (s.restart bareCfg md.headers fun _ _ => 0) 0 9 1 1 true
    ⟨by decide, by decide, by decide⟩ (fun h => by cases h)
    ⟨rfl, rfl, (by intro r hr; cases hr), (by intro r hr; cases hr)⟩
  rw [hadd] at st
  have r := r.step st
  simp only [toBase] at r
  have r := r.step (Step.execDataR (o := .guest 0 9) (x := 1) rfl ⟨Nat.le_refl _, by decide⟩)
  have r := r.step (Step.baseDone _ 0 9 true ⟨_, rfl, fun _ x hx => by
    have : x = 1 := by have : 1 ≤ x := hx.1; have : x < 1 + 1 := hx.2; omega
    subst this; simp [upd]⟩)
  have e : ∀ l l' : List (Option (Ev Nat)), l = l' → ∀ s, ConfRun (fun c => c.track = true) demoCfg (demoBoot mv) l bareCfg s true →
      ConfRun (fun c => c.track = true) demoCfg (demoBoot mv) l' bareCfg s true := by
    intro l l' h s; rw [h]; exact id
  refine ⟨mv, _, hb, e _ _ ?_ _ r⟩
  simp [visible, Dev.result, upd, Sys.restart, Dev.issueRead, List.range_succ, h4]

/-- Writing sector 2 (of a stripe without image data) with tracking off, then starting with tracking on. -/
theorem quiet_run {mv : Nat → Bytes} (hb : Bootable demoCfg [4, 0] mv) : ∃ s md, ConfRun (fun _ => True) quietCfg (Sys.boot quietCfg [4, 0] (fun x => x) mv fun _ _ => 0)
    [some (.issue 0 7 (.write 2 1 fun _ => 55)), some (.resp 0 7 true []), none] demoCfg s false ∧
    fromBytes (devBytes 2 mv) = .ok md ∧ md.headers = [4, 0] ∧ s.t.vol 2 = 55 ∧ s.t.pers 2 55 ∧ s.m = Dev.fresh mv ∧ s.t.Inv := by
  obtain ⟨md, hld, hmd⟩ := hb.load
  have r := ConfRun.nil (ok := fun _ => True) (c0 := quietCfg) (s0 := Sys.boot quietCfg [4, 0] (fun x => x) mv fun _ _ => 0) trivial
  have r := r.step (Step.write _ 0 7 2 1 (fun _ => 55) true ⟨by decide, by decide, by decide⟩
    ⟨rfl, rfl, (by intro r hr; cases hr), (by intro r hr; cases hr)⟩)
  have r := r.step (Step.execDataW (o := .guest 0 7) (x := 2) (off := 2) (cnt := 1) (data := fun _ => 55) (done := fun _ => false) rfl ⟨Nat.le_refl _, by decide⟩)
  have r := r.step (Step.baseDone _ 0 7 true ⟨_, rfl, fun _ x hx => by
    have : x = 2 := by have : 2 ≤ x := hx.1; have : x < 2 + 1 := hx.2; omega
    subst this; rfl⟩)
  have r := r.cleanKill (c' := demoCfg) (meta' := md) (fun _ _ => 0) ⟨rfl, rfl, rfl, rfl, rfl, rfl, rfl, by decide⟩ trivial hld (fun _ _ h => h)
  obtain ⟨-, -, hfam, -⟩ := (conf_sim (quiet_bootable hb) rfl r).1
  obtain ⟨_, _, _, _, hsim⟩ := hfam.sim
  exact ⟨_, md, r, hld, hmd, rfl, hsim.tinv.vol_pers 2, rfl, hsim.tinv⟩

/-- **C93, the flags part, is false.** Sector 2 is written and the write acknowledged while tracking is off. The volume is started with
tracking on. Whatever survives a power loss now, the stripe is not marked as written, although it may hold 55 instead of
its original content 2. Archives and stripe servers of the volume leave the stripe out (C85, C86). -/
theorem C93_false_tracking : ∃ (c0 c : Cfg Nat) (mv : Nat → Bytes) (s : Sys Nat) (tv' : Nat → Nat) (md : Meta),
    Bootable c0 [4, 0] mv ∧ c.track = true ∧ ConfRun (fun _ => True) c0 (Sys.boot c0 [4, 0] (fun x => x) mv fun _ _ => 0)
      [some (.issue 0 7 (.write 2 1 fun _ => 55)), some (.resp 0 7 true []), none] c s false ∧
    s.t.survives tv' ∧ s.m.survives mv ∧ fromBytes (devBytes c0.msec mv) = .ok md ∧
    flag (md.headers.getD (2 / c0.ss) 0) WRITTEN = false ∧ c0.good 2 = true ∧
    preload c0 md.headers tv' 2 ≠ preload c0 [4, 0] (fun x => x) 2 := by
  obtain ⟨mv, hb⟩ := demo_bootable
  obtain ⟨s, md, r, hld, hmd, hv, hp, hm, hi⟩ := quiet_run hb
  refine ⟨quietCfg, demoCfg, mv, s, s.t.vol, md, quiet_bootable hb, rfl, r, hi.vol_pers, by rw [hm]; exact fun _ => rfl, hld, ?_, by decide, ?_⟩
  · rw [hmd]; decide
  · rw [hmd]
    have h1 : preload quietCfg [4, 0] s.t.vol 2 = s.t.vol 2 := rfl
    have h2 : preload quietCfg [4, 0] (fun x => x) 2 = 2 := rfl
    rw [h1, h2, hv]; decide

/-- The hypotheses of the `C93_detached_*` theorems are met: without its source the demo volume answers a read of its second stripe,
which has no image data. Its first stripe is missing. -/
example : ∃ mv s ls, bareCfg.detached ∧ Bootable bareCfg [4, 0] mv ∧ Run bareCfg (Sys.boot bareCfg [4, 0] (fun x => x) mv fun _ _ => 0) ls s ∧
    visible ls = ([] ++ Ev.issue 0 9 (.read 2 1) :: [] ++ [Ev.resp 0 9 true [some 2]]) ++ [] ∧
    flag ([4, 0].getD 0 0) HAS_SOURCE = true ∧ flag ([4, 0].getD 0 0) FETCHED = false := by
  obtain ⟨mv, hb⟩ := demo_bootable
  have r : Reach bareCfg (Sys.boot bareCfg [4, 0] (fun x => x) mv fun _ _ => 0) [] _ := ⟨[], .nil _, rfl⟩
  have r := r.step (Step.read _ 0 9 2 1 true ⟨by decide, by decide, by decide⟩ (fun h => by cases h)
    ⟨rfl, rfl, (by intro r hr; cases hr), (by intro r hr; cases hr)⟩)
  have r := r.step (Step.execDataR (o := .guest 0 9) (x := 2) (off := 2) (cnt := 1) (got := fun _ => none) rfl ⟨Nat.le_refl _, by decide⟩)
  have r := r.step (Step.baseDone _ 0 9 true ⟨_, rfl, fun _ x hx => by
    have : x = 2 := by have : 2 ≤ x := hx.1; have : x < 2 + 1 := hx.2; omega
    subst this; simp [upd]⟩)
  obtain ⟨ls, h1, h2⟩ := r
  exact ⟨mv, _, ls, ⟨fun _ => rfl, rfl⟩, bare_bootable hb, h1, h2, by decide, by decide⟩

end Verif.Lazy
