import Verif.Proof.LazyKillDemo

/-! # C64: a backend that is killed and started again

The full property: whatever mix of power losses and deaths of the backend process, the guest sees a plain disk on
which a death only drops the requests in flight. It is false (`C64_false`): the restarted backend trusts metadata
that are in the page cache only. It holds for all runs in which no power loss falls between such a death and the
next completed flush of the metadata device. -/

set_option maxRecDepth 8000

namespace Verif.Lazy
open Verif Verif.Metadata Verif.Disk

variable {D : Type} {c : Cfg D} {hdrs : Bytes} {tv : Nat → D} {mv : Nat → Bytes} {b0 : Nat → Nat → D} {s : Sys D}
  {es : List (Option (Ev D))} {d : Bool}

/-- **C64**, for runs in which no power loss falls in the window between a death of the backend with unflushed
metadata and the next flush of the metadata device. Missing: power losses inside that window, where it is false. -/
theorem C64_restart_partial (hb : Bootable c hdrs mv) (h : SafeRun c (Sys.boot c hdrs tv mv b0) es s d) :
    ∃ g a, Disk.KRun (Dev.fresh (preloadWith c g hdrs tv)) es a :=
  let ⟨_, _, hfam, _⟩ := safe_sim hb rfl h
  let ⟨g, a, _, h1, _⟩ := hfam.sim
  ⟨g, a, h1⟩

/-- **C64** without power losses: any number of deaths, at any points, is invisible but for the requests dropped. -/
theorem C64_no_power_loss_partial (hb : Bootable c hdrs mv) (h : KRun c (Sys.boot c hdrs tv mv b0) es s)
    (hn : some Ev.crash ∉ es) : ∃ g a, Disk.KRun (Dev.fresh (preloadWith c g hdrs tv)) es a := by
  have : ∃ d, SafeRun c (Sys.boot c hdrs tv mv b0) es s d := by
    clear hb
    induction h with
    | nil => exact ⟨_, .nil _⟩
    | step _ hs ih =>
      obtain ⟨d, h⟩ := ih fun h => hn (List.mem_append_left _ h)
      exact ⟨d, h.step hs⟩
    | crash => exact absurd (List.mem_append_right _ (List.mem_singleton.mpr rfl)) hn
    | kill b0 _ hl ih =>
      obtain ⟨d, h⟩ := ih fun h => hn (List.mem_append_left _ h)
      exact ⟨true, h.kill b0 hl⟩
  obtain ⟨d, h⟩ := this
  exact C64_restart_partial hb h

/-- The hypotheses are met: a stripe is fetched and written, the write and a flush are acknowledged, the backend is
killed and started again (the metadata load), and a later read returns the data. -/
example : ∃ mv s, Bootable demoCfg [4, 0] mv ∧ SafeRun demoCfg (demoBoot mv)
    ([some (.issue 0 7 (.write 1 1 fun _ => 55)), some (.resp 0 7 true []), some (.issue 0 8 .flush), some (.resp 0 8 true []), none,
     some (.issue 0 9 (.read 1 1)), some (.resp 0 9 true [some 55])]) s true := by
  obtain ⟨mv, hb⟩ := demo_bootable
  obtain ⟨s, ⟨ls, hr, hv⟩, h1, h2, h3, h4⟩ := demo_run mv
  obtain ⟨⟨⟨hd, mv1, hb1, hm⟩, hf⟩, hfam⟩ := run_sim hb rfl hr
  obtain ⟨gg, a, hpin, -, hsim⟩ := hfam.sim
  obtain ⟨md, hld, hbt, hh⟩ := reload hb1 hm (mv' := s.m.vol) hm.dev.vol_pers
  have r := hr.safe
  rw [hv] at r
  have r := r.kill (fun _ _ => 0) hld
  have hfs : (s.restart demoCfg md.headers fun _ _ => 0).sh.fs 0 = .fetched := by
    have := hh 0 (by decide)
    show loadFs _ = _
    unfold loadFs
    rw [this.fetched h1, this.src]
    rfl
  have hadd : addRead demoCfg (s.restart demoCfg md.headers fun _ _ => 0) 0 9 1 1 true =
      (toBase (s.restart demoCfg md.headers fun _ _ => 0) 0 { id := 9, off := 1, cnt := 1, out := none },
        [.toBase 0 { id := 9, off := 1, cnt := 1, out := none }]) := by
    unfold addRead
    have : stripes demoCfg { id := 9, off := 1, cnt := 1, out := none : QReq Nat } = [0] := by decide
    simp only [this, fetchStatus, hfs]
  have st := Step.read (c := demoCfg) (s.restart demoCfg md.headers fun _ _ => 0) 0 9 1 1 true
    ⟨by decide, by decide, by decide⟩ (fun _ _ _ x hx => demo_good x (by have := hx.2; omega))
    ⟨rfl, rfl, (by intro r hr; cases hr), (by intro r hr; cases hr)⟩
  rw [hadd] at st
  have r := r.step st
  simp only [toBase] at r
  have r := r.step (Step.execDataR (o := .guest 0 9) (x := 1) rfl ⟨Nat.le_refl _, by decide⟩)
  have r := r.step (Step.baseDone _ 0 9 true ⟨_, rfl, fun _ x hx => by
    have : x = 1 := by have : 1 ≤ x := hx.1; have : x < 1 + 1 := hx.2; omega
    subst this; simp [upd]⟩)
  have e : ∀ l l' : List (Option (Ev Nat)), l = l' → ∀ s, SafeRun demoCfg (demoBoot mv) l s true → SafeRun demoCfg (demoBoot mv) l' s true := by
    intro l l' h s; rw [h]; exact id
  refine ⟨mv, _, hb, e _ _ ?_ _ r⟩
  simp [visible, Dev.result, upd, Sys.restart, Dev.issueRead, List.range_succ, h4]

/-- A death with nothing unflushed, then a power loss: also covered. -/
example : ∃ mv s, Bootable demoCfg [4, 0] mv ∧ SafeRun demoCfg (demoBoot mv) [none, some .crash] s false := by
  obtain ⟨mv, hb⟩ := demo_bootable
  obtain ⟨md, hld, -⟩ := hb.load
  refine ⟨mv, _, hb, ((SafeRun.nil (demoBoot mv)).cleanKill (fun _ _ => 0) hld fun _ _ h => h).crash (fun _ _ => 0) (fun _ => rfl) (fun _ => rfl) hld⟩

/-- **C64 is false.** On a volume with one stripe to fetch: the stripe is copied, its header with FETCHED reaches the
cache of the metadata device, and the backend is killed before the flush. The restarted backend takes the stripe as
local: a write of 55 to sector 0 and a flush are acknowledged. A power loss brings the old header back, and a read of
sector 0 returns 100, the image's content. A plain disk never does this, whatever it
held at the start. -/
theorem C64_false : ∃ (c : Cfg Nat) (hdrs : Bytes) (tv : Nat → Nat) (mv : Nat → Bytes) (b0 : Nat → Nat → Nat) (s : Sys Nat)
    (es : List (Option (Ev Nat))), Bootable c hdrs mv ∧ KRun c (Sys.boot c hdrs tv mv b0) es s ∧
    es = [none, some (.issue 0 7 (.write 0 1 fun _ => 55)), some (.resp 0 7 true []), some (.issue 0 8 .flush),
      some (.resp 0 8 true []), some .crash, some (.issue 0 9 (.read 0 1)), some (.resp 0 9 true [some 100])] ∧
    ¬ ∃ v a, Disk.KRun (Dev.fresh v) es a := by
  obtain ⟨mv, hb⟩ := demo_bootable
  obtain ⟨s, hs⟩ := kill_loses (kill_bootable hb)
  exact ⟨killCfg, [4, 0], fun x => x, mv, fun _ _ => 0, s, _, kill_bootable hb, hs, rfl, fun ⟨_, _, h⟩ => kill_noRun h⟩

end Verif.Lazy
