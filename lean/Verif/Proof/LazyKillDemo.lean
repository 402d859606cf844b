import Verif.Proof.LazyKill
import Verif.Proof.LazyDemo
import Verif.Proof.DiskTrace

/-! Concrete runs with a killed backend: one that is fine, and one that loses a flushed write. -/

set_option maxRecDepth 8000

namespace Verif.Lazy
open Verif Verif.Metadata Verif.Disk

variable {D : Type}

theorem Run.safe {c : Cfg D} {s0 s : Sys D} {ls : List (Lab D)} (h : Run c s0 ls s) : SafeRun c s0 ((visible ls).map some) s false := by
  induction h with
  | nil => exact .nil _
  | step _ hs ih => rw [visible_append, List.map_append]; exact ih.step hs
  | crash b0 _ h1 h2 h3 ih => rw [visible_append, List.map_append]; exact ih.crash b0 h1 h2 h3

theorem SafeRun.toK {c : Cfg D} {s0 s : Sys D} {es : List (Option (Ev D))} {d : Bool} (h : SafeRun c s0 es s d) : KRun c s0 es s := by
  induction h with
  | nil => exact .nil _
  | step _ hs ih => exact ih.step hs
  | flush _ hs _ ih => exact ih.step hs
  | crash b0 _ h1 h2 h3 ih => exact ih.crash b0 h1 h2 h3
  | kill b0 _ h1 ih => exact ih.kill b0 h1
  | cleanKill b0 _ h1 _ ih => exact ih.kill b0 h1

theorem KRun.quiet {c : Cfg D} {s0 s s' : Sys D} {es : List (Option (Ev D))} {a : Act D} (h : KRun c s0 es s)
    (hs : Step c s a [] s') : KRun c s0 es s' := by
  have := h.step hs
  simpa [visible] using this

/-- Two stripes of two sectors, the first fetched in the background; reads of missing stripes go to the image. -/
def killCfg : Cfg Nat := { demoCfg with track := false, image := true, autofetch := true }

theorem kill_bootable {mv : Nat → Bytes} (h : Bootable demoCfg [4, 0] mv) : Bootable killCfg [4, 0] mv :=
  ⟨h.ss, h.load, h.len, h.sectors, h.hs, h.srcStripes⟩

def killBoot (mv : Nat → Bytes) : Sys Nat := Sys.boot killCfg [4, 0] (fun x => x) mv (fun _ _ => 0)

/-- The stripe is copied and its new header is in the cache of the metadata device, but not flushed. -/
theorem kill_fetched (mv : Nat → Bytes) : ∃ s, Run killCfg (killBoot mv) [.enqueue 0, .sourceRead 0, .fetchWrite 0] s ∧
    s.fl.hdrs = [4, 0] ∧ s.fl.queue = [(0, 1)] ∧ s.fl.free = 16 ∧ s.fl.busy 1 = false ∧ s.m = Dev.fresh mv ∧ s.t.vol 0 = 100 := by
  have r : Run killCfg (killBoot mv) [] (killBoot mv) := .nil _
  have r := r.step (Step.autofetch _ 0 [] rfl rfl rfl)
  have r := r.step (Step.startFetch _ true _ _ rfl)
  have r := r.step (Step.sourceDone _ 0 true true (fun _ => 0) _ _ rfl)
  have r := r.step (Step.execData _ (.fetch 0) 0)
  have r := r.step (Step.execData _ (.fetch 0) 1)
  have r := r.step (Step.targetDone _ 0 true true ⟨_, rfl, fun _ x hx => by
    have : x = 0 ∨ x = 1 := by have : x < 0 + 2 := hx.2; omega
    rcases this with rfl | rfl <;> rfl⟩)
  have r := r.step (Step.targetDone _ 0 true true ⟨_, rfl, fun _ => trivial⟩)
  have r := r.step (Step.takeFinished _ 0 true [] rfl)
  exact ⟨_, r, rfl, rfl, rfl, rfl, rfl, rfl⟩

theorem kill_cached (mv : Nat → Bytes) : ∃ s, Run killCfg (killBoot mv) [.enqueue 0, .sourceRead 0, .fetchWrite 0] s ∧
    s.m.vol 1 = writeSector (groupHeaders [5, 0] (0 / 508)) ∧ (∀ x, s.m.pers x (mv x)) ∧ s.t.vol 0 = 100 := by
  obtain ⟨s, r, h1, h2, h3, h4, h5, h6⟩ := kill_fetched mv
  have r := r.step (Step.startMeta _ true _ (startMeta_go (n := 15) h2 h3 h4 (by rw [h1]; decide)))
  have r := r.step (Step.execMetaW (k := 0) (x := 1) (ops_issueWrite_same _ _ _ _ _) ⟨Nat.le_refl _, by decide⟩)
  refine ⟨_, r, ?_, fun x => Or.inl ?_, h6⟩
  · show upd s.m.vol 1 (writeSector (groupHeaders (s.fl.hdrs.set 0 (s.fl.hdrs.getD 0 0 ||| 1)) (stripeIdToGroup 0))) 1 = _
    rw [upd_same, h1]; rfl
  · rw [h5]; rfl

/-- The events of the run that loses data: a restart, a write and a flush that are acknowledged, a power loss, a read
of the sector that was written. -/
def killTrace : List (Ev Nat) :=
  [.issue 0 7 (.write 0 1 fun _ => 55), .resp 0 7 true [], .issue 0 8 .flush, .resp 0 8 true [], .crash,
   .issue 0 9 (.read 0 1), .resp 0 9 true [some 100]]

theorem kill_loses {mv : Nat → Bytes} (hb : Bootable killCfg [4, 0] mv) :
    ∃ s, KRun killCfg (killBoot mv) (none :: killTrace.map some) s := by
  obtain ⟨s, hr, h1, h2, h3⟩ := kill_cached mv
  obtain ⟨⟨⟨hd, mv1, hb1, hm⟩, hf⟩, hfam⟩ := run_sim hb rfl hr
  obtain ⟨gg, a, hpin, -, hsim⟩ := hfam.sim
  obtain ⟨md, hld, hbt, hh⟩ := reload hb1 hm (mv' := s.m.vol) hm.dev.vol_pers
  have hhdr : md.headers.getD 0 0 = 5 := by
    rw [(load_sectors hbt.sectors hld 0 (by rw [hbt.len]; decide)).2]
    show (s.m.vol 1).getD (0 % 508) 0 = 5
    rw [h1, writeSector_byte [5, 0] 0 (by decide)]
    rfl
  have r : KRun killCfg (killBoot mv) [] s := hr.safe.toK
  have r := r.kill (fun _ _ => 0) hld
  have hfs : (s.restart killCfg md.headers fun _ _ => 0).sh.fs 0 = .fetched := by
    show loadFs (md.headers.getD 0 0) = _
    rw [hhdr]; decide
  have hadd : addWrite killCfg (s.restart killCfg md.headers fun _ _ => 0) 0 7 0 1 (fun _ => 55) true =
      (toBase (s.restart killCfg md.headers fun _ _ => 0) 0 { id := 7, off := 0, cnt := 1, out := some fun _ => 55 },
        [.toBase 0 { id := 7, off := 0, cnt := 1, out := some fun _ => 55 }]) := by
    unfold addWrite
    have : stripes killCfg { id := 7, off := 0, cnt := 1, out := some fun _ => 55 : QReq Nat } = [0] := by decide
    simp only [this, fetchStatus, hfs]
    rfl
  have hgood : ∀ x, covers 0 1 x → killCfg.good x = true := by
    intro x hx
    have : x = 0 := by have := hx.2; omega
    subst this; decide
  have st := Step.write (c := killCfg) (s.restart killCfg md.headers fun _ _ => 0) 0 7 0 1 (fun _ => 55) true
    ⟨by decide, by decide, by decide⟩
    ⟨rfl, rfl, (by intro r hr; cases hr), (by intro r hr; cases hr)⟩
  rw [hadd] at st
  have r := r.step st
  simp only [toBase] at r
  have r := r.quiet (Step.execDataW (o := .guest 0 7) (x := 0) (ops_issueWrite_same _ _ _ _ _) ⟨Nat.le_refl _, by decide⟩)
  have r := r.step (Step.baseDone _ 0 7 true ⟨_, rfl, fun _ x hx => by
    have : x = 0 := by have : x < 0 + 1 := hx.2; omega
    subst this; exact upd_same _ _ _⟩)
  have r := r.step (Step.flush _ 0 8 ⟨rfl, rfl, (by intro r hr; cases hr), (by intro r hr; cases hr)⟩)
  have r := r.step (Step.baseDone _ 0 8 true ⟨_, rfl, fun _ => trivial⟩)
  obtain ⟨md0, hld0, hmd0⟩ := hb.load
  obtain ⟨s1, hs1, r⟩ : ∃ s1, _ = s1 ∧ KRun killCfg (killBoot mv) _ s1 := ⟨_, rfl, r⟩
  have hmp : s1.m.survives mv := by rw [← hs1]; exact h2
  have htp : s1.t.survives (upd s.t.vol 0 55) := by
    rw [← hs1]
    intro x
    refine ⟨⟨?_, ?_⟩, ?_⟩
    · by_cases hx : x = 0
      · subst hx; right; exact ⟨⟨by decide, by decide⟩, upd_same _ _ _⟩
      · left; rw [upd_ne _ _ hx]; exact hsim.tinv.vol_pers x
    · intro sn h; simp [Sys.restart, upd] at h
    · intro sn h _
      simp only [Dev.issueFlush, upd_same, Option.some.injEq, Op.flush.injEq] at h
      rw [← h]
      exact Or.inl rfl
  have r := r.crash (fun _ _ => 0) htp hmp hld0
  rw [hmd0] at r
  have st2 := Step.read (c := killCfg) (Sys.boot killCfg [4, 0] (upd s.t.vol 0 55) mv fun _ _ => 0) 0 9 0 1 true
    ⟨by decide, by decide, by decide⟩ (fun _ _ _ => hgood)
    ⟨rfl, rfl, (by intro r hr; cases hr), (by intro r hr; cases hr)⟩
  have r := r.step st2
  have r := r.step (Step.imageDone _ 0 9 true 0 1 rfl)
  have e : ∀ (l l' : List (Option (Ev Nat))), l = l' → ∀ s, KRun killCfg (killBoot mv) l s → KRun killCfg (killBoot mv) l' s := by
    intro l l' h s; rw [h]; exact id
  refine ⟨_, e _ _ ?_ _ r⟩
  rfl

/-- The plain disk has no such history. -/
theorem kill_noRun {v0 : Nat → Nat} {d : Disk Nat} : ¬ Disk.KRun (Dev.fresh v0) (none :: killTrace.map some) d := by
  intro h
  have hsplit : ∀ {d0 d : Disk Nat} {es : List (Option (Ev Nat))}, Disk.KRun d0 es d → ∀ es' : List (Ev Nat),
      (es = es'.map some → Disk.Run d0 es' d) ∧
      (es = none :: es'.map some → ∃ m, Disk.Run d0 [] m ∧ Disk.Run (Disk.kill m) es' d) := by
    intro d0 d es h
    induction h with
    | nil =>
      intro es'
      refine ⟨fun h => ?_, fun h => by simp at h⟩
      have : es' = [] := by cases es' with
        | nil => rfl
        | cons => simp at h
      subst this; exact .nil _
    | @snoc d1 d2 es1 es2 h1 h2 ih =>
      intro es'
      constructor
      · intro he
        obtain ⟨l1, l2, rfl, e1, e2⟩ := List.map_eq_append_iff.mp he.symm
        have : l2 = es2 := by
          have := congrArg (List.map fun o : Option (Ev Nat) => o.getD .crash) e2
          simpa [List.map_map, Function.comp_def] using this
        subst this
        exact ((ih l1).1 e1.symm).snoc h2
      · intro he
        cases es1 with
        | nil =>
          cases es2 <;> simp at he
        | cons o es1 =>
          simp only [List.cons_append, List.cons.injEq] at he
          obtain ⟨rfl, he⟩ := he
          obtain ⟨l1, l2, rfl, e1, e2⟩ := List.map_eq_append_iff.mp he.symm
          have : l2 = es2 := by
            have := congrArg (List.map fun o : Option (Ev Nat) => o.getD .crash) e2
            simpa [List.map_map, Function.comp_def] using this
          subst this
          obtain ⟨m, h3, h4⟩ := (ih l1).2 (by rw [e1])
          exact ⟨m, h3, h4.snoc h2⟩
    | @kill d1 es1 h1 ih =>
      intro es'
      constructor
      · intro he
        have : (none : Option (Ev Nat)) ∈ es'.map some := by rw [← he]; simp
        simp at this
      · intro he
        cases es1 with
        | nil =>
          simp only [List.nil_append, List.cons.injEq, true_and] at he
          have : es' = [] := by cases es' with
            | nil => rfl
            | cons => simp at he
          subst this
          exact ⟨_, (ih []).1 rfl, .nil _⟩
        | cons o es1 =>
          simp only [List.cons_append, List.cons.injEq] at he
          have : (none : Option (Ev Nat)) ∈ es'.map some := by rw [← he.2]; simp
          simp at this
  obtain ⟨m, h1, h2⟩ := (hsplit h killTrace).2 rfl
  have hm : m = Dev.fresh v0 := by
    refine h1.inv (fun d => d = Dev.fresh v0) rfl ?_
    intro d1 es1 d2 hs he hd
    subst hd
    cases hs with
    | exec o x => rfl
    | issue => exact absurd (he _ (List.mem_singleton.mpr rfl)) List.not_mem_nil
    | respond => exact absurd (he _ (List.mem_singleton.mpr rfl)) List.not_mem_nil
    | crash => exact absurd (he _ (List.mem_singleton.mpr rfl)) List.not_mem_nil
  subst hm
  have hk : Disk.kill (Dev.fresh v0 : Disk Nat) = Dev.fresh v0 := rfl
  rw [hk] at h2
  have hv : killTrace = ([] ++ Ev.issue 0 7 (.write 0 1 fun _ => 55) :: [] ++ [Ev.resp 0 7 true []]) ++ [] ++
      (Ev.issue 0 8 .flush :: [] ++ [Ev.resp 0 8 true []]) ++ [.crash] ++
      (Ev.issue 0 9 (.read 0 1) :: [] ++ [Ev.resp 0 9 true [some 100]]) := rfl
  rw [hv] at h2
  obtain ⟨m4, g1, g2⟩ := h2.split _ _ rfl
  obtain ⟨m3, g3, g4⟩ := g1.split _ _ rfl
  obtain ⟨m2, g5, g6⟩ := g3.split _ _ rfl
  obtain ⟨m1, g7, g8⟩ := g5.split _ _ rfl
  have q0 : quiet ([] : List (Ev Nat)) 0 := by intro q id off cnt data h; cases h
  have q1 : quiet ([.crash] : List (Ev Nat)) 0 := by intro q id off cnt data h; simp at h
  have hu : ∀ o, unanswered o ([] : List (Ev Nat)) := by intro o e h; cases h
  have hc : covers 0 1 0 := ⟨by decide, by decide⟩
  have r1 := Rest.write g7 rfl (by intro a b q id off cnt data h; simp at h) q0 (hu _) hc
  have r2 := (r1.run g8 q0 (by intro e h; cases h)).flush g6 q0 (hu _)
  have := (r2.run g4 q1).toRest.read g2 q0 (hu _) hc
  simp at this

end Verif.Lazy
