import Verif.Proof.LazyRefine
import Verif.Props.Metadata

/-! A freshly formatted volume can be started, and a complete concrete run: the cases beside the theorems. -/

set_option maxRecDepth 8000

namespace Verif.Lazy
open Verif Verif.Metadata Verif.Disk

variable {D : Type}

/-- Sectors of a byte image (zero beyond its end). -/
def sectorsOf (b : Bytes) (x : Nat) : Bytes := if (x + 1) * 512 ≤ b.length then slice b (x * 512) 512 else zeros 512

theorem sectorsOf_length (b : Bytes) (x : Nat) : (sectorsOf b x).length = 512 := by
  unfold sectorsOf
  split
  · rw [slice_length]; omega
  · exact zeros_length 512

theorem devBytes_sectorsOf (b : Bytes) (n : Nat) (h : n * 512 ≤ b.length) : devBytes n (sectorsOf b) = b.take (n * 512) := by
  induction n with
  | zero => simp [devBytes]
  | succ n ih =>
    rw [devBytes_succ, ih (by omega)]
    unfold sectorsOf
    rw [if_pos h]
    unfold slice
    rw [Nat.succ_mul, List.take_add]

/-- Formatting a device with `init-metadata` (any stripe size and counts) gives a volume that starts. -/
theorem formatted_bootable {shift : UInt8} {base image : Nat} {c : Cfg D} {b : Bytes} (hsh : shift.toNat ≤ 17) (hb : base < 2 ^ 32)
    (hfit : metadataSize (Meta.new shift base image) ≤ c.msec * 512)
    (hsave : writeToBuf (Meta.new shift base image) (zeros (c.msec * 512)) = .ok b)
    (hss : 0 < c.ss) (hn : c.n = base) (hhs : ∀ k, c.hs k = (decide (k < image) && decide (k < base))) (hsrc : c.srcStripes ≤ base) :
    Bootable c (Meta.new shift base image).headers (sectorsOf b) := by
  have hsv : Saveable (Meta.new shift base image) := ⟨rfl, rfl, rfl, hsh, by simpa [Meta.new] using hb⟩
  obtain ⟨b', h1, h2, -, h4⟩ := C01_save_load (Meta.new shift base image) (zeros (c.msec * 512)) hsv
    (by rw [zeros_length]; exact hfit) (by rw [zeros_length]; simp)
  rw [h1, Except.ok.injEq] at hsave
  subst hsave
  rw [zeros_length] at h2
  refine ⟨hss, ⟨_, ?_, rfl⟩, by simp [Meta.new, hn], sectorsOf_length _, ?_, by rw [hn]; exact hsrc⟩
  · rw [devBytes_sectorsOf _ _ (by omega), List.take_of_length_le (by omega)]; exact h4
  · intro k
    rw [hhs]
    by_cases hk : k < base
    · by_cases hi : k < image
      · simp [Meta.new, hk, hi, flag, HAS_SOURCE]
      · simp [Meta.new, hk, hi, flag]
    · simp [Meta.new, hk, flag]

/-! ### A concrete volume: two stripes of two sectors, the first with a source. -/

/-- Image sectors hold `100 + x`. -/
def demoCfg : Cfg Nat :=
  { ss := 2, n := 2, tsec := 4, msec := 2, hs := fun k => decide (k < 1), src := fun x => if x < 2 then some (100 + x) else none,
    srcHas := fun k => decide (k < 1), srcStripes := 1, image := false, track := true, autofetch := false }

def demoMeta : Meta := Meta.new 1 2 1

theorem demo_size : metadataSize demoMeta = 1024 := by
  simp [demoMeta, metadataSize, headerSectorCount, Meta.new, divCeil]

theorem demo_save : ∃ b, writeToBuf demoMeta (zeros 1024) = .ok b :=
  let ⟨b, h, _⟩ := C01_save_load demoMeta (zeros 1024) ⟨rfl, rfl, rfl, by decide, by simp [demoMeta, Meta.new]⟩
    (by rw [zeros_length, demo_size]; exact Nat.le_refl _) (by rw [zeros_length])
  ⟨b, h⟩

theorem demo_headers : demoMeta.headers = [4, 0] := by decide

theorem demo_bootable : ∃ mv, Bootable demoCfg [4, 0] mv := by
  rw [← demo_headers]
  obtain ⟨b, hb⟩ := demo_save
  exact ⟨_, formatted_bootable (c := demoCfg) (shift := 1) (base := 2) (image := 1) (by decide) (by decide)
    (by have := demo_size; unfold demoMeta at this; rw [this]; decide) hb (by decide) rfl
    (by intro k; simp only [demoCfg]; by_cases h : k < 1 <;> simp [h]; omega) (by decide)⟩

/-- Local disk before: sector `x` holds `x`. -/
def demoBoot (mv : Nat → Bytes) : Sys Nat := Sys.boot demoCfg [4, 0] (fun x => x) mv (fun _ _ => 0)

theorem demo_good (x : Nat) (h : x < 2) : demoCfg.good x = true := by
  simp [demoCfg, Cfg.good, h]

theorem startMeta_go {D} {s : Sys D} {k : Nat} {mask : UInt8} {q : List (Nat × UInt8)} {n : Nat} (h1 : s.fl.queue = (k, mask) :: q)
    (h2 : s.fl.free = n + 1) (h3 : s.fl.busy (stripeIdToSector k) = false) (h4 : flag (s.fl.hdrs.getD k 0) mask = false) :
    startMeta s true = some { s with
        fl := { s.fl with
          hdrs := s.fl.hdrs.set k (s.fl.hdrs.getD k 0 ||| mask), queue := q, busy := upd s.fl.busy (stripeIdToSector k) true, free := n
          updates := upd s.fl.updates k (some { stage := .writing, header := s.fl.hdrs.getD k 0 ||| mask, mask := mask, sector := stripeIdToSector k }) }
        m := s.m.issueWrite k (stripeIdToSector k) 1 fun _ => writeSector (groupHeaders (s.fl.hdrs.set k (s.fl.hdrs.getD k 0 ||| mask)) (stripeIdToGroup k)) } := by
  unfold startMeta; rw [h1]; simp only [h2, h3, h4]; simp

theorem Step.metaFlushed {D} {c : Cfg D} {s : Sys D} {k : Nat} {u : Update} (f w : Bool) (hu : s.fl.updates k = some u)
    (hst : u.stage = .flushing) (hm : s.m.mayComplete k true) (hf : flag u.header FETCHED = f) (hw : flag u.header WRITTEN = w) :
    Step c s (.metaDone k true true) []
      { s with
        m := s.m.complete k true
        fl := { s.fl with busy := upd s.fl.busy u.sector false, updates := upd s.fl.updates k none }
        sh := { s.sh with
          fs := if f then upd s.sh.fs k .fetched else s.sh.fs
          fetched := if f && !s.sh.isLocal k then s.sh.fetched + 1 else s.sh.fetched
          ws := if w then upd s.sh.ws k true else s.sh.ws } } := by
  have h := Step.metaDone (c := c) s k true true hm
  have e : Lazy.metaDone s k true true = { s with
        m := s.m.complete k true
        fl := { s.fl with busy := upd s.fl.busy u.sector false, updates := upd s.fl.updates k none }
        sh := { s.sh with
          fs := if f then upd s.sh.fs k .fetched else s.sh.fs
          fetched := if f && !s.sh.isLocal k then s.sh.fetched + 1 else s.sh.fetched
          ws := if w then upd s.sh.ws k true else s.sh.ws } } := by
    subst hf hw
    unfold Lazy.metaDone
    simp only [hu, hst]
    rfl
  rw [e] at h
  exact h


theorem Step.execMetaW {c : Cfg D} {s : Sys D} {k x off cnt : Nat} {data : Nat → Bytes} {done : Nat → Bool}
    (h : s.m.ops k = some (.write off cnt data done)) (hc : covers off cnt x) :
    Step c s (.execMeta k x) [] { s with m := { s.m with
      vol := upd s.m.vol x (data x), ops := upd s.m.ops k (some (.write off cnt data (upd done x true))) } } := by
  have := Step.execMeta (c := c) s k x
  rwa [exec_write h hc] at this

theorem Step.execDataW {c : Cfg D} {s : Sys D} {o : Owner} {x off cnt : Nat} {data : Nat → D} {done : Nat → Bool}
    (h : s.t.ops o = some (.write off cnt data done)) (hc : covers off cnt x) :
    Step c s (.execData o x) [] { s with t := { s.t with
      vol := upd s.t.vol x (data x), ops := upd s.t.ops o (some (.write off cnt data (upd done x true))) } } := by
  have := Step.execData (c := c) s o x
  rwa [exec_write h hc] at this

theorem Step.execDataR {c : Cfg D} {s : Sys D} {o : Owner} {x off cnt : Nat} {got : Nat → Option D}
    (h : s.t.ops o = some (.read off cnt got)) (hc : covers off cnt x) :
    Step c s (.execData o x) [] { s with t := { s.t with
      ops := upd s.t.ops o (some (.read off cnt (upd got x (some (s.t.vol x))))) } } := by
  have := Step.execData (c := c) s o x
  rwa [exec_read h hc] at this

/-- `s` can be reached with the guest seeing `es`. -/
def Reach (c : Cfg D) (s0 : Sys D) (es : List (Ev D)) (s : Sys D) : Prop := ∃ ls, Run c s0 ls s ∧ visible ls = es

theorem Reach.step {c : Cfg D} {s0 s s' : Sys D} {es : List (Ev D)} {a : Act D} {ls : List (Lab D)} (h : Reach c s0 es s)
    (hs : Step c s a ls s') : Reach c s0 (es ++ visible ls) s' := by
  obtain ⟨l, h1, rfl⟩ := h
  exact ⟨_, h1.step hs, visible_append _ _⟩

theorem Reach.quiet {c : Cfg D} {s0 s s' : Sys D} {es : List (Ev D)} {a : Act D} (h : Reach c s0 es s)
    (hs : Step c s a [] s') : Reach c s0 es s' := by
  have := h.step hs
  simpa [visible] using this

/-- Requests of the demo run: write 55 to sector 1, flush. -/
def demoWrite : QReq Nat := { id := 7, off := 1, cnt := 1, out := some fun _ => 55 }

/-- A guest write to a stripe that has to be fetched: it waits, and the stripe is copied. -/
theorem demo_fetch (mv : Nat → Bytes) : ∃ s, Reach demoCfg (demoBoot mv) [.issue 0 7 (.write 1 1 fun _ => 55)] s ∧
    s.sh.fs 0 = .notFetched ∧ s.sh.ws 0 = false ∧ s.fl.hdrs = [4, 0] ∧ s.fl.queue = [(0, 2), (0, 1)] ∧ s.fl.free = 16 ∧
    s.fl.busy 1 = false ∧ s.fl.updates 0 = none ∧ s.m = Dev.fresh mv ∧ (s.ch 0).queue = [demoWrite] ∧ (s.ch 0).finished = [] ∧
    (s.ch 0).img 7 = none ∧ (s.ch 0).img 8 = none ∧ s.t.ops (.guest 0 8) = none ∧ s.t.vol 0 = 100 := by
  have r : Reach demoCfg (demoBoot mv) [] (demoBoot mv) := ⟨[], .nil _, rfl⟩
  have r := r.step (Step.write _ 0 7 1 1 (fun _ => 55) true ⟨by decide, by decide, by decide⟩
    ⟨rfl, rfl, (by intro r hr; cases hr), (by intro r hr; cases hr)⟩)
  have r := r.step (Step.receiveFetch _ 0 [.setWritten 0] rfl)
  have r := r.step (Step.receiveWritten _ 0 [] rfl)
  have r := r.step (Step.startFetch _ true _ _ rfl)
  have r := r.step (Step.sourceDone _ 0 true true (fun _ => 0) _ _ rfl)
  have r := r.step (Step.execData _ (.fetch 0) 0)
  have r := r.step (Step.execData _ (.fetch 0) 1)
  have r := r.step (Step.targetDone _ 0 true true ⟨_, rfl, fun _ x hx => by
    have : x = 0 ∨ x = 1 := by have : x < 0 + 2 := hx.2; omega
    rcases this with rfl | rfl <;> rfl⟩)
  have r := r.step (Step.targetDone _ 0 true true ⟨_, rfl, fun _ => trivial⟩)
  have r := r.step (Step.takeFinished _ 0 true [] rfl)
  exact ⟨_, r, rfl, rfl, rfl, rfl, rfl, rfl, rfl, rfl, rfl, rfl, rfl, rfl, rfl, rfl⟩

/-- One metadata update of stripe 0 runs to its end. -/
theorem demo_meta {D : Type} {c : Cfg D} {s0 s : Sys D} {es : List (Ev D)} (h : Reach c s0 es s) {mask : UInt8} {q : List (Nat × UInt8)} {n : Nat}
    (h1 : s.fl.queue = (0, mask) :: q) (h2 : s.fl.free = n + 1) (h3 : s.fl.busy 1 = false) (h4 : flag (s.fl.hdrs.getD 0 0) mask = false)
    (f w : Bool) (hf : flag (s.fl.hdrs.getD 0 0 ||| mask) FETCHED = f) (hw : flag (s.fl.hdrs.getD 0 0 ||| mask) WRITTEN = w) :
    ∃ s', Reach c s0 es s' ∧ s'.fl.queue = q ∧ s'.fl.free = n + 1 ∧ s'.fl.busy 1 = false ∧
      s'.fl.hdrs = s.fl.hdrs.set 0 (s.fl.hdrs.getD 0 0 ||| mask) ∧
      s'.sh.fs = (if f then upd s.sh.fs 0 .fetched else s.sh.fs) ∧ s'.sh.ws = (if w then upd s.sh.ws 0 true else s.sh.ws) ∧
      s'.ch = s.ch ∧ s'.t = s.t ∧ s'.fe = s.fe := by
  have r := h.quiet (Step.startMeta _ true _ (startMeta_go h1 h2 h3 h4))
  have r := r.quiet (Step.execMetaW (k := 0) (x := 1) (ops_issueWrite_same _ _ _ _ _) ⟨Nat.le_refl _, by decide⟩)
  have r := r.quiet (Step.metaDone _ 0 true true ⟨_, rfl, fun _ x hx => by
    have : x = 1 := by have : 1 ≤ x := hx.1; have : x < 1 + 1 := hx.2; omega
    subst this; exact upd_same _ _ _⟩)
  have r := r.quiet (Step.metaFlushed (k := 0) f w rfl rfl ⟨_, rfl, fun _ => trivial⟩ hf hw)
  exact ⟨_, r, rfl, rfl, rfl, rfl, rfl, rfl, rfl, rfl, rfl⟩

/-- The write is now handed to the data device. -/
def demoServe (s : Sys Nat) : Sys Nat := toBase (s.setCh 0 fun ch =>
      { ch with queue := [], requested := fun k => ch.requested k && !(stripes demoCfg demoWrite).contains k }) 0 demoWrite

/-- The stripe has been copied and both flags are durable; the waiting write can go. -/
theorem demo_local (mv : Nat → Bytes) : ∃ s, Reach demoCfg (demoBoot mv) [.issue 0 7 (.write 1 1 fun _ => 55)] s ∧
    s.sh.fs 0 = .fetched ∧ s.sh.ws 0 = true ∧ (s.ch 0).finished = [] ∧ (s.ch 0).img 7 = none ∧ (s.ch 0).img 8 = none ∧
    s.t.ops (.guest 0 8) = none ∧ s.t.vol 0 = 100 ∧ (s.ch 0).queue = [demoWrite] ∧
    Step demoCfg s (.processQueue 0 true) [.unwait 0 7, .toBase 0 demoWrite] (demoServe s) := by
  obtain ⟨s, r, h1, h2, h3, h4, h5, h6, h7, h8, h9, h10, h11, h12, h13, h14⟩ := demo_fetch mv
  obtain ⟨s1, r, g1, g2, g3, g4, g5, g6, g7, g8, -⟩ := demo_meta r h4 h5 h6 (by rw [h3]; decide) false true (by rw [h3]; decide) (by rw [h3]; decide)
  rw [h3] at g4
  obtain ⟨s2, r, k1, k2, k3, k4, k5, k6, k7, k8, -⟩ := demo_meta r g1 g2 g3 (by rw [g4]; decide) true true (by rw [g4]; decide) (by rw [g4]; decide)
  have hfs : s2.sh.fs 0 = .fetched := by rw [k5]; rfl
  have hws : s2.sh.ws 0 = true := by rw [k6]; rfl
  have hst : stripes demoCfg demoWrite = [0] := by decide
  have hq : (s2.ch 0).queue = [demoWrite] := by rw [k7, g7, h9]
  have hpq : processQueue demoCfg s2 0 true = some (demoServe s2, [.unwait 0 7, .toBase 0 demoWrite]) := by
    unfold processQueue demoServe
    rw [hq]
    simp only [hst, fetchStatus, hfs]
    simp [hws, demoWrite]
  exact ⟨s2, r, hfs, hws, by rw [k7, g7, h10], by rw [k7, g7, h11], by rw [k7, g7, h12], by rw [k8, g8, h13], by rw [k8, g8, h14], hq,
    Step.processQueue _ 0 true _ _ hpq⟩

/-- The whole first run: the guest write and a flush are acknowledged. -/
theorem demo_run (mv : Nat → Bytes) : ∃ s, Reach demoCfg (demoBoot mv)
    [.issue 0 7 (.write 1 1 fun _ => 55), .resp 0 7 true [], .issue 0 8 .flush, .resp 0 8 true []] s ∧
    s.sh.fs 0 = .fetched ∧ s.sh.ws 0 = true ∧ s.t.vol 0 = 100 ∧ s.t.vol 1 = 55 := by
  obtain ⟨s2, r, hfs, hws, hfin, -, hi, hn, hv, -, hst⟩ := demo_local mv
  have r := r.step hst
  simp only [demoServe, toBase, demoWrite] at r
  have r := r.quiet (Step.execDataW (o := .guest 0 7) (x := 1) (ops_issueWrite_same _ _ _ _ _) ⟨Nat.le_refl _, by decide⟩)
  have r := r.step (Step.baseDone _ 0 7 true ⟨_, rfl, fun _ x hx => by
    have : x = 1 := by have : 1 ≤ x := hx.1; have : x < 1 + 1 := hx.2; omega
    subst this; exact upd_same _ _ _⟩)
  have r := r.step (Step.flush _ 0 8 ⟨by simp [Sys.setCh, Dev.complete, Dev.issueWrite, upd, hn], by simp [Sys.setCh, hi],
    by simp [Sys.setCh], by simp [Sys.setCh, hfin]⟩)
  have r := r.step (Step.baseDone _ 0 8 true ⟨_, rfl, fun _ => trivial⟩)
  have e : ∀ l l' : List (Ev Nat), l = l' → ∀ s, Reach demoCfg (demoBoot mv) l s → Reach demoCfg (demoBoot mv) l' s := by
    intro l l' h s; rw [h]; exact id
  refine ⟨_, e _ _ ?_ _ r, hfs, hws, ?_, rfl⟩
  · simp [visible, Dev.result, Dev.issueFlush]
  · exact hv

/-- The second epoch: power loss, restart, and a read of the stripe. -/
theorem demo_crash {mv : Nat → Bytes} (hb : Bootable demoCfg [4, 0] mv) : ∃ s, Reach demoCfg (demoBoot mv)
    [.issue 0 7 (.write 1 1 fun _ => 55), .resp 0 7 true [], .issue 0 8 .flush, .resp 0 8 true [], .crash,
     .issue 0 9 (.read 0 2), .resp 0 9 true [some 100, some 55]] s := by
  obtain ⟨s, ⟨ls, hr, hv⟩, h1, h2, h3, h4⟩ := demo_run mv
  obtain ⟨⟨⟨hd, mv1, hb1, hm⟩, hf⟩, hfam⟩ := run_sim hb rfl hr
  obtain ⟨gg, a, hpin, -, hsim⟩ := hfam.sim
  have hmv : s.m.survives s.m.vol := hm.dev.vol_pers
  obtain ⟨md, hld, hbt, hh⟩ := reload hb1 hm hmv
  have htv : s.t.survives s.t.vol := hsim.tinv.vol_pers
  have hr2 := Run.crash (fun _ _ => 0) hr htv hmv hld
  have r : Reach demoCfg (demoBoot mv) _ _ := ⟨_, hr2, rfl⟩
  have hfs : (Sys.boot demoCfg md.headers s.t.vol s.m.vol fun _ _ => 0).sh.fs 0 = .fetched := by
    have := hh 0 (by decide)
    show loadFs _ = _
    unfold loadFs
    rw [this.fetched h1, this.src]
    rfl
  have hadd : addRead demoCfg (Sys.boot demoCfg md.headers s.t.vol s.m.vol fun _ _ => 0) 0 9 0 2 true =
      (toBase (Sys.boot demoCfg md.headers s.t.vol s.m.vol fun _ _ => 0) 0 { id := 9, off := 0, cnt := 2, out := none },
        [.toBase 0 { id := 9, off := 0, cnt := 2, out := none }]) := by
    unfold addRead
    have : stripes demoCfg { id := 9, off := 0, cnt := 2, out := none : QReq Nat } = [0] := by decide
    simp only [this, fetchStatus, hfs]
  have st := Step.read (c := demoCfg) (Sys.boot demoCfg md.headers s.t.vol s.m.vol fun _ _ => 0) 0 9 0 2 true
    ⟨by decide, by decide, by decide⟩ (fun _ _ _ x hx => demo_good x (by have := hx.2; omega))
    ⟨rfl, rfl, (by intro r hr; cases hr), (by intro r hr; cases hr)⟩
  rw [hadd] at st
  have r := r.step st
  simp only [toBase] at r
  have r := r.quiet (Step.execDataR (o := .guest 0 9) (x := 0) rfl ⟨Nat.le_refl _, by decide⟩)
  have r := r.quiet (Step.execDataR (o := .guest 0 9) (x := 1) rfl ⟨by decide, by decide⟩)
  have r := r.step (Step.baseDone _ 0 9 true ⟨_, rfl, fun _ x hx => by
    have : x = 0 ∨ x = 1 := by have : x < 0 + 2 := hx.2; omega
    rcases this with rfl | rfl <;> simp [upd]⟩)
  have e : ∀ l l' : List (Ev Nat), l = l' → ∀ s, Reach demoCfg (demoBoot mv) l s → Reach demoCfg (demoBoot mv) l' s := by
    intro l l' h s; rw [h]; exact id
  refine ⟨_, e _ _ ?_ _ r⟩
  rw [visible_append, hv]
  simp [visible, Dev.result, upd, Sys.boot, Dev.fresh, Dev.issueRead, List.range_succ, h3, h4]

end Verif.Lazy
