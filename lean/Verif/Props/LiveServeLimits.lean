import Verif.Props.LiveServe

/-! # C86: where a stripe server on a volume in use is out of date, and concrete cases -/

set_option maxRecDepth 8000

namespace Verif.LiveServe
open Verif Verif.Metadata Verif.Disk Verif.Lazy Verif.LiveArchive

theorem saved_loads {D : Type} {m : Meta} {c : Cfg D} (hsv : Saveable m) (hfit : metadataSize m ≤ c.msec * 512)
    (hss : 0 < c.ss) (hn : c.n = m.headers.length) (hhs : ∀ k, c.hs k = flag (m.headers.getD k 0) HAS_SOURCE) (hsrc : c.srcStripes ≤ c.n) :
    ∃ mv, Bootable c m.headers mv ∧ fromBytes (devBytes c.msec mv) = .ok m := by
  obtain ⟨b', h1, h2, -, h4⟩ := C01_save_load m (zeros (c.msec * 512)) hsv (by rw [zeros_length]; exact hfit) (by rw [zeros_length]; simp)
  rw [zeros_length] at h2
  have : fromBytes (devBytes c.msec (sectorsOf b')) = .ok m := by
    rw [devBytes_sectorsOf _ _ (by omega), List.take_of_length_le (by omega)]; exact h4
  exact ⟨sectorsOf b', ⟨hss, ⟨_, this, rfl⟩, hn.symm, sectorsOf_length _, hhs, hsrc⟩, this⟩

/-- The server has been running beside the volume; the guest saw `guest log`. -/
theorem Serving.of_run {c : Cfg Bytes} {s0 s s' : Sys Bytes} {h : Host} {log : List SLab} {es : List (Ev Bytes)} (hs : Serving c s0 log s h)
    (hr : Reach c s es s') (hc : Ev.crash ∉ es) : ∃ ls : List (Lab Bytes), Serving c s0 (log ++ ls.map .vol) s' h ∧ visible ls = es := by
  obtain ⟨ls, hr, rfl⟩ := hr
  refine ⟨ls, ?_, rfl⟩
  induction hr with
  | nil => simpa using hs
  | step _ hst ih =>
    rw [visible_append] at hc
    rw [List.map_append, ← List.append_assoc]
    exact (ih fun hm => hc (List.mem_append_left _ hm)).volume hst
  | crash => rw [visible_append] at hc; exact absurd (by simp [visible]) hc

/-- One stripe of one sector without a source, written tracking on. -/
def oneCfg : Cfg Bytes :=
  { ss := 1, n := 1, tsec := 1, msec := 2, hs := fun _ => false, src := fun _ => none, srcHas := fun _ => false, srcStripes := 0,
    image := false, track := true, autofetch := false }

theorem one_bootable : ∃ mv, Bootable oneCfg [0] mv ∧ fromBytes (devBytes oneCfg.msec mv) = .ok (Meta.new 0 1 0) := by
  obtain ⟨mv, h⟩ := saved_loads (c := oneCfg) (m := Meta.new 0 1 0) ⟨rfl, rfl, rfl, by decide, by decide⟩ (by decide) (by decide)
    (by decide) (by
      intro k
      match k with
      | 0 => decide
      | k + 1 => show false = flag 0 HAS_SOURCE; decide) (by decide)
  exact ⟨mv, h⟩

def oneWrite : QReq Bytes := { id := 7, off := 0, cnt := 1, out := some fun _ => Restore.seven }

def oneServe (s : Sys Bytes) : Sys Bytes := toBase (s.setCh 0 fun ch =>
      { ch with queue := [], requested := fun k => ch.requested k && !(stripes oneCfg oneWrite).contains k }) 0 oneWrite

def oneBoot (mv : Nat → Bytes) : Sys Bytes := Sys.boot oneCfg [0] (fun _ => zeros 512) mv fun _ _ => zeros 512

/-- The guest writes the sector; the stripe is marked written, and the write is acknowledged. -/
theorem one_run (mv : Nat → Bytes) : ∃ s, Reach oneCfg (oneBoot mv) [.issue 0 7 (.write 0 1 fun _ => Restore.seven), .resp 0 7 true []] s ∧
    s.t.vol 0 = Restore.seven ∧ s.sh.ws 0 = true := by
  have r : Reach oneCfg (oneBoot mv) [] (oneBoot mv) := ⟨[], .nil _, rfl⟩
  have r := r.step (Lazy.Step.write _ 0 7 0 1 (fun _ => Restore.seven) true ⟨by decide, by decide, by decide⟩
    ⟨rfl, rfl, (by intro r hr; cases hr), (by intro r hr; cases hr)⟩)
  have r := r.step (Lazy.Step.receiveWritten _ 0 [] rfl)
  obtain ⟨s, r, h1, h2, h3, h4, h5, h6⟩ : ∃ s, Reach oneCfg (oneBoot mv) [.issue 0 7 (.write 0 1 fun _ => Restore.seven)] s ∧
      s.sh.fs 0 = .noSource ∧ s.fl.hdrs = [0] ∧ s.fl.queue = [(0, WRITTEN)] ∧ s.fl.free = 16 ∧ s.fl.busy 1 = false ∧ (s.ch 0).queue = [oneWrite] :=
    ⟨_, r, rfl, rfl, rfl, rfl, rfl, rfl⟩
  obtain ⟨s1, r, g1, g2, g3, g4, g5, g6, g7, g8, g9⟩ := demo_meta r h3 h4 h5 (by rw [h2]; decide) false true (by rw [h2]; decide) (by rw [h2]; decide)
  have hfs : s1.sh.fs 0 = .noSource := by rw [g5]; exact h1
  have hws : s1.sh.ws 0 = true := by rw [g6]; rfl
  have hst : stripes oneCfg oneWrite = [0] := by decide
  have hq : (s1.ch 0).queue = [oneWrite] := by rw [g7, h6]
  have hpq : processQueue oneCfg s1 0 true = some (oneServe s1, [.unwait 0 7, .toBase 0 oneWrite]) := by
    unfold processQueue oneServe
    rw [hq]
    simp only [hst, fetchStatus, hfs]
    simp [hws, oneWrite]
  have r := r.step (Lazy.Step.processQueue _ 0 true _ _ hpq)
  simp only [oneServe, toBase, oneWrite] at r
  have r := r.quiet (Lazy.Step.execDataW (o := .guest 0 7) (x := 0) (ops_issueWrite_same _ _ _ _ _) ⟨Nat.le_refl _, by decide⟩)
  have r := r.step (Lazy.Step.baseDone _ 0 7 true ⟨_, rfl, fun _ x hx => by
    have : x = 0 := by have : x < 0 + 1 := hx.2; omega
    subst this; exact upd_same _ _ _⟩)
  have e : ∀ l l' : List (Ev Bytes), l = l' → ∀ s, Reach oneCfg (oneBoot mv) l s → Reach oneCfg (oneBoot mv) l' s := by
    intro l l' h s; rw [h]; exact id
  refine ⟨_, e _ _ ?_ _ r, rfl, hws⟩
  simp [visible, Dev.result]

theorem one_allowed {b : Bytes} {held : Nat → Bytes → Prop} {orig : Nat → Bytes} {n : Nat} {det : Nat → Prop} (h : Allowed n 1 det held orig 0 b)
    (hb : b = [2]) (hd : det 0) : held 0 (orig 0) := by
  cases h with
  | error => cases hb
  | invalid => cases hb
  | noData h ho => exact ho 0 rfl hd
  | data h d hl hd => simp at hb

/-- **C86** "An answer is not older than the request" is false: the server knows the metadata of when it was started. Here a guest write to a
new stripe is acknowledged, and only then does a client ask for the stripe; it is told that the stripe has no data. -/
theorem C86_false_current :
    ∃ (c : Cfg Bytes) (hdrs : Bytes) (tv mv : Nat → Bytes) (b0 : Nat → Nat → Bytes) (m0 : Meta) (l1 : List SLab) (s : Sys Bytes) (h : Host) (b : Bytes),
      Bootable c hdrs mv ∧ fromBytes (devBytes c.msec mv) = .ok m0 ∧ stripeSectorCount m0 = c.ss ∧ c.track = true ∧
      Serving c (Sys.boot c hdrs tv mv b0) (l1 ++ .ask 0 0 :: ([] ++ .answer 0 b :: [])) s h ∧
      guest l1 = [.issue 0 7 (.write 0 1 fun _ => Restore.seven), .resp 0 7 true []] ∧ c.good 0 = true ∧ 0 < c.tsec ∧
      (Sys.boot c hdrs tv mv b0).sh.isLocal 0 = true ∧
      ¬ Allowed c.n c.ss (fun x => c.good x = true ∧ x < c.tsec) (Held (fun g => preloadWith c g hdrs tv) ([] ++ guest l1) (guest [])) (preload c hdrs tv) 0 b := by
  obtain ⟨mv, hb, hz⟩ := one_bootable
  obtain ⟨md, t, ⟨ls, hB, hv⟩, m1, -, hl, -⟩ := Along.load hb (.nil (oneBoot mv)) Along.start rfl
  have hmd : md = Meta.new 0 1 0 := by
    have : fromBytes (devBytes oneCfg.msec mv) = .ok md := hl
    rw [hz, Except.ok.injEq] at this; exact this.symm
  subst hmd
  obtain ⟨s, hr, hv7, hws⟩ := one_run mv
  obtain ⟨ls', hS, hv'⟩ := (Serving.ready hB m1).of_run hr (by simp)
  have hw : way (Host.new oneCfg.track (Meta.new 0 1 0)).md 0 = none := by decide
  have hS := hS.server (.ask _ 0 0 rfl)
  have hS := hS.server (.answer _ 0 0 (fun _ => none) (fun _ => zeros 512) rfl (fun _ => zeros_length _) (by
    intro x _ h
    rcases h with ⟨h, -⟩ | ⟨h, -⟩
    · exact absurd (hw.symm.trans h) (by simp)
    · exact absurd (hw.symm.trans h) (by simp)))
  have hg : guest (List.map SLab.vol ls ++ List.map SLab.vol ls') = [.issue 0 7 (.write 0 1 fun _ => Restore.seven), .resp 0 7 true []] := by
    rw [guest_append, guest_vol, guest_vol, hv, hv']; rfl
  refine ⟨oneCfg, [0], fun _ => zeros 512, mv, fun _ _ => zeros 512, _, _, s, _, _, hb, hz, rfl, rfl, by simpa [oneBoot] using hS, hg, rfl, by decide, rfl, fun ha => ?_⟩
  · have := one_allowed ha rfl ⟨rfl, by decide⟩
    rw [hg] at this
    have h7 := Held.written (x := 0) (e0 := []) (e1 := []) (e2 := []) this ⟨Nat.le_refl _, by decide⟩ (by intro a q id off cnt data b he; simp at he) (quiet_nil _) (quiet_nil _)
      (quiet_nil _) (unanswered_nil _) (by intro e he; cases he) (by intro e he; cases he)
    exact Restore.seven_ne h7.symm

/-! ### The hypotheses of the positive statements are met -/

/-- A write is acknowledged, then the server is started; a client asks for the stripe and is sent what was written. -/
example : ∃ (mv : Nat → Bytes) (ls0 : List (Lab Bytes)) (s0 s : Sys Bytes) (h : Host) (l1 : List SLab) (d : Bytes),
    Bootable oneCfg [0] mv ∧ fromBytes (devBytes oneCfg.msec mv) = .ok (Meta.new 0 1 0) ∧ stripeSectorCount (Meta.new 0 1 0) = oneCfg.ss ∧
    Run oneCfg (Sys.boot oneCfg [0] (fun _ => zeros 512) mv fun _ _ => zeros 512) ls0 s0 ∧
    Serving oneCfg s0 (l1 ++ .ask 5 0 :: ([] ++ .answer 5 ([0] ++ le 8 512 ++ d) :: [])) s h ∧
    visible ls0 = ([] ++ Ev.issue 0 7 (.write 0 1 fun _ => Restore.seven) :: [] ++ [Ev.resp 0 7 true []]) ++ [] ∧ guest l1 = [] ∧
    covers 0 1 0 ∧ s0.sh.isLocal 0 = true ∧ 0 < oneCfg.n ∧ 0 < oneCfg.tsec ∧ oneCfg.good 0 = true ∧ slice d 0 512 = Restore.seven := by
  obtain ⟨mv, hb, hz⟩ := one_bootable
  obtain ⟨s, ⟨ls0, hr, hv0⟩, hv7, hws⟩ := one_run mv
  obtain ⟨md, t, ⟨ls, hB, hv⟩, m1, -, hl, -⟩ := Along.load hb hr Along.start rfl
  obtain ⟨mv', hI⟩ := inv hb hr hB
  obtain ⟨hlen, hseen⟩ := hI.md md m1
  have hlen : md.headers.length = 1 := hlen
  have hgm : md.headers[0]? = some (md.headers.getD 0 0) := by
    rw [List.getD_eq_getElem?_getD, List.getElem?_eq_getElem (by omega)]; rfl
  have hw : way (Host.new oneCfg.track md).md 0 = some false := by
    cases hw : way (Host.new oneCfg.track md).md 0 with
    | none =>
      have := ((way_cases hgm).2.2 hw).2
      have h2 := (hseen 0 (by decide)).written hws
      rw [h2] at this; cases this
    | some w =>
      cases w with
      | false => rfl
      | true =>
        have := ((way_cases hgm).1 hw).1
        have h2 := (hseen 0 (by decide)).src
        rw [h2] at this; cases this
  have hS := Serving.ready hB m1
  have hss := serving_size hb hr hS hz rfl
  have hS := hS.server (.ask _ 5 0 rfl)
  have hS := hS.server (.disk _ 5 0 (fun _ => none) 0 rfl hw rfl (by decide))
  have hS := hS.server (.answer _ 5 0 (upd (fun _ => none) 0 (some (s.t.vol 0))) (fun _ => Restore.seven) rfl (fun _ => Restore.seven_length) (by
    intro x hx _
    have hx : x = 0 := by have : x / 1 = 0 := hx; omega
    subst hx
    rw [upd_same, hv7]))
  rw [handle_read] at hS
  simp only [hw, Remote.stripeSize, hss] at hS
  have hloc : s.sh.isLocal 0 = true := ((now hb hr (.start (c := oneCfg) (s0 := s))).nosrc 0).2 rfl
  have e : ∃ h, Serving oneCfg s (ls.map .vol ++ .ask 5 0 :: ([] ++ .answer 5 ([0] ++ le 8 512 ++ devBytes 1 fun _ => Restore.seven) :: [])) s h :=
    ⟨_, by simpa [oneCfg] using hS⟩
  obtain ⟨h, hS⟩ := e
  exact ⟨mv, ls0, s, s, h, ls.map .vol, devBytes 1 fun _ => Restore.seven, hb, hz, rfl, hr, hS, hv0, (by rw [guest_vol, hv]), ⟨Nat.le_refl _, by decide⟩, hloc,
    by decide, by decide, rfl, devBytes_slice 1 (fun _ => Restore.seven) (fun _ => Restore.seven_length) 0 (by decide)⟩

/-- The server is started with the volume and asked before anything is written. -/
example : ∃ (mv : Nat → Bytes) (l1 : List SLab) (h : Host),
    Bootable oneCfg [0] mv ∧ fromBytes (devBytes oneCfg.msec mv) = .ok (Meta.new 0 1 0) ∧
    Serving oneCfg (oneBoot mv) (l1 ++ .ask 5 0 :: ([] ++ .answer 5 [2] :: [])) (oneBoot mv) h ∧ guest l1 = [] ∧ oneCfg.track = true := by
  obtain ⟨mv, hb, hz⟩ := one_bootable
  obtain ⟨md, t, ⟨ls, hB, hv⟩, m1, -, hl, -⟩ := Along.load hb (.nil (oneBoot mv)) Along.start rfl
  have hmd : md = Meta.new 0 1 0 := by
    have : fromBytes (devBytes oneCfg.msec mv) = .ok md := hl
    rw [hz, Except.ok.injEq] at this; exact this.symm
  subst hmd
  have hw : way (Host.new oneCfg.track (Meta.new 0 1 0)).md 0 = none := by decide
  have hS := (Serving.ready hB m1).server (.ask _ 5 0 rfl)
  have hS := hS.server (.answer _ 5 0 (fun _ => none) (fun _ => zeros 512) rfl (fun _ => zeros_length _) (by
    intro x _ h
    rcases h with ⟨h, -⟩ | ⟨h, -⟩
    · exact absurd (hw.symm.trans h) (by simp)
    · exact absurd (hw.symm.trans h) (by simp)))
  rw [handle_read] at hS
  simp only [hw] at hS
  exact ⟨mv, ls.map .vol, _, hb, hz, by simpa [Host.new, served, Meta.new, oneCfg] using hS, by rw [guest_vol, hv], rfl⟩

end Verif.LiveServe
