import Verif.Model.LiveDump
import Verif.Props.LiveArchiveLimits
import Verif.Props.Util

/-! # C104: what `dump-metadata` says of a volume in use

`Beside c s0 ls s t`: the tool was started when the running volume was in state `s0`; since then the backend made the steps `ls` and is
in state `s`. `Tools.readList` reads a printed list such as `0-3, 5` back (Spec/Util). `Held` is in Spec/LiveArchive. -/

set_option maxRecDepth 8000

namespace Verif.LiveDump
open Verif Verif.Metadata Verif.Disk Verif.Lazy Verif.LiveArchive

variable {D : Type} {c : Cfg D} {hdrs : Bytes} {tv : Nat → D} {mv : Nat → Bytes} {b0 : Nat → Nat → D} {s0 s : Sys D}
  {ls0 ls : List (Lab D)} {t : Tool D} {fetched written source : List Char}

theorem listed {hs : Bytes} {k n : Nat} (hl : hs.length = n) :
    (k ∈ Tools.readList (Tools.dumpLists hs).1 ↔ k < n ∧ flag (hs.getD k 0) FETCHED = true) ∧
    (k ∈ Tools.readList (Tools.dumpLists hs).2.1 ↔ k < n ∧ flag (hs.getD k 0) WRITTEN = true) ∧
    (k ∈ Tools.readList (Tools.dumpLists hs).2.2 ↔ k < n ∧ flag (hs.getD k 0) HAS_SOURCE = true) := by
  have conv : ∀ f : UInt8 → Bool, (∃ h, hs[k]? = some h ∧ f h = true) ↔ k < n ∧ f (hs.getD k 0) = true := by
    intro f
    constructor
    · rintro ⟨h, h1, h2⟩
      have := (List.getElem?_eq_some_iff.mp h1).1
      exact ⟨by omega, by simpa [List.getD_eq_getElem?_getD, h1] using h2⟩
    · rintro ⟨h1, h2⟩
      have h1 : k < hs.length := by omega
      exact ⟨hs[k], List.getElem?_eq_getElem h1, by simpa [List.getD_eq_getElem?_getD, h1] using h2⟩
  obtain ⟨h1, h2, h3⟩ := (Tools.C52_lines hs).2.2.2 k
  simp only [Remote.flag_has, Remote.has_written, Remote.has_source, Remote.has_fetched]
  exact ⟨h1.trans (conv fun h => (Remote.flagsOf h).fetched), h2.trans (conv fun h => (Remote.flagsOf h).written),
    h3.trans (conv fun h => (Remote.flagsOf h).hasSource)⟩

/-- The printed lists, stripe by stripe: bits of one header byte that was on the device at some moment. -/
theorem seen (hb : Bootable c hdrs mv) (h0 : Run c (Sys.boot c hdrs tv mv b0) ls0 s0) (h : Beside c s0 ls s t)
    (hp : printed t = some (fetched, written, source)) (k : Nat) :
    ∃ b, (k ∈ Tools.readList fetched ↔ k < c.n ∧ flag b FETCHED = true) ∧ (k ∈ Tools.readList written ↔ k < c.n ∧ flag b WRITTEN = true) ∧
      (k ∈ Tools.readList source ↔ k < c.n ∧ flag b HAS_SOURCE = true) ∧
      (k < c.n → Seen c hdrs tv s0 (visible ls0) (visible ls) s k b) := by
  obtain ⟨mv', hi⟩ := inv hb h0 h
  rw [printed, Option.map_eq_some_iff] at hp
  obtain ⟨m, hm, hd⟩ := hp
  obtain ⟨hl, hs⟩ := hi.md m hm
  have h3 := listed (k := k) hl
  rw [hd] at h3
  exact ⟨m.headers.getD k 0, h3.1, h3.2.1, h3.2.2, hs k⟩

/-- **C104** Whatever moments the sectors of the metadata are read at while the backend changes them, they load, and the tool prints its
lists. -/
theorem C104_prints (hb : Bootable c hdrs mv) (h0 : Run c (Sys.boot c hdrs tv mv b0) ls0 s0) (h : Beside c s0 ls s t)
    (hn : t.md = none) (hv : ∀ x, x < c.msec → (t.sectors x).isSome = true) :
    ∃ t' lists, Tool.Step c s t t' ∧ printed t' = some lists := by
  have hv : ∀ x, x < c.msec → t.sectors x = some ((t.sectors x).getD []) := fun x hx => by
    obtain ⟨v, h⟩ := Option.isSome_iff_exists.mp (hv x hx); rw [h]; rfl
  obtain ⟨md, hl, -⟩ := C85_loads hb h0 h hv
  exact ⟨_, _, .load t _ md hn hv hl, rfl⟩

/-- **C104** The has-source list names exactly the stripes the volume takes from its source. -/
theorem C104_source (hb : Bootable c hdrs mv) (h0 : Run c (Sys.boot c hdrs tv mv b0) ls0 s0) (h : Beside c s0 ls s t)
    (hp : printed t = some (fetched, written, source)) (k : Nat) : k ∈ Tools.readList source ↔ k < c.n ∧ c.hs k = true := by
  obtain ⟨b, -, -, h3, hs⟩ := seen hb h0 h hp k
  rw [h3]
  exact and_congr_right fun hk => by rw [(hs hk).src]

/-- **C104** A stripe listed as fetched is complete on the data device: from then on each of its sectors holds there what a plain disk
that saw the same requests holds, so that the source is not needed for it. -/
theorem C104_fetched (hb : Bootable c hdrs mv) (h0 : Run c (Sys.boot c hdrs tv mv b0) ls0 s0) (h : Beside c s0 ls s t)
    (hp : printed t = some (fetched, written, source)) {x : Nat} (hx : x < c.tsec) (hg : c.good x = true)
    (hk : x / c.ss ∈ Tools.readList fetched) :
    ∃ g d, Disk.Run (Dev.fresh (preloadWith c g hdrs tv)) (visible ls0 ++ visible ls) d ∧ d.vol x = s.t.vol x := by
  obtain ⟨b, h1, -, -, hs⟩ := seen hb h0 h hp (x / c.ss)
  obtain ⟨hn, hf⟩ := h1.mp hk
  exact (now hb h0 h).disk x ⟨hg, hx⟩ ((hs hn).settled hf)

/-- **C104** A stripe whose fetch was complete when the tool was started is listed as fetched. -/
theorem C104_fetched_before (hb : Bootable c hdrs mv) (h0 : Run c (Sys.boot c hdrs tv mv b0) ls0 s0) (h : Beside c s0 ls s t)
    (hp : printed t = some (fetched, written, source)) {k : Nat} (hk : k < c.n) (hf : s0.sh.fs k = .fetched) :
    k ∈ Tools.readList fetched := by
  obtain ⟨b, h1, -, -, hs⟩ := seen hb h0 h hp k
  exact h1.mpr ⟨hk, (hs hk).fetched hf⟩

/-- **C104** A stripe that has a source and is not listed as fetched still showed the image at some moment while the tool ran. -/
theorem C104_not_fetched (hb : Bootable c hdrs mv) (h0 : Run c (Sys.boot c hdrs tv mv b0) ls0 s0) (h : Beside c s0 ls s t)
    (hp : printed t = some (fetched, written, source)) {x : Nat} {v : D} (hx : x < c.tsec) (hv : c.src x = some v)
    (hk : x / c.ss ∈ Tools.readList source) (hf : x / c.ss ∉ Tools.readList fetched) :
    Held (fun g => preloadWith c g hdrs tv) (visible ls0) (visible ls) x v := by
  obtain ⟨b, h1, -, h3, hs⟩ := seen hb h0 h hp (x / c.ss)
  obtain ⟨hn, h3⟩ := h3.mp hk
  have : flag b FETCHED = false := by
    cases hb : flag b FETCHED with
    | false => rfl
    | true => exact absurd (h1.mpr ⟨hn, hb⟩) hf
  exact (hs hn).image h3 this x v rfl hx hv

/-- **C104** With written tracking, a write acknowledged before the tool was started is in a stripe listed as written. Later writes and
restarts of the backend may have come in between. -/
theorem C104_written {e0 e1 e2 : List (Ev D)} {q w off cnt x : Nat} {data : Nat → D} {o : List (Option D)}
    (ht : c.track = true) (hb : Bootable c hdrs mv) (h0 : Run c (Sys.boot c hdrs tv mv b0) ls0 s0) (h : Beside c s0 ls s t)
    (hp : printed t = some (fetched, written, source))
    (hv : visible ls0 = (e0 ++ Ev.issue q w (.write off cnt data) :: e1 ++ [Ev.resp q w true o]) ++ e2)
    (hc : covers off cnt x) (o1 : unanswered (q, w) e1) : x / c.ss ∈ Tools.readList written := by
  obtain ⟨hw, hn⟩ := acked_marked ht hb h0 hv o1 hc
  obtain ⟨b, -, h2, -, hs⟩ := seen hb h0 h hp (x / c.ss)
  exact h2.mpr ⟨hn, (hs hn).written hw⟩

/-- **C104** With written tracking, a stripe not listed as written held its original contents at some moment while the tool ran. -/
theorem C104_not_written (ht : c.track = true) (hb : Bootable c hdrs mv) (h0 : Run c (Sys.boot c hdrs tv mv b0) ls0 s0)
    (h : Beside c s0 ls s t) (hp : printed t = some (fetched, written, source)) {x : Nat} (hx : x < c.tsec) (hg : c.good x = true)
    (hn : x / c.ss < c.n) (hk : x / c.ss ∉ Tools.readList written) :
    Held (fun g => preloadWith c g hdrs tv) (visible ls0) (visible ls) x (preload c hdrs tv x) := by
  obtain ⟨b, -, h2, -, hs⟩ := seen hb h0 h hp (x / c.ss)
  have : flag b WRITTEN = false := by
    cases hb : flag b WRITTEN with
    | false => rfl
    | true => exact absurd (h2.mpr ⟨hn, hb⟩) hk
  exact (hs hn).fresh ht this x rfl ⟨hg, hx⟩

/-! ### The hypotheses are met -/

/-- A write was acknowledged and flushed; then the tool runs. It lists stripe 0 as fetched, written and has-source, and no other. -/
example : ∃ (mv : Nat → Bytes) (ls0 ls : List (Lab Nat)) (s0 s : Sys Nat) (t : Tool Nat) (f w src : List Char), Bootable demoCfg [4, 0] mv ∧
    demoCfg.track = true ∧ Run demoCfg (Sys.boot demoCfg [4, 0] (fun x => x) mv fun _ _ => 0) ls0 s0 ∧ Beside demoCfg s0 ls s t ∧
    printed t = some (f, w, src) ∧
    visible ls0 = ([] ++ Ev.issue 0 7 (.write 1 1 fun _ => 55) :: [] ++ [.resp 0 7 true []]) ++ [.issue 0 8 .flush, .resp 0 8 true []] ∧
    covers 1 1 1 ∧ 1 < demoCfg.tsec ∧ demoCfg.good 1 = true ∧ s0.sh.fs 0 = .fetched ∧
    0 ∈ Tools.readList f ∧ 0 ∈ Tools.readList w ∧ 0 ∈ Tools.readList src ∧ 1 ∉ Tools.readList src := by
  obtain ⟨mv, hb⟩ := demo_bootable
  obtain ⟨s, ⟨ls0, hr, hv⟩, h1, h2, h3, h4⟩ := demo_run mv
  obtain ⟨md, t1, ⟨ls1, hB1, hv1⟩, m1, -, hl, hsec⟩ := Along.load hb hr Along.start rfl
  have hp : printed t1 = some (Tools.dumpLists md.headers) := by rw [printed, m1]; rfl
  refine ⟨mv, ls0, ls1, s, s, t1, _, _, _, hb, rfl, hr, hB1, hp, hv, ⟨Nat.le_refl _, by decide⟩, by decide, by decide, h1, ?_, ?_, ?_, ?_⟩
  · exact C104_fetched_before hb hr hB1 hp (by decide) h1
  · exact C104_written (x := 1) rfl hb hr hB1 hp (e0 := []) (e1 := []) hv ⟨Nat.le_refl _, by decide⟩ (unanswered_nil _)
  · exact (C104_source hb hr hB1 hp 0).mpr ⟨by decide, by decide⟩
  · exact fun hk => absurd ((C104_source hb hr hB1 hp 1).mp hk).2 (by decide)

/-- The tool loads the metadata before the first write arrives, and then the guest writes sector 1: the lists name no fetched and no
written stripe, and stripe 0 as the one with a source. -/
example : ∃ (mv : Nat → Bytes) (ls : List (Lab Nat)) (s : Sys Nat) (t : Tool Nat), Bootable demoCfg [4, 0] mv ∧
    Beside demoCfg (Sys.boot demoCfg [4, 0] (fun x => x) mv fun _ _ => 0) ls s t ∧
    visible ls = [.issue 0 7 (.write 1 1 fun _ => 55), .resp 0 7 true [], .issue 0 8 .flush, .resp 0 8 true []] ∧
    s.t.vol 1 = 55 ∧ printed t = some ([], [], "0".toList) ∧ Tools.readList [] = [] ∧ Tools.readList "0".toList = [0] := by
  obtain ⟨mv, hb⟩ := demo_bootable
  obtain ⟨md, t1, r, m1, -, hl, hsec⟩ := Along.load hb (.nil (Sys.boot demoCfg [4, 0] (fun x => x) mv fun _ _ => 0)) Along.start rfl
  have hmd : md.headers = [4, 0] := by
    obtain ⟨md', h1, h2⟩ := hb.load
    have : fromBytes (devBytes demoCfg.msec mv) = .ok md := hl
    rw [h1, Except.ok.injEq] at this
    rw [← this]; exact h2
  obtain ⟨s, hr, -, -, -, h4⟩ := demo_run mv
  obtain ⟨ls, hB, hv⟩ := r.of_run hr (by simp)
  rw [List.nil_append] at hv
  refine ⟨mv, ls, s, t1, hb, hB, hv, h4, ?_, by decide +kernel, by decide +kernel⟩
  rw [printed, m1, Option.map_some, hmd]
  decide +kernel

end Verif.LiveDump
