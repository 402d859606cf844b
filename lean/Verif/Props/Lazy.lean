import Verif.Proof.LazyDemo
import Verif.Proof.DiskTrace

/-! # C05–C07, C10: the lazily fetched disk against a plain disk

`Lazy.Run c s ls s'` is an execution of the lazily fetched disk (guest queues, background worker, flusher, data,
metadata and source devices) with any number of power losses; `visible ls` is what the guest sees of it.
`Disk.Run` (Spec/Disk) is the specification: a plain disk with a volatile cache. -/

set_option maxRecDepth 8000

namespace Verif.Lazy
open Verif Verif.Metadata Verif.Disk

variable {D : Type} {c : Cfg D} {hdrs : Bytes} {tv : Nat → D} {mv : Nat → Bytes} {b0 : Nat → Nat → D}
  {s : Sys D} {ls : List (Lab D)}

/-- **C05** Whatever the guest sees of the lazy disk, it could have seen of a plain disk that initially held the
image on the stripes still to be fetched and the local contents elsewhere. In such a stripe the image may end; what the
plain disk holds past its end (`g`) is chosen with the run, and stays the same throughout it. -/
theorem C05_refines_plain_disk (hb : Bootable c hdrs mv) (h : Run c (Sys.boot c hdrs tv mv b0) ls s) :
    ∃ g d, Disk.Run (Dev.fresh (preloadWith c g hdrs tv)) (visible ls) d :=
  let ⟨g, d, _, hd, _⟩ := (run_sim hb rfl h).2.sim
  ⟨g, d, hd⟩

/-- **C05** for a volume whose image covers every stripe that is fetched from it: the initial content is the same for
all runs. -/
theorem C05_refines_whole_image (hb : Bootable c hdrs mv) (hg : ∀ x, c.good x = true) (h : Run c (Sys.boot c hdrs tv mv b0) ls s) :
    ∃ d, Disk.Run (Dev.fresh (preload c hdrs tv)) (visible ls) d := by
  obtain ⟨g, d, hd⟩ := C05_refines_plain_disk hb h
  rw [show preloadWith c g hdrs tv = preload c hdrs tv from funext fun x => preloadWith_good hb g (hg x)] at hd
  exact ⟨d, hd⟩

/-- **C05**, read off the plain disk: reading a sector nobody wrote returns its preloaded content. (Past the end of
the image see `C05_reads_agree`, Props/LazyTail.) -/
theorem C05_read_unwritten {pre post : List (Ev D)} {q id off cnt x : Nat} {out : List (Option D)} (hb : Bootable c hdrs mv)
    (h : Run c (Sys.boot c hdrs tv mv b0) ls s)
    (hv : visible ls = pre ++ Ev.issue q id (.read off cnt) :: post ++ [Ev.resp q id true out])
    (hx : covers off cnt x) (hg : c.good x = true) (hq : quiet pre x) (hq' : quiet post x) (ho : unanswered (q, id) post) :
    out[x - off]? = some (some (preload c hdrs tv x)) := by
  obtain ⟨g, d, hd⟩ := C05_refines_plain_disk hb h
  rw [hv, List.append_assoc] at hd
  obtain ⟨m, h1, h2⟩ := hd.split pre _ rfl
  rw [← preloadWith_good hb g hg]
  have : Durable (Dev.fresh (preloadWith c g hdrs tv) : Disk D) x (preloadWith c g hdrs tv x) :=
    ⟨⟨by intro o off cnt data done h; simp [Dev.fresh] at h, rfl⟩, fun u hu => hu⟩
  exact (this.run h1 hq).toRest.read h2 hq' ho hx

/-- **C05**, read off the plain disk: after a completed write, and until the next write to the sector or a power
loss, every read returns the data of that write. -/
theorem C05_read_after_write {e0 e1 e2 e3 : List (Ev D)} {q w off cnt q' r off' cnt' x : Nat} {data : Nat → D}
    {o1 out : List (Option D)} (hb : Bootable c hdrs mv) (h : Run c (Sys.boot c hdrs tv mv b0) ls s)
    (hv : visible ls = (e0 ++ Ev.issue q w (.write off cnt data) :: e1 ++ [Ev.resp q w true o1]) ++ e2 ++
      (Ev.issue q' r (.read off' cnt') :: e3 ++ [Ev.resp q' r true out]))
    (hx : covers off cnt x) (hx' : covers off' cnt' x)
    (h0 : settledWrites e0 x) (h1 : quiet e1 x) (h2 : quiet e2 x) (h3 : quiet e3 x)
    (o1' : unanswered (q, w) e1) (o2 : ∀ e ∈ e2, e ≠ .crash) (o3 : unanswered (q', r) e3) :
    out[x - off']? = some (some (data x)) := by
  obtain ⟨_, d, hd⟩ := C05_refines_plain_disk hb h
  rw [hv] at hd
  obtain ⟨m2, g1, g2⟩ := hd.split _ _ rfl
  obtain ⟨m1, g3, g4⟩ := g1.split _ _ rfl
  have r1 := Rest.write g3 rfl h0 h1 o1' hx
  exact (r1.run g4 h2 o2).read g2 h3 o3 hx'

/-- **C06** Whatever survives a power loss on the metadata device loads again, whenever it happens. -/
theorem C06_reload (hb : Bootable c hdrs mv) (h : Run c (Sys.boot c hdrs tv mv b0) ls s) {mv' : Nat → Bytes}
    (hm : s.m.survives mv') : ∃ md, fromBytes (devBytes c.msec mv') = .ok md ∧ Bootable c md.headers mv' := by
  obtain ⟨⟨⟨_, _, hb', hmeta⟩, -⟩, -⟩ := run_sim hb rfl h
  obtain ⟨md, h1, h2, -⟩ := reload hb' hmeta hm
  exact ⟨md, h1, h2⟩

/-- **C06** After a power loss at any moment, with any subset of the unflushed sectors surviving on each device,
the restarted lazy disk presents a content that the plain disk could present after the same power loss, past the end of
the image too. (`C05` also covers all later runs and power losses.) -/
theorem C06_recovery (hb : Bootable c hdrs mv) (h : Run c (Sys.boot c hdrs tv mv b0) ls s) :
    ∃ g d, Disk.Run (Dev.fresh (preloadWith c g hdrs tv)) (visible ls) d ∧
      ∀ tv' mv', s.t.survives tv' → s.m.survives mv' →
        ∃ md v, fromBytes (devBytes c.msec mv') = .ok md ∧ d.survives v ∧
          ∀ x, x < c.tsec → preloadWith c g md.headers tv' x = v x := by
  obtain ⟨⟨⟨_, _, hb', hmeta⟩, -⟩, hfam⟩ := run_sim hb rfl h
  obtain ⟨gg, d, hpin, hd, hsim⟩ := hfam.sim
  refine ⟨gg, d, hd, fun tv' mv' ht hm => ?_⟩
  obtain ⟨md, h1, h2, -⟩ := reload hb' hmeta hm
  obtain ⟨v, h3, h4⟩ := crash_preload hb' hmeta hsim (fun x hx hs _ hl => hpin x hx hs trivial hl) ht hm h1
  exact ⟨md, v, h1, h3, fun x hx => (h4 x hx).symm⟩

/-- **C06**, read off the plain disk: data of a completed write that a later completed flush covers are still
there after any number of power losses. -/
theorem C06_flushed_survives {e0 e1 e2 e3 e4 e5 : List (Ev D)} {q w off cnt qf f q' r off' cnt' x : Nat} {data : Nat → D}
    {o1 o2 out : List (Option D)} (hb : Bootable c hdrs mv) (h : Run c (Sys.boot c hdrs tv mv b0) ls s)
    (hv : visible ls = (e0 ++ Ev.issue q w (.write off cnt data) :: e1 ++ [Ev.resp q w true o1]) ++ e2 ++
      (Ev.issue qf f .flush :: e3 ++ [Ev.resp qf f true o2]) ++ e4 ++
      (Ev.issue q' r (.read off' cnt') :: e5 ++ [Ev.resp q' r true out]))
    (hx : covers off cnt x) (hx' : covers off' cnt' x)
    (h0 : settledWrites e0 x) (h1 : quiet e1 x) (h2 : quiet e2 x) (h3 : quiet e3 x) (h4 : quiet e4 x) (h5 : quiet e5 x)
    (a1 : unanswered (q, w) e1) (a2 : ∀ e ∈ e2, e ≠ .crash) (a3 : unanswered (qf, f) e3) (a5 : unanswered (q', r) e5) :
    out[x - off']? = some (some (data x)) := by
  obtain ⟨_, d, hd⟩ := C05_refines_plain_disk hb h
  rw [hv] at hd
  obtain ⟨m4, g1, g2⟩ := hd.split _ _ rfl
  obtain ⟨m3, g3, g4⟩ := g1.split _ _ rfl
  obtain ⟨m2, g5, g6⟩ := g3.split _ _ rfl
  obtain ⟨m1, g7, g8⟩ := g5.split _ _ rfl
  have r1 := Rest.write g7 rfl h0 h1 a1 hx
  have r2 := (r1.run g8 h2 a2).flush g6 h3 a3
  exact (r2.run g4 h4).toRest.read g2 h5 a5 hx'

/-- The hypotheses of C05, C06 are met: the demo volume really goes through a fetch, a tracked write, a flush, a
power loss and a read, and the theorem predicts the bytes the model returns. -/
example : ∃ mv s ls, Bootable demoCfg [4, 0] mv ∧ Run demoCfg (demoBoot mv) ls s ∧
    visible ls = ([] ++ Ev.issue 0 7 (.write 1 1 fun _ => 55) :: [] ++ [Ev.resp 0 7 true []]) ++ [] ++
      (Ev.issue 0 8 .flush :: [] ++ [Ev.resp 0 8 true []]) ++ [.crash] ++
      (Ev.issue 0 9 (.read 0 2) :: [] ++ [Ev.resp 0 9 true [some 100, some 55]]) := by
  obtain ⟨mv, hb⟩ := demo_bootable
  obtain ⟨s, ls, h1, h2⟩ := demo_crash hb
  exact ⟨mv, s, ls, hb, h1, h2⟩

/-- Formatting any disk with any image length gives a volume to which all theorems of this file apply. -/
example (shift : UInt8) (base image msec : Nat) (hsh : shift.toNat ≤ 17) (hb : base < 2 ^ 32)
    (hfit : metadataSize (Meta.new shift base image) ≤ msec * 512) (src : Nat → Option D) (tv : Nat → D) :
    ∃ (c : Cfg D) (mv : Nat → Bytes), c.n = base ∧ c.src = src ∧ Bootable c (Meta.new shift base image).headers mv := by
  have hsv : Saveable (Meta.new shift base image) := ⟨rfl, rfl, rfl, hsh, by simpa [Meta.new] using hb⟩
  obtain ⟨b, h1, -⟩ := C01_save_load (Meta.new shift base image) (zeros (msec * 512)) hsv
    (by rw [zeros_length]; exact hfit) (by rw [zeros_length]; simp)
  exact ⟨{ ss := 2 ^ shift.toNat, n := base, tsec := base * 2 ^ shift.toNat, msec := msec,
            hs := fun k => decide (k < image) && decide (k < base), src := src, srcHas := fun k => decide (k < image),
            srcStripes := min image base, image := false, track := true, autofetch := true }, _, rfl, rfl,
    formatted_bootable hsh hb hfit h1 (Nat.two_pow_pos _) rfl (fun _ => rfl) (Nat.min_le_right _ _)⟩

end Verif.Lazy
