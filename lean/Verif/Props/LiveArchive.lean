import Verif.Proof.LiveArchive
import Verif.Props.RestoreLimits
import Verif.Proof.LazyAck

/-! # C85: archiving a volume that is in use

`Beside c s0 ls s t`: the archive tool was started when the running volume was in state `s0`; since then the backend made the steps `ls`
and is in state `s`, and the tool has read `t`. `Held` and `Snapshot` are in Spec/LiveArchive. -/

set_option maxRecDepth 8000

namespace Verif.LiveArchive
open Verif Verif.Metadata Verif.Disk Verif.Lazy

variable {D : Type} {c : Cfg D} {hdrs : Bytes} {tv : Nat → D} {mv : Nat → Bytes} {b0 : Nat → Nat → D} {s0 s : Sys D}
  {ls0 ls : List (Lab D)} {t : Tool D} {md : Meta}

theorem half_eq (h : UInt8) : halfWritten h = Restore.writtenUnfetched h := by
  unfold halfWritten Restore.writtenUnfetched
  rw [Remote.flag_has, Remote.flag_has, Remote.flag_has, Remote.has_written, Remote.has_source, Remote.has_fetched]

theorem recorded_eq (md : Meta) (k : Nat) : recorded (md.headers.getD k 0) = Restore.archived md k := by
  unfold recorded Restore.archived
  rw [Remote.flag_has, Remote.flag_has, Remote.has_written, Remote.has_source]

/-- **C85** The metadata of a volume in use load, whatever moment each of their sectors is read at, and they have the
stripes and the source flags of the volume. -/
theorem C85_loads (hb : Bootable c hdrs mv) (h0 : Run c (Sys.boot c hdrs tv mv b0) ls0 s0) (h : Beside c s0 ls s t)
    {v : Nat → Bytes} (hv : ∀ x, x < c.msec → t.sectors x = some (v x)) :
    ∃ md, fromBytes (devBytes c.msec v) = .ok md ∧ md.headers.length = c.n ∧
      ∀ k, k < c.n → flag (md.headers.getD k 0) HAS_SOURCE = c.hs k := by
  obtain ⟨mv', hi⟩ := inv hb h0 h
  obtain ⟨_, hb', -⟩ := hi.good
  obtain ⟨md, g1, g2, g3⟩ := load_seen hb' fun x hx => hi.sec x _ (hv x hx)
  exact ⟨md, g1, g2, fun k hk => (g3 k hk).src⟩

/-- **C85** Every sector the tool records holds what the volume held in that sector at some moment while the tool ran. Missing from the
property: stripes that the loaded metadata mark written but not yet fetched (false, `C85_false_half_written`), and one moment for all
sectors (false, `C85_false_snapshot`). -/
theorem C85_held_partial (hb : Bootable c hdrs mv) (h0 : Run c (Sys.boot c hdrs tv mv b0) ls0 s0) (h : Beside c s0 ls s t)
    (hm : t.md = some md) {x : Nat} {v : D} (hx : x < c.tsec) (hg : c.good x = true) (ho : t.out x = some v)
    (hw : Restore.writtenUnfetched (md.headers.getD (x / c.ss) 0) = false) :
    Held (fun g => preloadWith c g hdrs tv) (visible ls0) (visible ls) x v := by
  obtain ⟨mv', hi⟩ := inv hb h0 h
  exact hi.out md x v hm ho ⟨hg, hx⟩ (by rw [half_eq]; exact hw)

/-- **C85** With written tracking, a stripe the tool leaves out held its original contents at some moment while the tool ran. -/
theorem C85_left_out (ht : c.track = true) (hb : Bootable c hdrs mv) (h0 : Run c (Sys.boot c hdrs tv mv b0) ls0 s0)
    (h : Beside c s0 ls s t) (hm : t.md = some md) {x : Nat} (hx : x < c.tsec) (hg : c.good x = true) (hn : x / c.ss < c.n)
    (hr : Restore.archived md (x / c.ss) = false) :
    Held (fun g => preloadWith c g hdrs tv) (visible ls0) (visible ls) x (preload c hdrs tv x) := by
  obtain ⟨mv', hi⟩ := inv hb h0 h
  rw [← recorded_eq] at hr
  simp only [recorded, Bool.or_eq_false_iff] at hr
  exact ((hi.md md hm).2 _ hn).fresh ht hr.1 x rfl ⟨hg, hx⟩

/-! ### Sectors that are not written while the tool runs -/

theorem Beside.no_crash (h : Beside c s0 ls s t) : Ev.crash ∉ visible ls := by
  induction h with
  | start => simp [visible]
  | volume _ hst ih =>
    rw [visible_append]
    intro hm
    rcases List.mem_append.mp hm with hm | hm
    · exact ih hm
    · exact (step_visible hst).1 hm
  | tool _ _ ih => exact ih

/-- A sector nobody ever wrote can only hold its initial content. -/
theorem Held.unwritten {init : (Nat → D) → Nat → D} {es0 es : List (Ev D)} {x : Nat} {v : D} (h : Held init es0 es x v)
    (h0 : quiet es0 x) (h1 : quiet es x) : ∃ g, v = init g x := by
  obtain ⟨g, e1, e2, d, rfl, hr, rfl⟩ := h
  refine ⟨g, ?_⟩
  have : Durable (Dev.fresh (init g) : Disk D) x (init g x) :=
    ⟨⟨by intro o off cnt data done h; simp [Dev.fresh] at h, rfl⟩, fun u hu => hu⟩
  refine (this.run hr ?_).vol
  intro q id off cnt data he
  rcases List.mem_append.mp he with he | he
  · exact h0 _ _ _ _ _ he
  · exact h1 _ _ _ _ _ (List.mem_append_left _ he)

/-- A sector written, the write acknowledged, and not written since can only hold those data. -/
theorem Held.written {init : (Nat → D) → Nat → D} {e0 e1 e2 es : List (Ev D)} {q w off cnt x : Nat} {data : Nat → D} {o : List (Option D)}
    {v : D} (h : Held init ((e0 ++ Ev.issue q w (.write off cnt data) :: e1 ++ [Ev.resp q w true o]) ++ e2) es x v)
    (hx : covers off cnt x) (h0 : settledWrites e0 x) (h1 : quiet e1 x) (h2 : quiet e2 x) (h3 : quiet es x)
    (o1 : unanswered (q, w) e1) (o2 : ∀ e ∈ e2, e ≠ .crash) (o3 : ∀ e ∈ es, e ≠ .crash) : v = data x := by
  obtain ⟨g, f1, f2, d, rfl, hr, rfl⟩ := h
  rw [List.append_assoc] at hr
  obtain ⟨m, g1, g2⟩ := hr.split _ _ rfl
  refine ((Rest.write g1 rfl h0 h1 o1 hx).run g2 ?_ ?_).vol
  · intro q id off cnt data he
    rcases List.mem_append.mp he with he | he
    · exact h2 _ _ _ _ _ he
    · exact h3 _ _ _ _ _ (List.mem_append_left _ he)
  · intro e he
    rcases List.mem_append.mp he with he | he
    · exact o2 _ he
    · exact o3 _ (List.mem_append_left _ he)

/-- **C85**, read off the plain disk: a sector whose last write was acknowledged before the tool was started, and which is not written
while the tool runs, is recorded with the data of that write. -/
theorem C85_acknowledged_partial {e0 e1 e2 : List (Ev D)} {q w off cnt x : Nat} {data : Nat → D} {o : List (Option D)} {v : D}
    (hb : Bootable c hdrs mv) (h0 : Run c (Sys.boot c hdrs tv mv b0) ls0 s0) (h : Beside c s0 ls s t)
    (hv : visible ls0 = (e0 ++ Ev.issue q w (.write off cnt data) :: e1 ++ [Ev.resp q w true o]) ++ e2)
    (hc : covers off cnt x) (g0 : settledWrites e0 x) (g1 : quiet e1 x) (g2 : quiet e2 x) (g3 : quiet (visible ls) x)
    (o1 : unanswered (q, w) e1) (o2 : ∀ e ∈ e2, e ≠ .crash)
    (hm : t.md = some md) (hx : x < c.tsec) (hg : c.good x = true) (ho : t.out x = some v)
    (hw : Restore.writtenUnfetched (md.headers.getD (x / c.ss) 0) = false) : v = data x := by
  have := C85_held_partial hb h0 h hm hx hg ho hw
  rw [hv] at this
  exact this.written hc g0 g1 g2 g3 o1 o2 fun e he hce => h.no_crash (hce ▸ he)

/-- **C85** With written tracking, a write acknowledged before the tool was started is in a stripe that the tool records: the metadata it
loads mark the stripe written. Later writes and restarts of the backend may have come in between. -/
theorem C85_acknowledged_recorded {e0 e1 e2 : List (Ev D)} {q w off cnt x : Nat} {data : Nat → D} {o : List (Option D)}
    (ht : c.track = true) (hb : Bootable c hdrs mv) (h0 : Run c (Sys.boot c hdrs tv mv b0) ls0 s0) (h : Beside c s0 ls s t)
    (hv : visible ls0 = (e0 ++ Ev.issue q w (.write off cnt data) :: e1 ++ [Ev.resp q w true o]) ++ e2)
    (hc : covers off cnt x) (o1 : unanswered (q, w) e1) (hm : t.md = some md) : Restore.archived md (x / c.ss) = true := by
  obtain ⟨hw, hn⟩ := acked_marked ht hb h0 hv o1 hc
  obtain ⟨mv', hi⟩ := inv hb h0 h
  rw [← recorded_eq, recorded, ((hi.md md hm).2 _ hn).written hw, Bool.true_or]

/-- **C85** A sector that is never written is recorded with its original content. -/
theorem C85_unwritten_partial {x : Nat} {v : D} (hb : Bootable c hdrs mv) (h0 : Run c (Sys.boot c hdrs tv mv b0) ls0 s0)
    (h : Beside c s0 ls s t) (g0 : quiet (visible ls0) x) (g1 : quiet (visible ls) x)
    (hm : t.md = some md) (hx : x < c.tsec) (hg : c.good x = true) (ho : t.out x = some v)
    (hw : Restore.writtenUnfetched (md.headers.getD (x / c.ss) 0) = false) : v = preload c hdrs tv x := by
  obtain ⟨g, hv⟩ := (C85_held_partial hb h0 h hm hx hg ho hw).unwritten g0 g1
  rw [hv]
  exact preloadWith_good hb g hg

/-! ### The volume restored from such an archive -/

/-- **C85**, end to end for equal stripe sizes: a volume initialised from the archive presents, in each recorded stripe, what the
archived volume held in that sector at some moment while the tool ran, and its own disk elsewhere. Missing: as for `C85_held_partial`, and other
stripe sizes (`C62_false_other_stripe_size`). -/
theorem C85_restored_partial {c c' : Cfg Bytes} {tv mv nmv ntv : Nat → Bytes} {b0 : Nat → Nat → Bytes} {s0 s : Sys Bytes}
    {ls0 ls : List (Lab Bytes)} {t : Tool Bytes} {a : Archive.Cfg} {st0 : Archive.Name → Option Bytes} {als : List Archive.Lab}
    {ast : Archive.St} {src : Archive.Src} {shift : UInt8}
    (hb : Bootable c hdrs mv) (h0 : Run c (Sys.boot c hdrs tv mv b0) ls0 s0) (h : Beside c s0 ls s t) (hm : t.md = some md)
    (hd : Delivered c t a als) (hf : Restore.Finished a st0 als ast src) (hr : Restore.Restored a.P src ast.store shift c' nmv)
    (hss : c'.ss = c.ss) {x : Nat} (hx : x < c.tsec) (hg : c.good x = true) (hn : x / c.ss < c.n) (hn' : x / c.ss < c'.n)
    (hw : Restore.writtenUnfetched (md.headers.getD (x / c.ss) 0) = false) :
    (Restore.archived md (x / c.ss) = true → Held (fun g => preloadWith c g hdrs tv) (visible ls0) (visible ls) x
      (preload c' (Meta.newFromSource shift c'.n src.hasStripe).headers ntv x)) ∧
    (Restore.archived md (x / c.ss) = false → preload c' (Meta.newFromSource shift c'.n src.hasStripe).headers ntv x = ntv x) := by
  have hk : x / c.ss < a.count := by rw [hd.count]; exact Remote.divCeil_le hb.ss hx
  obtain ⟨md', hm', hh⟩ := hd.headers
  rw [hm, Option.some.injEq] at hm'
  subst hm'
  obtain ⟨src', o1, -, o2⟩ := Archive.C22_restore hf.ok hf.run hf.done hf.len hf.noCollision
  obtain ⟨b, hb'⟩ : ∃ b, Archive.shouldArchive a (x / c.ss) = .ok b := by
    rcases o2 _ hk with ⟨h, -⟩ | ⟨h, -⟩ <;> exact ⟨_, h⟩
  have hbe := Restore.should_iff hb'
  rw [hh] at hbe
  obtain ⟨r1, r2⟩ := Restore.C62_restored_sector (ntv := ntv) hf hr x (by rw [hss]; exact hn')
  have hbe : b = Restore.archived md (x / c.ss) := hbe
  refine ⟨fun ha => ?_, fun ha => ?_⟩
  · rw [ha] at hbe
    subst hbe
    obtain ⟨buf, e1, -, -, e4⟩ := r1 (by rw [hss]; exact hk) (by rw [hss]; exact hb') (by rw [hss, hd.ssc])
    rw [e4, hss, hd.ssc, if_pos (Nat.mod_lt _ hb.ss)]
    rw [hss] at e1
    have hxe : x / c.ss * c.ss + x % c.ss = x := by rw [Nat.mul_comm]; exact Nat.div_add_mod x c.ss
    have hsrc : Restore.fromDisk (md.headers.getD (x / c.ss) 0) = true ∨ (c.src x).isSome = true := by
      cases hfd : Restore.fromDisk (md.headers.getD (x / c.ss) 0) with
      | true => exact .inl rfl
      | false =>
        right
        simp only [Restore.fromDisk, Bool.or_eq_false_iff] at hfd
        rw [← recorded_eq] at ha
        simp only [recorded, hfd.1, Bool.false_or] at ha
        obtain ⟨mv', hi⟩ := inv hb h0 h
        rw [((hi.md md hm).2 _ hn).src] at ha
        unfold Cfg.good at hg
        rw [ha] at hg
        simpa using hg
    have ho := hd.delivered _ _ e1 (x % c.ss) (Nat.mod_lt _ hb.ss) md hm (by rw [hxe]; exact hx) (by rw [hxe]; exact hsrc)
    rw [hxe] at ho
    exact C85_held_partial hb h0 h hm hx hg ho hw
  · rw [ha] at hbe
    subst hbe
    exact r2 (.inr (by rw [hss, hb']; simp))

/-! ### Concrete runs of the tool -/

/-- The volume made the steps the guest saw as `es`, and the tool is at `t`. -/
def Along (c : Cfg D) (s0 : Sys D) (es : List (Ev D)) (s : Sys D) (t : Tool D) : Prop := ∃ ls, Beside c s0 ls s t ∧ visible ls = es

theorem Along.start : Along c s0 [] s0 Tool.new := ⟨[], .start, rfl⟩

theorem Along.step {es : List (Ev D)} {s' : Sys D} {a : Act D} {l : List (Lab D)} (h : Along c s0 es s t) (hs : Lazy.Step c s a l s') :
    Along c s0 (es ++ visible l) s' t := by
  obtain ⟨ls, h1, rfl⟩ := h
  exact ⟨_, h1.volume hs, visible_append _ _⟩

theorem Along.quiet {es : List (Ev D)} {s' : Sys D} {a : Act D} (h : Along c s0 es s t) (hs : Lazy.Step c s a [] s') :
    Along c s0 es s' t := by
  have := h.step hs
  simpa [visible] using this

theorem Along.tool {es : List (Ev D)} {t' : Tool D} (h : Along c s0 es s t) (hs : Tool.Step c s t t') : Along c s0 es s t' := by
  obtain ⟨ls, h1, h2⟩ := h
  exact ⟨_, h1.tool hs, h2⟩

/-- The tool can load the metadata, all at one moment. -/
theorem Along.load {es : List (Ev D)} (hb : Bootable c hdrs mv) (h0 : Run c (Sys.boot c hdrs tv mv b0) ls0 s0) (h : Along c s0 es s t) (hm : t.md = none) :
    ∃ md t', Along c s0 es s t' ∧ t'.md = some md ∧ t'.out = t.out ∧ fromBytes (devBytes c.msec s.m.vol) = .ok md ∧
      ∀ x, x < c.msec → t'.sectors x = some (s.m.vol x) := by
  have hall : ∀ n, n ≤ c.msec → ∃ t', Along c s0 es s t' ∧ t'.md = none ∧ t'.out = t.out ∧ ∀ x, x < n → t'.sectors x = some (s.m.vol x) := by
    intro n
    induction n with
    | zero => exact fun _ => ⟨t, h, hm, rfl, by intro x hx; cases hx⟩
    | succ n ih =>
      intro hn
      obtain ⟨t', a1, a2, a3, a4⟩ := ih (by omega)
      refine ⟨_, a1.tool (.sector _ n (by omega) a2), a2, a3, fun x hx => ?_⟩
      simp only [upd]
      split
      · rename_i he; rw [he]
      · exact a4 x (by omega)
  obtain ⟨t', a1, a2, a3, a4⟩ := hall c.msec (Nat.le_refl _)
  obtain ⟨ls, hB, hv⟩ := a1
  obtain ⟨md, hl, -⟩ := C85_loads hb h0 hB a4
  exact ⟨md, _, ⟨ls, hB.tool (.load _ _ md a2 a4 hl), hv⟩, rfl, a3, hl, a4⟩

/-- The tool can read the first `n` sectors that it reads from the disk, all at one moment. -/
theorem Along.disk {es : List (Ev D)} (h : Along c s0 es s t) (hm : t.md = some md) :
    ∃ t', Along c s0 es s t' ∧ t'.md = some md ∧ t'.sectors = t.sectors ∧
      ∀ x, x < c.tsec → recorded (md.headers.getD (x / c.ss) 0) = true → Restore.fromDisk (md.headers.getD (x / c.ss) 0) = true →
        t'.out x = some (s.t.vol x) := by
  have hall : ∀ n, n ≤ c.tsec → ∃ t', Along c s0 es s t' ∧ t'.md = some md ∧ t'.sectors = t.sectors ∧
      ∀ x, x < n → recorded (md.headers.getD (x / c.ss) 0) = true → Restore.fromDisk (md.headers.getD (x / c.ss) 0) = true →
        t'.out x = some (s.t.vol x) := by
    intro n
    induction n with
    | zero => exact fun _ => ⟨t, h, hm, rfl, by intro x hx; cases hx⟩
    | succ n ih =>
      intro hn
      obtain ⟨t', a1, a2, a4, a3⟩ := ih (by omega)
      by_cases hr : recorded (md.headers.getD (n / c.ss) 0) = true ∧ Restore.fromDisk (md.headers.getD (n / c.ss) 0) = true
      · refine ⟨_, a1.tool (.disk _ md n a2 (by omega) hr.1 hr.2), a2, a4, fun x hx h1 h2 => ?_⟩
        simp only [upd]
        split
        · rename_i he; rw [he]
        · exact a3 x (by omega) h1 h2
      · refine ⟨t', a1, a2, a4, fun x hx h1 h2 => ?_⟩
        by_cases he : x = n
        · subst he; exact absurd ⟨h1, h2⟩ hr
        · exact a3 x (by omega) h1 h2
  exact hall c.tsec (Nat.le_refl _)

end Verif.LiveArchive
