import Verif.Model.Restore
import Verif.Proof.ArchiveRun
import Verif.Props.ArchiveRead
import Verif.Props.Migration

/-! # C62: restoring an archive -/

set_option maxRecDepth 8000

namespace Verif.Restore
open Verif Verif.Metadata Verif.Archive Verif.Disk

variable {a : Archive.Cfg} {st0 : Name → Option Bytes} {als : List Archive.Lab} {ast : Archive.St} {src : Src}
variable {shift : UInt8} {c c' : Lazy.Cfg Bytes} {mv tv nmv ntv : Nat → Bytes} {md : Meta}

/-- A finished archive, opened. -/
structure Finished (a : Archive.Cfg) (st0 : Name → Option Bytes) (als : List Archive.Lab) (ast : Archive.St) (src : Src) : Prop where
  ok : a.Ok
  run : Archive.Run a (St.init a st0) als ast
  done : ast.phase = .done
  len : (a.P.encMap (entries a.count ast.hashes)).length < 2 ^ 64
  noCollision : NoCollision a ast
  opened : openArchive a.P a.kek ast.store = .ok src

/-- The header of stripe `k` says it is archived. -/
def archived (md : Meta) (k : Nat) : Bool :=
  (Remote.flagsOf (md.headers.getD k 0)).written || (Remote.flagsOf (md.headers.getD k 0)).hasSource

theorem should_iff {id : Nat} {b : Bool} (h : shouldArchive a id = .ok b) :
    b = ((Remote.flagsOf (a.headers.getD id 0)).written || (Remote.flagsOf (a.headers.getD id 0)).hasSource) := by
  unfold shouldArchive at h
  cases hh : a.headers[id]? with
  | none => rw [hh] at h; simp at h
  | some x =>
    rw [hh] at h
    simp only [Except.ok.injEq] at h
    rw [List.getD_eq_getElem?_getD, hh, Option.getD_some, ← Remote.has_written, ← Remote.has_source, ← h]
    rfl

/-- The stripes an opened archive has are those the archiver recorded. -/
theorem stripes_of (hf : Finished a st0 als ast src) (id : Nat) :
    src.hasStripe id = true ↔ id < a.count ∧ shouldArchive a id = .ok true := by
  have hi := run_inv hf.run
  have hcomp := hi.complete (.inr (.inr (.inl hf.done)))
  have ho := open_done hf.ok hi hf.done hf.len
  rw [hf.opened, Except.ok.injEq] at ho
  subst ho
  unfold Src.hasStripe
  simp only
  rw [tableOf_entries]
  by_cases hid : id < a.count
  · rw [if_pos hid]
    obtain ⟨ha, hb⟩ := hcomp.all id hid
    constructor
    · intro h
      refine ⟨hid, ?_⟩
      obtain ⟨v, hv⟩ := Option.isSome_iff_exists.1 h
      exact (hcomp.used id (by simp [hv])).2
    · intro h
      exact Option.isSome_iff_ne_none.2 (hb h.2)
  · simp [hid]

theorem ssc_of (hf : Finished a st0 als ast src) : src.ssc = a.ssc := by
  have ho := open_done hf.ok (run_inv hf.run) hf.done hf.len
  rw [hf.opened, Except.ok.injEq] at ho
  subst ho; rfl

theorem newFromSource_flags (shift : UInt8) (n : Nat) (has : Nat → Bool) (k : Nat) (hk : k < n) :
    Remote.flagsOf ((Meta.newFromSource shift n has).headers.getD k 0) = ⟨false, false, has k⟩ := by
  have : (Meta.newFromSource shift n has).headers.getD k 0 = if has k then HAS_SOURCE else 0 := by
    simp only [Meta.newFromSource, List.getD_eq_getElem?_getD, List.getElem?_map, List.getElem?_range hk]; rfl
  rw [this]
  cases has k <;> rfl

/-- What a new volume presents, by whether its stripe is in the source. -/
theorem preload_new (n : Nat) (hc : c'.n = n) {has : Nat → Bool} {x : Nat} (hk : x / c'.ss < c'.n) :
    Lazy.preload c' (Meta.newFromSource shift n has).headers ntv x =
      if has (x / c'.ss) then (c'.src x).getD (ntv x) else ntv x := by
  subst hc
  unfold Lazy.preload Lazy.preloadWith
  simp only
  rw [Remote.flag_has, Remote.flag_has, Remote.has_source, Remote.has_fetched, newFromSource_flags _ _ _ _ hk]
  simp

/-- **C62**, any stripe size. A volume initialised from a finished archive presents in its sector `x`, the `i`-th of
its stripe `k`: if the archiver recorded its stripe `k` and stripes are not smaller than the archive's, the `i`-th sector of what
was fetched for stripe `k`, zeros past the archive's stripe size; if not recorded, the new disk's own content. -/
theorem C62_restored_sector (hf : Finished a st0 als ast src) (hr : Restored a.P src ast.store shift c' nmv) (x : Nat)
    (hn : x / c'.ss < c'.n) :
    (x / c'.ss < a.count → shouldArchive a (x / c'.ss) = .ok true → a.ssc ≤ c'.ss → ∃ buf,
      Lab.fetched (x / c'.ss) true buf ∈ als ∧ buf.length = a.ssc * 512 ∧
      c'.src x = some (if x % c'.ss < a.ssc then slice buf (x % c'.ss * 512) 512 else zeros 512) ∧
      Lazy.preload c' (Meta.newFromSource shift c'.n src.hasStripe).headers ntv x =
        if x % c'.ss < a.ssc then slice buf (x % c'.ss * 512) 512 else zeros 512) ∧
    ((a.count ≤ x / c'.ss ∨ shouldArchive a (x / c'.ss) ≠ .ok true) →
      Lazy.preload c' (Meta.newFromSource shift c'.n src.hasStripe).headers ntv x = ntv x) := by
  refine ⟨fun h1 h2 h3 => ?_, fun h => ?_⟩
  · obtain ⟨src', o1, -, o2⟩ := C22_restore hf.ok hf.run hf.done hf.len hf.noCollision
    rw [hf.opened, Except.ok.injEq] at o1
    subst o1
    have hhas := (stripes_of hf (x / c'.ss)).2 ⟨h1, h2⟩
    rcases o2 _ h1 with ⟨-, buf, b1, b2, b3⟩ | ⟨b, -⟩
    · have hsrc : c'.src x = some (if x % c'.ss < a.ssc then slice buf (x % c'.ss * 512) 512 else zeros 512) := by
        rw [hr.source]
        unfold archiveSrc
        rw [b3 (c'.ss * 512) (Nat.mul_le_mul_right _ h3)]
        simp only [Option.some.injEq]
        have hlt : x % c'.ss < c'.ss := Nat.mod_lt _ hr.boot.ss
        generalize x % c'.ss = i at hlt
        unfold slice
        split
        · rw [List.drop_append_of_le_length (by omega), List.take_append_of_le_length (by rw [List.length_drop]; omega)]
        · rw [List.drop_append, List.drop_eq_nil_of_le (by omega), List.nil_append, ← slice, slice_zeros _ _ _ (by omega)]
      refine ⟨buf, b1, b2, hsrc, ?_⟩
      rw [preload_new _ rfl hn, if_pos hhas, hsrc]
      rfl
    · rw [h2] at b; simp at b
  · have hno : src.hasStripe (x / c'.ss) = false := by
      rw [Bool.eq_false_iff]
      intro hh
      obtain ⟨g1, g2⟩ := (stripes_of hf _).1 hh
      rcases h with h | h
      · omega
      · exact h g2
    rw [preload_new _ rfl hn, if_neg (by rw [hno]; simp)]

/-- Stripes whose header is WRITTEN and HAS_SOURCE without FETCHED: a write has been announced before the stripe was
copied. -/
def writtenUnfetched (h : UInt8) : Bool :=
  (Remote.flagsOf h).written && (Remote.flagsOf h).hasSource && !(Remote.flagsOf h).fetched

/-- What the archiver stored for a sector of the disk: the sector the volume presents, or for a written stripe still to be
fetched, the local one. -/
theorem C62_archived_sector (ht : Taken c tv md a als) (hss : 0 < c.ss) {x : Nat} (hx : x < c.tsec) (hg : c.good x = true)
    (hhs : ∀ k, c.hs k = Lazy.flag (md.headers.getD k 0) HAS_SOURCE)
    (hs : archived md (x / c.ss) = true) {buf : Bytes} (hb : Lab.fetched (x / c.ss) true buf ∈ als) :
    slice buf (x % c.ss * 512) 512 =
      if writtenUnfetched (md.headers.getD (x / c.ss) 0) then tv x else Lazy.preload c md.headers tv x := by
  have hd := ht.delivered _ _ hb (x % c.ss) (Nat.mod_lt _ hss)
  rw [show x / c.ss * c.ss + x % c.ss = x by have := Nat.div_add_mod x c.ss; rw [Nat.mul_comm] at this; exact this] at hd
  apply hd
  have hg' : (Remote.flagsOf (md.headers.getD (x / c.ss) 0)).hasSource = true → ∃ v, c.src x = some v := by
    intro h
    unfold Lazy.Cfg.good at hg
    rw [hhs, Remote.flag_has, Remote.has_source, h] at hg
    exact Option.isSome_iff_exists.1 (by simpa using hg)
  unfold fetchedSector fromDisk Lazy.preload Lazy.preloadWith writtenUnfetched
  unfold archived at hs
  simp only [Remote.flag_has, Remote.has_source, Remote.has_fetched, Remote.has_written]
  generalize Remote.flagsOf (md.headers.getD (x / c.ss) 0) = f at hs hg' ⊢
  obtain ⟨f1, f2, f3⟩ := f
  cases f1 <;> cases f2 <;> cases f3 <;> simp_all
  · obtain ⟨v, hv⟩ := hg'; simp [hv]

/-- **C62**, the content of the new volume compared with the old one's at rest, for equal stripe sizes. Sectors of stripes recorded
in the archive read the same; the others were not recorded. -/
theorem C62_contents_partial (hf : Finished a st0 als ast src) (ht : Taken c tv md a als) (hb : Lazy.Bootable c md.headers mv)
    (hr : Restored a.P src ast.store shift c' nmv) (hss : c'.ss = c.ss) {x : Nat} (hx : x < c.tsec) (hg : c.good x = true)
    (hn : x / c.ss < c'.n) (hw : writtenUnfetched (md.headers.getD (x / c.ss) 0) = false) :
    (archived md (x / c.ss) = true ∧
      Lazy.preload c' (Meta.newFromSource shift c'.n src.hasStripe).headers ntv x = Lazy.preload c md.headers tv x ∧ c'.good x = true) ∨
    (archived md (x / c.ss) = false ∧
      Lazy.preload c' (Meta.newFromSource shift c'.n src.hasStripe).headers ntv x = ntv x ∧ c'.good x = true) := by
  have hk : x / c.ss < a.count := by rw [ht.count]; exact Remote.divCeil_le hb.ss hx
  obtain ⟨src', o1, -, o2⟩ := C22_restore hf.ok hf.run hf.done hf.len hf.noCollision
  have hsa : ∃ b, shouldArchive a (x / c.ss) = .ok b := by
    rcases o2 _ hk with ⟨h, -⟩ | ⟨h, -⟩ <;> exact ⟨_, h⟩
  obtain ⟨b, hb'⟩ := hsa
  have hbe := should_iff hb'
  rw [ht.headers] at hbe
  obtain ⟨r1, r2⟩ := C62_restored_sector (ntv := ntv) hf hr x (by rw [hss]; exact hn)
  have hgood : (src.hasStripe (x / c'.ss) = true → (c'.src x).isSome = true) → c'.good x = true := by
    intro h
    unfold Lazy.Cfg.good
    rw [hr.boot.hs, Remote.flag_has, Remote.has_source, newFromSource_flags _ _ _ _ (by rw [hss]; exact hn)]
    cases hh : src.hasStripe (x / c'.ss) with
    | false => rfl
    | true => simpa using h hh
  cases b with
  | true =>
    left
    obtain ⟨buf, e1, -, e3, e4⟩ := r1 (by rw [hss]; exact hk) (by rw [hss]; exact hb') (by rw [hss, ht.ssc])
    refine ⟨hbe.symm, ?_, hgood fun _ => by rw [e3]; rfl⟩
    rw [e4, hss, ht.ssc, if_pos (Nat.mod_lt _ hb.ss)]
    rw [hss] at e1
    rw [C62_archived_sector ht hb.ss hx hg hb.hs hbe.symm e1, hw]
    rfl
  | false =>
    right
    refine ⟨hbe.symm, r2 (.inr (by rw [hss, hb']; simp)), hgood fun hh => ?_⟩
    rw [stripes_of hf, hss, hb'] at hh
    simp at hh

/-- **C62**, end to end, for equal stripe sizes and written tracking. A volume `c` runs, with any requests and power
losses, and stops (`tv'`, `mv'` are what its devices hold); it is archived; a new volume `c'` is initialised from the
archive. Then there is a content `v` that a plain disk could hold after what the old guest saw such that the new volume behaves like a
plain disk holding `v` on every recorded stripe; a stripe not recorded was never written and had no source: its content was the old disk's
initial one, and the new volume presents the new disk's initial one. Missing from the property: other stripe sizes, volumes without written
tracking and stripes written while still to be fetched, for all of which it is false (below). -/
theorem C62_end_to_end_partial {hdrs : Bytes} {tv' mv' : Nat → Bytes} {b0 : Nat → Nat → Bytes} {st : Lazy.Sys Bytes}
    {ls : List (Lazy.Lab Bytes)} (hb : Lazy.Bootable c hdrs mv) (hrun : Lazy.Run c (Lazy.Sys.boot c hdrs tv mv b0) ls st)
    (htr : c.track = true)
    (h1 : st.t.survives tv') (h2 : st.m.survives mv') (hload : fromBytes (Lazy.devBytes c.msec mv') = .ok md)
    (ht : Taken c tv' md a als) (hf : Finished a st0 als ast src) (hr : Restored a.P src ast.store shift c' nmv) (hss : c'.ss = c.ss) :
    ∃ g d v, Disk.Run (Dev.fresh (Lazy.preloadWith c g hdrs tv)) (Lazy.visible ls) d ∧ d.survives v ∧
      ∀ x, x < c.tsec → c.good x = true → x / c.ss < c'.n → writtenUnfetched (md.headers.getD (x / c.ss) 0) = false →
        c'.good x = true ∧
        ((archived md (x / c.ss) = true ∧
          Lazy.preload c' (Meta.newFromSource shift c'.n src.hasStripe).headers ntv x = v x) ∨
        (archived md (x / c.ss) = false ∧ v x = Lazy.preload c hdrs tv x ∧
          Lazy.preload c' (Meta.newFromSource shift c'.n src.hasStripe).headers ntv x = ntv x)) := by
  obtain ⟨⟨⟨_, _, hb', hmeta⟩, -⟩, hfam⟩ := Lazy.run_sim hb rfl hrun
  obtain ⟨gg, d, hpin, hd, hsim⟩ := hfam.sim
  obtain ⟨md', e1, e2, -⟩ := Lazy.reload hb' hmeta h2
  rw [hload, Except.ok.injEq] at e1
  subst e1
  obtain ⟨v, h3, h4⟩ := Lazy.crash_preload hb' hmeta hsim (fun x hx hs _ hl => hpin x hx hs trivial hl) h1 h2 hload
  have h4 : ∀ x, x < c.tsec → c.good x = true → v x = Lazy.preload c md.headers tv' x := fun x hx hg => by
    rw [← Lazy.preloadWith_good e2 gg hg]; exact h4 x hx
  refine ⟨gg, d, v, hd, h3, fun x hx hg hn hw => ?_⟩
  rcases C62_contents_partial (ntv := ntv) hf ht e2 hr hss hx hg hn hw with ⟨g1, g2, g3⟩ | ⟨g1, g2, g3⟩
  · exact ⟨g3, .inl ⟨g1, by rw [g2, ← h4 x hx hg]⟩⟩
  · refine ⟨g3, .inr ⟨g1, ?_, g2⟩⟩
    rw [h4 x hx hg]
    refine (Lazy.C08_unwritten_is_original htr hb hrun h1 h2 hload hx hg ?_).1
    rw [Remote.flag_has, Remote.has_written]
    simp only [archived, Bool.or_eq_false_iff] at g1
    exact g1.1

/-- **C62**, what a guest of the new volume reads, in any run, with any power losses, whether the stripe has been fetched
yet or not: what the archived volume presented, as long as the guest has not written the sector itself. -/
theorem C62_guest_reads_partial (hf : Finished a st0 als ast src) (ht : Taken c tv md a als) (hb : Lazy.Bootable c md.headers mv)
    (hr : Restored a.P src ast.store shift c' nmv) (hss : c'.ss = c.ss)
    {b0 : Nat → Nat → Bytes} {st : Lazy.Sys Bytes} {ls : List (Lazy.Lab Bytes)}
    (hrun : Lazy.Run c' (Lazy.Sys.boot c' (Meta.newFromSource shift c'.n src.hasStripe).headers ntv nmv b0) ls st)
    {pre post : List (Ev Bytes)} {q id off cnt x : Nat} {out : List (Option Bytes)}
    (hv : Lazy.visible ls = pre ++ Ev.issue q id (.read off cnt) :: post ++ [Ev.resp q id true out])
    (hc : covers off cnt x) (hq : quiet pre x) (hq' : quiet post x) (ho : unanswered (q, id) post)
    (hx : x < c.tsec) (hg : c.good x = true) (hn : x / c.ss < c'.n) (hw : writtenUnfetched (md.headers.getD (x / c.ss) 0) = false) :
    out[x - off]? = some (some (if archived md (x / c.ss) then Lazy.preload c md.headers tv x else ntv x)) := by
  rcases C62_contents_partial (ntv := ntv) hf ht hb hr hss hx hg hn hw with ⟨g1, g2, g3⟩ | ⟨g1, g2, g3⟩
  · rw [Lazy.C05_read_unwritten hr.boot hrun hv hc g3 hq hq' ho, g1, g2]; rfl
  · rw [Lazy.C05_read_unwritten hr.boot hrun hv hc g3 hq hq' ho, g1, g2]; rfl

end Verif.Restore
