import Verif.Proof.RestoreDemo

/-! # C62: where a restored volume differs, and concrete cases -/

set_option maxRecDepth 8000

namespace Verif.Restore
open Verif Verif.Metadata Verif.Archive Verif.Disk Verif.Crypt

/-- A sector that is not zeros. -/
def seven : Bytes := 7 :: zeros 511

theorem seven_ne : seven ≠ zeros 512 := by
  unfold seven
  intro h
  have := congrArg (fun l : Bytes => l.getD 0 0) h
  simp [zeros] at this

theorem seven_length : seven.length = 512 := by simp [seven]

/-- A stripe of `ss` sectors, the first `v` and the others zeros. -/
def stripeOf (ss : Nat) (v : Bytes) : Bytes := v ++ zeros ((ss - 1) * 512)

theorem stripeOf_length {ss : Nat} {v : Bytes} (hv : v.length = 512) (hs : 0 < ss) : (stripeOf ss v).length = ss * 512 := by
  simp only [stripeOf, List.length_append, hv, zeros_length]; omega

theorem stripeOf_slice {ss : Nat} {v : Bytes} (hv : v.length = 512) {i : Nat} (hi : i < ss) :
    slice (stripeOf ss v) (i * 512) 512 = if i = 0 then v else zeros 512 := by
  unfold stripeOf
  split
  · rename_i h
    subst h
    unfold slice
    rw [Nat.zero_mul, List.drop_zero, ← hv, List.take_left]
  · unfold slice
    rw [List.drop_append, List.drop_eq_nil_of_le (by omega), List.nil_append, ← slice, slice_zeros _ _ _ (by omega)]

/-! ## Other stripe sizes -/

/-- Two stripes of `2^s` sectors, both written; the first sector of the second holds `seven`, the others zeros. -/
def twoStripes (s : UInt8) : Lazy.Cfg Bytes :=
  { ss := 2 ^ s.toNat, n := 2, tsec := 2 * 2 ^ s.toNat, msec := 2, hs := fun _ => false, src := fun _ => none,
    srcHas := fun _ => false, srcStripes := 0, image := false, track := true, autofetch := false }

def twoMeta (s : UInt8) : Meta := { Meta.new s 2 0 with headers := [2, 2] }

def twoDisk (s : UInt8) : Nat → Bytes := fun x => if x = 2 ^ s.toNat then seven else zeros 512

theorem two_bootable {s : UInt8} (hs : s.toNat ≤ 17) : ∃ mv, Lazy.Bootable (twoStripes s) (twoMeta s).headers mv :=
  Remote.saved_bootable (c := twoStripes s) (m := twoMeta s) ⟨rfl, rfl, rfl, hs, by simp [twoMeta]⟩
    (by simp [metadataSize, headerSectorCount, twoMeta, divCeil, twoStripes]) (Nat.pow_pos (by decide)) rfl
    (by intro k; match k with
      | 0 => show false = Lazy.flag 2 HAS_SOURCE; decide
      | 1 => show false = Lazy.flag 2 HAS_SOURCE; decide
      | k + 2 => show false = Lazy.flag 0 HAS_SOURCE; decide) (Nat.zero_le _)

/-- **C62** is false for a new volume whose stripes have another size than the archive's, for every pair of sizes that
can be configured: initialisation accepts the archive, and the new volume presents a sector of the old one, written and
archived, as zeros (larger stripes) or as the new disk's own content (smaller stripes). -/
theorem C62_false_other_stripe_size (s s' : UInt8) (hs : s.toNat ≤ 17) (hs' : s'.toNat ≤ 17) (hne : s ≠ s') :
    ∃ (c c' : Lazy.Cfg Bytes) (tv mv nmv : Nat → Bytes) (md : Meta) (a : Archive.Cfg) (als : List Archive.Lab) (ast : Archive.St)
      (src : Src) (x : Nat), c.ss = 2 ^ s.toNat ∧ Lazy.Bootable c md.headers mv ∧ Taken c tv md a als ∧
      Finished a (fun _ => none) als ast src ∧ Restored a.P src ast.store s' c' nmv ∧
      x < c.tsec ∧ c.good x = true ∧ archived md (x / c.ss) = true ∧ x < c'.tsec ∧ x / c'.ss < c'.n ∧
      Lazy.preload c md.headers tv x ≠ zeros 512 ∧
      Lazy.preload c' (Meta.newFromSource s' c'.n src.hasStripe).headers (fun _ => zeros 512) x = zeros 512 := by
  obtain ⟨mv, hb⟩ := two_bootable hs
  have hp : 0 < 2 ^ s.toNat := Nat.pow_pos (by decide)
  have hp' : 0 < 2 ^ s'.toNat := Nat.pow_pos (by decide)
  have hlt : 2 ^ s.toNat ≤ 2 ^ 17 := Nat.pow_le_pow_right (by decide) hs
  let bufs : Nat → Bytes := fun k => if k = 1 then stripeOf (2 ^ s.toNat) seven else zeros (2 ^ s.toNat * 512)
  have hbl : ∀ id, (bufs id).length = 2 ^ s.toNat * 512 := by
    intro id
    show (if id = 1 then _ else _ : Bytes).length = _
    split
    · exact stripeOf_length seven_length hp
    · exact zeros_length _
  obtain ⟨als, ast, src, hf, hlab⟩ := demo_finished (count := 2) (ssc := 2 ^ s.toNat) (headers := [2, 2]) (b := stripeOf (2 ^ s.toNat) seven)
    (bufs := bufs) (by decide) (by decide) (by omega) hbl (fun id => by show (if id = 1 then _ else _) = _ ∨ (if id = 1 then _ else _) = _; split <;> simp)
  have hst := stripes_le hf
  have hsc := ssc_of hf
  have hst : src.stripes ≤ 2 := hst
  have hsc : src.ssc = 2 ^ s.toNat := hsc
  obtain ⟨nmv, hr⟩ := newVol_restored (P := (demoA 2 (2 ^ s.toNat) [2, 2]).P) (store := ast.store) (src := src) (shift := s') (n := 2 * 2 ^ s.toNat) hs'
    (by omega) (by
      rw [hsc]
      calc _ ≤ 2 * 2 ^ s.toNat := Nat.mul_le_mul_right _ hst
        _ ≤ _ := Nat.le_mul_of_pos_right _ hp')
  have ht : Taken (twoStripes s) (twoDisk s) (twoMeta s) (demoA 2 (2 ^ s.toNat) [2, 2]) als := by
    refine ⟨rfl, rfl, ?_, ?_⟩
    · show 2 = divCeil (2 * 2 ^ s.toNat) (2 ^ s.toNat)
      unfold divCeil
      rw [show 2 * 2 ^ s.toNat + 2 ^ s.toNat - 1 = (2 ^ s.toNat - 1) + 2 * 2 ^ s.toNat by omega, Nat.add_mul_div_right _ _ hp,
        Nat.div_eq_of_lt (by omega)]
    · intro k buf hk i hi v hv
      rw [hlab _ _ _ hk]
      have hi : i < 2 ^ s.toNat := hi
      have hv : (if fromDisk ((twoMeta s).headers.getD k 0) then (if k * 2 ^ s.toNat + i < 2 * 2 ^ s.toNat then some (twoDisk s (k * 2 ^ s.toNat + i)) else none)
        else none) = some v := hv
      split at hv
      · split at hv
        · rename_i hlt
          simp only [Option.some.injEq] at hv
          subst hv
          have hk2 : k < 2 := by
            rcases Nat.lt_or_ge k 2 with h | h
            · exact h
            · have := Nat.mul_le_mul_right (2 ^ s.toNat) h; omega
          show slice (if k = 1 then _ else _) _ _ = if k * 2 ^ s.toNat + i = 2 ^ s.toNat then _ else _
          match k with
          | 0 => rw [if_neg (by decide), if_neg (by omega), slice_zeros _ _ _ (by omega)]
          | 1 =>
            rw [if_pos rfl, stripeOf_slice seven_length hi]
            by_cases h0 : i = 0
            · rw [if_pos h0, if_pos (by omega)]
            · rw [if_neg h0, if_neg (by omega)]
        · simp at hv
      · simp at hv
  have hpre : Lazy.preload (twoStripes s) (twoMeta s).headers (twoDisk s) (2 ^ s.toNat) = seven := by
    have hd : 2 ^ s.toNat / 2 ^ s.toNat = 1 := Nat.div_self hp
    unfold Lazy.preload Lazy.preloadWith
    show (if Lazy.flag ((twoMeta s).headers.getD (2 ^ s.toNat / 2 ^ s.toNat) 0) _ && _ then _ else _) = _
    rw [hd]
    have : Lazy.flag ((twoMeta s).headers.getD 1 0) HAS_SOURCE = false := by show Lazy.flag 2 HAS_SOURCE = false; decide
    rw [this, Bool.false_and, if_neg (by simp)]
    exact if_pos rfl
  have hn : 2 ^ s.toNat / 2 ^ s'.toNat < 2 * 2 ^ s.toNat := Nat.lt_of_le_of_lt (Nat.div_le_self _ _) (by omega)
  refine ⟨twoStripes s, newVol _ src ast.store s' (2 * 2 ^ s.toNat), twoDisk s, mv, nmv, twoMeta s, _, als, ast, src, 2 ^ s.toNat,
    rfl, hb, ht, hf, hr, ?_, rfl, ?_, ?_, hn, by rw [hpre]; exact seven_ne, ?_⟩
  · show _ < 2 * _; omega
  · show archived (twoMeta s) (2 ^ s.toNat / 2 ^ s.toNat) = true
    rw [Nat.div_self hp]
    show ((Remote.flagsOf 2).written || (Remote.flagsOf 2).hasSource) = true
    decide
  · show _ < 2 * 2 ^ s.toNat * 2 ^ s'.toNat
    have := Nat.le_mul_of_pos_right (2 * 2 ^ s.toNat) hp'
    omega
  · obtain ⟨r1, r2⟩ := C62_restored_sector (ntv := fun _ => zeros 512) hf hr (2 ^ s.toNat) hn
    have hss : (newVol (demoA 2 (2 ^ s.toNat) [2, 2]).P src ast.store s' (2 * 2 ^ s.toNat)).ss = 2 ^ s'.toNat := rfl
    rw [hss] at r1 r2
    have hne' : s.toNat ≠ s'.toNat := fun h => hne (UInt8.toNat_inj.1 h)
    by_cases hgt : s.toNat < s'.toNat
    · have hpw : 2 ^ s.toNat < 2 ^ s'.toNat := Nat.pow_lt_pow_right (by decide) hgt
      rw [Nat.div_eq_of_lt hpw, Nat.mod_eq_of_lt hpw] at r1
      obtain ⟨buf, -, -, -, e⟩ := r1 (by show 0 < 2; omega) rfl (Nat.le_of_lt hpw)
      rw [e]
      exact if_neg (Nat.lt_irrefl _)
    · have hpw : 2 ^ (s'.toNat + 1) ≤ 2 ^ s.toNat := Nat.pow_le_pow_right (by decide) (by omega)
      have h2 : 2 ≤ 2 ^ s.toNat / 2 ^ s'.toNat := by
        rw [Nat.le_div_iff_mul_le hp', Nat.mul_comm, ← Nat.pow_succ]; exact hpw
      exact r2 (.inl h2)

/-! ## Stripes written while still to be fetched -/

/-- One stripe of 64 sectors with a source that holds `seven` everywhere; written tracking on. -/
def lateCfg : Lazy.Cfg Bytes :=
  { ss := 64, n := 1, tsec := 64, msec := 2, hs := fun k => decide (k < 1), src := fun x => if x < 64 then some seven else none,
    srcHas := fun k => decide (k < 1), srcStripes := 1, image := false, track := true, autofetch := false }

theorem late_bootable : ∃ mv, Lazy.Bootable lateCfg [4] mv := by
  obtain ⟨mv, h⟩ := Remote.saved_bootable (c := lateCfg) (m := Meta.new 6 1 1) ⟨rfl, rfl, rfl, by decide, by decide⟩ (by decide) (by decide)
    (by decide) (by
      intro k
      match k with
      | 0 => decide
      | k + 1 =>
        show decide (k + 1 < 1) = Lazy.flag 0 HAS_SOURCE
        rw [decide_eq_false (by omega)]; decide) (by decide)
  exact ⟨mv, h⟩

def lateWrite : Lazy.QReq Bytes := { id := 7, off := 0, cnt := 1, out := some fun _ => zeros 512 }

/-- A guest write arrives for the stripe; the mark "written" is on the metadata device before the copy has started. The
guest has not been answered. -/
theorem late_run (mv : Nat → Bytes) : ∃ s,
    Lazy.Reach lateCfg (Lazy.Sys.boot lateCfg [4] (fun _ => zeros 512) mv fun _ _ => zeros 512) [.issue 0 7 (.write 0 1 fun _ => zeros 512)] s ∧
    s.sh.fs 0 = .notFetched ∧ s.sh.ws 0 = true ∧ s.fe.states 0 = some .queued ∧ s.t = Dev.fresh fun _ => zeros 512 := by
  have r : Lazy.Reach lateCfg (Lazy.Sys.boot lateCfg [4] (fun _ => zeros 512) mv fun _ _ => zeros 512) [] _ := ⟨[], .nil _, rfl⟩
  have r := r.step (Lazy.Step.write _ 0 7 0 1 (fun _ => zeros 512) true ⟨by decide, by decide, by decide⟩
    ⟨rfl, rfl, (by intro r hr; cases hr), (by intro r hr; cases hr)⟩)
  have r := r.step (Lazy.Step.receiveFetch _ 0 [.setWritten 0] rfl)
  have r := r.step (Lazy.Step.receiveWritten _ 0 [] rfl)
  obtain ⟨s, r, h1, h2, h3, h4, h5, h6, h7⟩ : ∃ s, Lazy.Reach lateCfg (Lazy.Sys.boot lateCfg [4] (fun _ => zeros 512) mv fun _ _ => zeros 512)
      [.issue 0 7 (.write 0 1 fun _ => zeros 512)] s ∧ s.sh.fs 0 = .notFetched ∧ s.fl.hdrs = [4] ∧ s.fl.queue = [(0, WRITTEN)] ∧ s.fl.free = 16 ∧
      s.fl.busy 1 = false ∧ s.fe.states 0 = some .queued ∧ s.t = Dev.fresh (fun _ => zeros 512) :=
    ⟨_, r, rfl, rfl, rfl, rfl, rfl, rfl, rfl⟩
  obtain ⟨s1, r, g1, g2, g3, g4, g5, g6, g7, g8, g9⟩ := Lazy.demo_meta r h3 h4 h5 (by rw [h2]; decide) false true (by rw [h2]; decide) (by rw [h2]; decide)
  exact ⟨s1, r, by rw [g5]; exact h1, by rw [g6]; rfl, by rw [g9]; exact h6, by rw [g8]; exact h7⟩

/-- **C62** is false for a stripe that is marked written before it has been fetched, which a guest write to a stripe still in
the source brings about: the volume presents the source's contents, the archive holds the local ones. -/
theorem C62_false_written_unfetched :
    ∃ (c c' : Lazy.Cfg Bytes) (hdrs : Bytes) (tv mv tv' mv' nmv : Nat → Bytes) (b0 : Nat → Nat → Bytes) (ls : List (Lazy.Lab Bytes))
      (st : Lazy.Sys Bytes) (md : Meta) (a : Archive.Cfg) (als : List Archive.Lab) (ast : Archive.St) (src : Src),
      Lazy.Bootable c hdrs mv ∧ c.track = true ∧ Lazy.Run c (Lazy.Sys.boot c hdrs tv mv b0) ls st ∧
      Lazy.visible ls = [.issue 0 7 (.write 0 1 fun _ => zeros 512)] ∧ st.t.survives tv' ∧ st.m.survives mv' ∧
      fromBytes (Lazy.devBytes c.msec mv') = .ok md ∧ Taken c tv' md a als ∧ Finished a (fun _ => none) als ast src ∧
      Restored a.P src ast.store 6 c' nmv ∧ c'.ss = c.ss ∧ c.n = c'.n ∧
      ∀ x, x < c.tsec → c.good x = true ∧ Lazy.preload c md.headers tv' x = seven ∧
        ∀ ntv, Lazy.preload c' (Meta.newFromSource 6 c'.n src.hasStripe).headers ntv x = zeros 512 := by
  obtain ⟨mv, hb⟩ := late_bootable
  obtain ⟨s, ⟨ls, hr, hv⟩, h1, h2, h3, h4⟩ := late_run mv
  obtain ⟨⟨⟨hd, mv1, hb1, hm⟩, hf⟩, hfam⟩ := Lazy.run_sim hb rfl hr
  obtain ⟨gg, d, hpin, -, hsim⟩ := hfam.sim
  have hmv : s.m.survives s.m.vol := hm.dev.vol_pers
  obtain ⟨md, hld, hbt, hh⟩ := Lazy.reload hb1 hm hmv
  have htv : s.t.survives s.t.vol := hsim.tinv.vol_pers
  have hvol : s.t.vol = fun _ => zeros 512 := by rw [h4]; rfl
  have hk := hh 0 (by decide)
  have e1 : (Remote.flagsOf (md.headers.getD 0 0)).written = true := by rw [← Remote.has_written]; exact hk.written h2
  have e2 : (Remote.flagsOf (md.headers.getD 0 0)).hasSource = true := by rw [← Remote.has_source]; exact hk.src
  have e3 : (Remote.flagsOf (md.headers.getD 0 0)).fetched = false := by
    rw [← Remote.has_fetched, Bool.eq_false_iff]
    intro hx
    rcases hk.settled hx with h | h
    · simp [Lazy.Shared.isLocal, h1] at h
    · rw [h3] at h; simp at h
  have hlen : md.headers.length = 1 := hbt.len
  obtain ⟨als, ast, src, hfin, hlab⟩ := demo_finished (count := 1) (ssc := 64) (headers := md.headers) (b := zeros (64 * 512))
    (bufs := fun _ => zeros (64 * 512)) (by omega) (by decide) (by decide) (fun _ => zeros_length _) (fun _ => .inl rfl)
  have hst : src.stripes ≤ 1 := stripes_le hfin
  have hsc : src.ssc = 64 := ssc_of hfin
  obtain ⟨nmv, hrs⟩ := newVol_restored (P := (demoA 1 64 md.headers).P) (store := ast.store) (src := src) (shift := 6) (n := 1)
    (by decide) (by decide) (by rw [hsc]; show _ ≤ 1 * 64; omega)
  have ht : Taken lateCfg s.t.vol md (demoA 1 64 md.headers) als := by
    refine ⟨rfl, rfl, rfl, fun k buf hk' i hi v hv => ?_⟩
    rw [hlab _ _ _ hk']
    have hi : i < 64 := hi
    rw [slice_zeros _ _ _ (by omega)]
    have hcomp := (run_inv hfin.run).complete (.inr (.inr (.inl hfin.done)))
    unfold fetchedSector at hv
    split at hv
    · split at hv
      · rw [hvol] at hv; simpa using hv
      · simp at hv
    · rename_i hfd
      exfalso
      apply hfd
      by_cases hk0 : k = 0
      · subst hk0
        unfold fromDisk
        rw [Remote.flag_has, Remote.has_written, e1]; rfl
      · have hg := (got_iff hfin.run k buf).2 hk'
        have : md.headers.getD k 0 = 0 := by
          rw [List.getD_eq_getElem?_getD, List.getElem?_eq_none (by omega)]; rfl
        have hv : lateCfg.src (k * 64 + i) = some v := hv
        have : lateCfg.src (k * 64 + i) = none := if_neg (by omega)
        rw [this] at hv; simp at hv
  refine ⟨lateCfg, _, [4], fun _ => zeros 512, mv, s.t.vol, s.m.vol, nmv, fun _ _ => zeros 512, ls, s, md, _, als, ast, src, hb, rfl, hr, hv, htv, hmv, hld,
    ht, hfin, hrs, rfl, rfl, fun x hx => ?_⟩
  have hx : x < 64 := hx
  have hx0 : x / 64 = 0 := Nat.div_eq_of_lt hx
  have hg : lateCfg.good x = true := by
    unfold Lazy.Cfg.good lateCfg
    simp [hx]
  refine ⟨hg, ?_, fun ntv => ?_⟩
  · unfold Lazy.preload Lazy.preloadWith
    show (if Lazy.flag (md.headers.getD (x / 64) 0) _ && !Lazy.flag (md.headers.getD (x / 64) 0) _ then _ else _) = _
    rw [hx0, Remote.flag_has, Remote.flag_has, Remote.has_source, Remote.has_fetched, e2, e3]
    show ((if x < 64 then some seven else none).getD _) = _
    rw [if_pos hx]; rfl
  · have hn : x / 64 < 1 := by omega
    obtain ⟨r1, -⟩ := C62_restored_sector (ntv := ntv) hfin hrs x hn
    have hxs : x / (newVol (demoA 1 64 md.headers).P src ast.store 6 1).ss = 0 := hx0
    rw [hxs] at r1
    have hsa : shouldArchive (demoA 1 64 md.headers) 0 = .ok true := by
      have := (run_inv hfin.run).complete (.inr (.inr (.inl hfin.done)))
      rcases (this.all 0 (by show 0 < 1; omega)).1 with h | h
      · exact h
      · have := should_iff h
        rw [show (demoA 1 64 md.headers).headers = md.headers from rfl, e1] at this
        simp at this
    obtain ⟨buf, g1, g2, g3, g4⟩ := r1 (by show 0 < 1; omega) hsa (Nat.le_refl 64)
    rw [g4, hlab _ _ _ g1]
    have hxm : x % (newVol (demoA 1 64 md.headers).P src ast.store 6 1).ss = x := Nat.mod_eq_of_lt hx
    rw [hxm]
    split
    · exact slice_zeros _ _ _ (by omega)
    · rfl

/-! ## Volumes without written tracking -/

/-- One stripe of 64 sectors without a source, written tracking off (the default of `track_written`). -/
def plainCfg : Lazy.Cfg Bytes :=
  { ss := 64, n := 1, tsec := 64, msec := 2, hs := fun _ => false, src := fun _ => none, srcHas := fun _ => false, srcStripes := 0,
    image := false, track := false, autofetch := false }

theorem plain_bootable : ∃ mv, Lazy.Bootable plainCfg [0] mv := by
  obtain ⟨mv, h⟩ := Remote.saved_bootable (c := plainCfg) (m := Meta.new 6 1 0) ⟨rfl, rfl, rfl, by decide, by decide⟩ (by decide) (by decide)
    (by decide) (by
      intro k
      match k with
      | 0 => decide
      | k + 1 => show false = Lazy.flag 0 HAS_SOURCE; decide) (by decide)
  exact ⟨mv, h⟩

/-- The guest writes the first sector and flushes; both are acknowledged. -/
theorem plain_run (mv : Nat → Bytes) : ∃ s,
    Lazy.Reach plainCfg (Lazy.Sys.boot plainCfg [0] (fun _ => zeros 512) mv fun _ _ => zeros 512)
      [.issue 0 7 (.write 0 1 fun _ => seven), .resp 0 7 true [], .issue 0 8 .flush, .resp 0 8 true []] s ∧
    s.m = Dev.fresh mv ∧ s.t.vol = upd (fun _ => zeros 512) 0 seven := by
  have r : Lazy.Reach plainCfg (Lazy.Sys.boot plainCfg [0] (fun _ => zeros 512) mv fun _ _ => zeros 512) [] _ := ⟨[], .nil _, rfl⟩
  have st := Lazy.Step.write (c := plainCfg) (Lazy.Sys.boot plainCfg [0] (fun _ => zeros 512) mv fun _ _ => zeros 512) 0 7 0 1 (fun _ => seven) true
    ⟨by decide, by decide, by decide⟩ ⟨rfl, rfl, (by intro r hr; cases hr), (by intro r hr; cases hr)⟩
  have hadd : Lazy.addWrite plainCfg (Lazy.Sys.boot plainCfg [0] (fun _ => zeros 512) mv fun _ _ => zeros 512) 0 7 0 1 (fun _ => seven) true =
      (Lazy.toBase (Lazy.Sys.boot plainCfg [0] (fun _ => zeros 512) mv fun _ _ => zeros 512) 0 { id := 7, off := 0, cnt := 1, out := some fun _ => seven },
        [.toBase 0 { id := 7, off := 0, cnt := 1, out := some fun _ => seven }]) := rfl
  rw [hadd] at st
  have r := r.step st
  simp only [Lazy.toBase] at r
  have r := r.quiet (Lazy.Step.execDataW (o := .guest 0 7) (x := 0) rfl ⟨Nat.le_refl _, by decide⟩)
  have r := r.step (Lazy.Step.baseDone _ 0 7 true ⟨_, rfl, fun _ x hx => by
    have : x = 0 := by have : x < 0 + 1 := hx.2; omega
    subst this; rfl⟩)
  have r := r.step (Lazy.Step.flush _ 0 8 ⟨by simp [Lazy.Sys.setCh, Dev.complete, Dev.issueWrite, upd, Lazy.Sys.boot, Dev.fresh], rfl,
    (by intro r hr; cases hr), (by intro r hr; cases hr)⟩)
  have r := r.step (Lazy.Step.baseDone _ 0 8 true ⟨_, rfl, fun _ => trivial⟩)
  have e : ∀ l l' : List (Ev Bytes), l = l' → ∀ s0 s, Lazy.Reach plainCfg s0 l s → Lazy.Reach plainCfg s0 l' s := by
    intro l l' h s0 s; rw [h]; exact id
  refine ⟨_, e _ _ ?_ _ _ r, rfl, rfl⟩
  simp [Lazy.visible, Dev.result, Dev.issueFlush, Dev.issueWrite]

/-- **C62** is false for a volume without written tracking: data written to a stripe without a source, acknowledged and flushed, is not in
the archive, which finishes without an error; a volume initialised from it presents the new disk's own contents. -/
theorem C62_false_untracked :
    ∃ (c c' : Lazy.Cfg Bytes) (hdrs : Bytes) (tv mv tv' mv' nmv : Nat → Bytes) (b0 : Nat → Nat → Bytes) (ls : List (Lazy.Lab Bytes))
      (st : Lazy.Sys Bytes) (md : Meta) (a : Archive.Cfg) (als : List Archive.Lab) (ast : Archive.St) (src : Src),
      Lazy.Bootable c hdrs mv ∧ c.track = false ∧ Lazy.Run c (Lazy.Sys.boot c hdrs tv mv b0) ls st ∧
      Lazy.visible ls = [.issue 0 7 (.write 0 1 fun _ => seven), .resp 0 7 true [], .issue 0 8 .flush, .resp 0 8 true []] ∧
      st.t.survives tv' ∧ st.m.survives mv' ∧ fromBytes (Lazy.devBytes c.msec mv') = .ok md ∧ Taken c tv' md a als ∧
      Finished a (fun _ => none) als ast src ∧ Restored a.P src ast.store 6 c' nmv ∧ c'.ss = c.ss ∧ c.n = c'.n ∧ c.good 0 = true ∧
      Lazy.preload c md.headers tv' 0 = seven ∧
      ∀ ntv, Lazy.preload c' (Meta.newFromSource 6 c'.n src.hasStripe).headers ntv 0 = ntv 0 := by
  obtain ⟨mv, hb⟩ := plain_bootable
  obtain ⟨s, ⟨ls, hr, hv⟩, h1, h2⟩ := plain_run mv
  obtain ⟨⟨⟨hd, mv1, hb1, hm⟩, hf⟩, hfam⟩ := Lazy.run_sim hb rfl hr
  obtain ⟨gg, d, hpin, -, hsim⟩ := hfam.sim
  have hmv : s.m.survives mv := by rw [h1]; exact fun x => rfl
  have htv : s.t.survives s.t.vol := hsim.tinv.vol_pers
  obtain ⟨md, hld, hmd⟩ := hb.load
  obtain ⟨als, ast, src, hfin, hlab⟩ := demo_finished (count := 1) (ssc := 64) (headers := [0]) (b := zeros (64 * 512))
    (bufs := fun _ => zeros (64 * 512)) (by decide) (by decide) (by decide) (fun _ => zeros_length _) (fun _ => .inl rfl)
  have hst : src.stripes ≤ 1 := stripes_le hfin
  have hsc : src.ssc = 64 := ssc_of hfin
  obtain ⟨nmv, hrs⟩ := newVol_restored (P := (demoA 1 64 [0]).P) (store := ast.store) (src := src) (shift := 6) (n := 1)
    (by decide) (by decide) (by rw [hsc]; show _ ≤ 1 * 64; omega)
  have ht : Taken plainCfg s.t.vol md (demoA 1 64 [0]) als := by
    refine ⟨rfl, hmd.symm, rfl, fun k buf hk' i hi v hv => ?_⟩
    exfalso
    have hz : md.headers.getD k 0 = 0 := by
      rw [hmd]
      match k with
      | 0 => rfl
      | k + 1 => rfl
    rw [hz] at hv
    have : fromDisk 0 = false := by decide
    unfold fetchedSector at hv
    rw [this] at hv
    have hv : (none : Option Bytes) = some v := hv
    simp at hv
  refine ⟨plainCfg, _, [0], fun _ => zeros 512, mv, s.t.vol, mv, nmv, fun _ _ => zeros 512, ls, s, md, _, als, ast, src, hb, rfl, hr, hv, htv, hmv, hld,
    ht, hfin, hrs, rfl, rfl, rfl, ?_, fun ntv => ?_⟩
  · unfold Lazy.preload Lazy.preloadWith
    rw [hmd, h2]
    rfl
  · obtain ⟨-, r2⟩ := C62_restored_sector (ntv := ntv) hfin hrs 0 (by rw [Nat.zero_div]; show 0 < 1; omega)
    refine r2 (.inr ?_)
    rw [Nat.zero_div]
    have : shouldArchive (demoA 1 64 [0]) 0 = .ok false := rfl
    rw [this]; simp

/-! ## The hypotheses of the positive statements are met -/

/-- A volume of two written stripes of 64 sectors, archived and restored with the same stripe size: every sector is
covered by `C62_contents_partial`, and the new volume reads `seven` where the old one did. -/
example : ∃ (c' : Lazy.Cfg Bytes) (mv nmv : Nat → Bytes) (als : List Archive.Lab) (ast : Archive.St) (src : Src),
    Lazy.Bootable (twoStripes 6) (twoMeta 6).headers mv ∧ Taken (twoStripes 6) (twoDisk 6) (twoMeta 6) (demoA 2 64 [2, 2]) als ∧
    Finished (demoA 2 64 [2, 2]) (fun _ => none) als ast src ∧ Restored (demoA 2 64 [2, 2]).P src ast.store 6 c' nmv ∧
    c'.ss = (twoStripes 6).ss ∧ (∀ x, x < 128 → (twoStripes 6).good x = true ∧ x / 64 < c'.n ∧
      writtenUnfetched ((twoMeta 6).headers.getD (x / 64) 0) = false ∧ archived (twoMeta 6) (x / 64) = true) ∧
    ∀ ntv, Lazy.preload c' (Meta.newFromSource 6 c'.n src.hasStripe).headers ntv 64 = seven := by
  obtain ⟨mv, hb⟩ := two_bootable (s := 6) (by decide)
  let bufs : Nat → Bytes := fun k => if k = 1 then stripeOf 64 seven else zeros (64 * 512)
  obtain ⟨als, ast, src, hf, hlab⟩ := demo_finished (count := 2) (ssc := 64) (headers := [2, 2]) (b := stripeOf 64 seven)
    (bufs := bufs) (by decide) (by decide) (by decide) (fun id => by
      show (if id = 1 then _ else _ : Bytes).length = _
      split
      · exact stripeOf_length seven_length (by decide)
      · exact zeros_length _)
    (fun id => by show (if id = 1 then _ else _) = _ ∨ (if id = 1 then _ else _) = _; split <;> simp)
  have hst : src.stripes ≤ 2 := stripes_le hf
  have hsc : src.ssc = 64 := ssc_of hf
  obtain ⟨nmv, hr⟩ := newVol_restored (P := (demoA 2 64 [2, 2]).P) (store := ast.store) (src := src) (shift := 6) (n := 2)
    (by decide) (by decide) (by rw [hsc]; show _ ≤ 2 * 64; omega)
  have ht : Taken (twoStripes 6) (twoDisk 6) (twoMeta 6) (demoA 2 64 [2, 2]) als := by
    refine ⟨rfl, rfl, rfl, fun k buf hk i hi v hv => ?_⟩
    rw [hlab _ _ _ hk]
    have hi : i < 64 := hi
    have hv : (if fromDisk ((twoMeta 6).headers.getD k 0) then (if k * 64 + i < 128 then some (twoDisk 6 (k * 64 + i)) else none)
      else none) = some v := hv
    split at hv
    · split at hv
      · simp only [Option.some.injEq] at hv
        subst hv
        show slice (if k = 1 then _ else _) _ _ = if k * 64 + i = 64 then _ else _
        have hk2 : k = 0 ∨ k = 1 := by omega
        rcases hk2 with rfl | rfl
        · rw [if_neg (by decide), if_neg (by omega), slice_zeros _ _ _ (by omega)]
        · rw [if_pos rfl, stripeOf_slice seven_length hi]
          by_cases h0 : i = 0
          · rw [if_pos h0, if_pos (by omega)]
          · rw [if_neg h0, if_neg (by omega)]
      · simp at hv
    · simp at hv
  have hx : ∀ x, x < 128 → (twoStripes 6).good x = true ∧ x / 64 < 2 ∧
      writtenUnfetched ((twoMeta 6).headers.getD (x / 64) 0) = false ∧ archived (twoMeta 6) (x / 64) = true := by
    intro x hx
    refine ⟨rfl, by omega, ?_⟩
    have : x / 64 = 0 ∨ x / 64 = 1 := by omega
    rcases this with h | h <;> rw [h] <;> decide
  refine ⟨_, mv, nmv, als, ast, src, hb, ht, hf, hr, rfl, hx, fun ntv => ?_⟩
  obtain ⟨g1, g2, g3, g4⟩ := hx 64 (by decide)
  rcases C62_contents_partial (ntv := ntv) hf ht hb hr rfl (x := 64) (by decide) g1 g2 g3 with ⟨-, h, -⟩ | ⟨h, -⟩
  · rw [h]; rfl
  · exact absurd (h.symm.trans g4) (by decide)

end Verif.Restore
