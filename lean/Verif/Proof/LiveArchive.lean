import Verif.Spec.LiveArchive
import Verif.Proof.LazyWritten

/-! Archiving beside a running backend: what the tool has read was there at some moment. -/

set_option maxRecDepth 8000

namespace Verif.Lazy
open Verif Verif.Metadata Verif.Disk

variable {D : Type} {c : Cfg D}

/-- A settled stripe stays settled. -/
theorem step_settled {s s' : Sys D} {a : Act D} {ls : List (Lab D)} (hf : FetchInv c s) (h : Step c s a ls s') (k : Nat)
    (hl : settled s k) : settled s' k := by
  have of : ∀ {s1 : Sys D}, FetchFrame s s1 → settled s1 k := fun f => hl.imp (by rw [f.loc]; exact id) (f.st k)
  by_cases hg : a.isGuest = true
  · have := guest_frame h hg
    unfold settled
    rw [this.sh, this.fe]; exact hl
  cases h with
  | receiveFetch k' ms hms =>
    have f := @handleFetch_frame D { s with msgs := ms } k'
    exact hl.imp (by rw [f.loc]; exact id) (f.st k)
  | autofetch k' ks ha hq h =>
    have f := @handleFetch_frame D { s with fe := { s.fe with autoq := ks } } k'
    exact hl.imp (by rw [f.loc]; exact id) (f.st k)
  | startFetch submitOk _ _ h => exact of (startFetch_frame hf h).1
  | sourceDone k ok submitOk garbage _ _ h => exact of (sourceDone_frame hf h).1
  | targetDone k ok submitOk h => exact of (targetDone_frame hf h).1
  | startMeta submitOk _ h =>
    obtain ⟨h1, -, -, -, h2⟩ := startMeta_frame h
    unfold settled
    rw [h1, h2]; exact hl
  | metaDone k' ok submitOk h =>
    refine hl.imp (metaDone_mono k) ?_
    rw [metaDone_fe]; exact id
  | execData | execMeta | receiveWritten | takeFinished | disconnect => exact hl
  | _ => simp [Act.isGuest] at hg

end Verif.Lazy

namespace Verif.LiveArchive
open Verif Verif.Metadata Verif.Disk Verif.Lazy

variable {D : Type} {c : Cfg D}

theorem Beside.run {s0 s1 s : Sys D} {ls0 ls : List (Lab D)} {t : Tool D} (h0 : Run c s1 ls0 s0) (h : Beside c s0 ls s t) :
    Run c s1 (ls0 ++ ls) s := by
  induction h with
  | start => simpa using h0
  | volume _ hs ih => rw [← List.append_assoc]; exact ih.step hs
  | tool _ _ ih => exact ih

theorem Held.mono {init : (Nat → D) → Nat → D} {es0 es : List (Ev D)} {x : Nat} {v : D} (h : Held init es0 es x v) (es' : List (Ev D)) :
    Held init es0 (es ++ es') x v := by
  obtain ⟨g, e1, e2, d, rfl, h1, h2⟩ := h
  exact ⟨g, e1, e2 ++ es', d, by simp, h1, h2⟩

/-- A plain disk that saw `es` could hold `v` in sector `x` right then. -/
def AtEnd (init : (Nat → D) → Nat → D) (es : List (Ev D)) (x : Nat) (v : D) : Prop := ∃ g d, Disk.Run (Dev.fresh (init g)) es d ∧ d.vol x = v

theorem AtEnd.held {init : (Nat → D) → Nat → D} {es0 es : List (Ev D)} {x : Nat} {v : D} (h : AtEnd init (es0 ++ es) x v) : Held init es0 es x v := by
  obtain ⟨g, d, h1, h2⟩ := h
  exact ⟨g, es, [], d, by simp, h1, h2⟩

/-- What is known about the header byte `h` of stripe `k`, read at some moment of the run `es`; `s` is the state now. -/
structure Seen (c : Cfg D) (hdrs : Bytes) (tv : Nat → D) (s0 : Sys D) (es0 es : List (Ev D)) (s : Sys D) (k : Nat) (h : UInt8) : Prop where
  src : flag h HAS_SOURCE = c.hs k
  written : s0.sh.ws k = true → flag h WRITTEN = true
  fetched : s0.sh.fs k = .fetched → flag h FETCHED = true
  settled : flag h FETCHED = true → settled s k
  image : flag h HAS_SOURCE = true → flag h FETCHED = false → ∀ x v, x / c.ss = k → x < c.tsec → c.src x = some v →
    Held (fun g => preloadWith c g hdrs tv) es0 es x v
  fresh : c.track = true → flag h WRITTEN = false → ∀ x, x / c.ss = k → c.dom x →
    Held (fun g => preloadWith c g hdrs tv) es0 es x (preload c hdrs tv x)

theorem Seen.step {hdrs : Bytes} {tv : Nat → D} {es0 es : List (Ev D)} {s0 s s' : Sys D} {k : Nat} {h : UInt8}
    (hs : Seen c hdrs tv s0 es0 es s k h) (es' : List (Ev D)) (hm : Lazy.settled s k → Lazy.settled s' k) : Seen c hdrs tv s0 es0 (es ++ es') s' k h :=
  ⟨hs.src, hs.written, hs.fetched, fun h1 => hm (hs.settled h1), fun h1 h2 x v h3 h4 h5 => (hs.image h1 h2 x v h3 h4 h5).mono _,
    fun h1 h2 x h3 h4 => (hs.fresh h1 h2 x h3 h4).mono _⟩

/-- A sector of the metadata as read. -/
structure SecSeen (c : Cfg D) (hdrs : Bytes) (tv : Nat → D) (mv : Nat → Bytes) (s0 : Sys D) (es0 es : List (Ev D)) (s : Sys D) (x : Nat) (v : Bytes) : Prop where
  len : v.length = 512
  valid : ∀ k, k < c.n → stripeIdToSector k = x → sectorValid v = true
  hdr : ∀ k, k < c.n → stripeIdToSector k = x → Seen c hdrs tv s0 es0 es s k (v.getD (k % 508) 0)
  other : (∀ k, k < c.n → stripeIdToSector k ≠ x) → v = mv x

/-- A written stripe whose image data have still to be fetched. -/
def halfWritten (h : UInt8) : Bool := flag h WRITTEN && flag h HAS_SOURCE && !flag h FETCHED

structure Inv (c : Cfg D) (hdrs : Bytes) (tv : Nat → D) (mv : Nat → Bytes) (s0 : Sys D) (es0 es : List (Ev D)) (s : Sys D) (t : Tool D) : Prop where
  good : ∃ h, Bootable c h mv ∧ MetaInv c mv s
  sec : ∀ x v, t.sectors x = some v → SecSeen c hdrs tv mv s0 es0 es s x v
  md : ∀ m, t.md = some m → m.headers.length = c.n ∧ ∀ k, k < c.n → Seen c hdrs tv s0 es0 es s k (m.headers.getD k 0)
  out : ∀ m x v, t.md = some m → t.out x = some v → c.dom x → halfWritten (m.headers.getD (x / c.ss) 0) = false →
    Held (fun g => preloadWith c g hdrs tv) es0 es x v
  none : t.md = none → ∀ x, t.out x = none

/-- The state of the volume at one moment, as needed below. -/
structure Now (c : Cfg D) (hdrs : Bytes) (tv : Nat → D) (s0 : Sys D) (es0 es : List (Ev D)) (s : Sys D) : Prop where
  sound : Sound c s
  mono : Mono s0 s
  nosrc : ∀ k, (s.sh.fs k = .noSource → c.hs k = false) ∧ (c.hs k = false → s.sh.isLocal k = true)
  disk : ∀ x, c.dom x → settled s (x / c.ss) → AtEnd (fun g => preloadWith c g hdrs tv) (es0 ++ es) x (s.t.vol x)
  image : ∀ x v, x < c.tsec → s.sh.isLocal (x / c.ss) = false → c.src x = some v → Held (fun g => preloadWith c g hdrs tv) es0 es x v
  fresh : c.track = true → ∀ x, c.dom x → s.sh.ws (x / c.ss) = false → Held (fun g => preloadWith c g hdrs tv) es0 es x (preload c hdrs tv x)

/-- What is marked written or fetched stays so. -/
theorem Beside.mono {s0 s : Sys D} {ls : List (Lab D)} {t : Tool D} (hs : Sound c s0) (h : Beside c s0 ls s t) : Mono s0 s := by
  induction h with
  | start => exact .of_sh rfl
  | volume hB hst ih =>
    have : Sound c _ := hs.run (hB.run (.nil _))
    have h1 := step_mono this hst
    exact ⟨fun k hk => h1.fs k (ih.fs k hk), fun k hk => h1.loc k (ih.loc k hk), fun k hk => h1.ws k (ih.ws k hk)⟩
  | tool _ _ ih => exact ih

theorem now {hdrs : Bytes} {tv : Nat → D} {mv0 : Nat → Bytes} {b0 : Nat → Nat → D} {s0 s : Sys D} {ls0 ls : List (Lab D)} {t : Tool D}
    (hb : Bootable c hdrs mv0) (h0 : Run c (Sys.boot c hdrs tv mv0 b0) ls0 s0) (h : Beside c s0 ls s t) :
    Now c hdrs tv s0 (visible ls0) (visible ls) s := by
  have hr := h.run h0
  obtain ⟨hg, hfam⟩ := run_sim hb rfl hr
  obtain ⟨g, a, -, ha, hsim⟩ := hfam.sim
  rw [visible_append] at ha
  have hs : Sound c s := (Sound.boot (tv := tv) (b0 := b0) hb).run hr
  have key : ∀ x v, a.vol x = v → Held (fun g => preloadWith c g hdrs tv) (visible ls0) (visible ls) x v :=
    fun x v hv => ⟨g, visible ls, [], a, by simp, ha, hv⟩
  have rdy : ∀ x, c.dom x → settled s (x / c.ss) → ready c s x := by
    intro x hx hst
    by_cases hl : s.sh.isLocal (x / c.ss) = true
    · exact .inl hl
    · rcases hst with h1 | h1
      · exact .inl h1
      · refine .inr ⟨?_, h1⟩
        have hsrc : c.hs (x / c.ss) = true := by
          cases h2 : c.hs (x / c.ss) with
          | true => rfl
          | false => exact absurd ((hsim.nosrc _).2 h2) hl
        have := hx.1
        unfold Cfg.good at this
        rw [hsrc] at this
        intro h3
        rw [h3] at this; simp at this
  refine ⟨hs, h.mono ((Sound.boot (tv := tv) (b0 := b0) hb).run h0), hsim.nosrc, fun x hx hst => ⟨g, a, ha, (hsim.vol x hx.2 (rdy x hx hst)).symm⟩, fun x v hx hl hv => key _ _ ?_, fun ht x hx hw => key _ _ ?_⟩
  · rw [hsim.src x hx hl, hv]; rfl
  · obtain ⟨hi, -⟩ := hr.winv ht hb
    by_cases hst : settled s (x / c.ss)
    · rw [← hsim.vol x hx.2 (rdy x hx hst)]
      exact hi.pers x _ hx hw hst (hsim.tinv.vol_pers x)
    · have hl : s.sh.isLocal (x / c.ss) = false := by
        cases h1 : s.sh.isLocal (x / c.ss) with
        | false => rfl
        | true => exact absurd (.inl h1) hst
      rw [hsim.src x hx.2 hl, hi.src x hx hw hl]; rfl

theorem Now.sec {hdrs : Bytes} {tv : Nat → D} {mv : Nat → Bytes} {es0 es : List (Ev D)} {s0 s : Sys D} (hn : Now c hdrs tv s0 es0 es s)
    (hm : MetaInv c mv s) (x : Nat) : SecSeen c hdrs tv mv s0 es0 es s x (s.m.vol x) := by
  have h := hm.pers x _ (hm.dev.vol_pers x)
  refine ⟨h.len, h.valid, fun k hk hx => ?_, h.other⟩
  have hh := h.hdr k hk hx
  refine ⟨hh.src, fun h1 => hh.written (hn.mono.ws k h1), fun h1 => hh.fetched (hn.mono.fs k h1), hh.settled, fun h1 h2 y v hy hyt hv => ?_, fun ht hw y hy hd => ?_⟩
  · refine hn.image y v hyt ?_ hv
    rw [hy]
    cases hl : s.sh.isLocal k with
    | false => rfl
    | true =>
      exfalso
      simp only [Shared.isLocal, Bool.or_eq_true, decide_eq_true_eq] at hl
      rcases hl with hl | hl
      · rw [hh.fetched hl] at h2; cases h2
      · have := (hn.nosrc k).1 hl
        rw [← hh.src, h1] at this; cases this
  · refine hn.fresh ht y hd ?_
    rw [hy]
    cases hl : s.sh.ws k with
    | false => rfl
    | true => rw [hh.written hl] at hw; cases hw

theorem load_bound {M : Nat} {mv : Nat → Bytes} {md : Meta} (hl : ∀ x, (mv x).length = 512) (h : fromBytes (devBytes M mv) = .ok md)
    {k : Nat} (hk : k < md.headers.length) : stripeIdToSector k < M := by
  obtain ⟨-, -, -, -, -, -, -, -, -, -, h11, all, hall, -⟩ := fromBytes_ok h
  have h2 := (readGroups_ok hall).1 (k / 508) (by unfold divCeil; omega)
  rw [devBytes_length M mv hl] at h2
  unfold stripeIdToSector
  omega

theorem devBytes_congr {M : Nat} {v w : Nat → Bytes} (h : ∀ x, x < M → v x = w x) : devBytes M v = devBytes M w := by
  unfold devBytes
  rw [List.flatMap_def, List.flatMap_def]
  congr 1
  apply List.map_congr_left
  intro x hx
  exact h x (List.mem_range.1 hx)

/-- Whatever moments its sectors were read at, the metadata load. -/
theorem load_seen {hdrs : Bytes} {tv : Nat → D} {mv : Nat → Bytes} {es0 es : List (Ev D)} {s0 s : Sys D} {h0 : Bytes}
    (hb : Bootable c h0 mv) {v : Nat → Bytes} (hv : ∀ x, x < c.msec → SecSeen c hdrs tv mv s0 es0 es s x (v x)) :
    ∃ md, fromBytes (devBytes c.msec v) = .ok md ∧ md.headers.length = c.n ∧
      ∀ k, k < c.n → Seen c hdrs tv s0 es0 es s k (md.headers.getD k 0) := by
  obtain ⟨m0, hl0, rfl⟩ := hb.load
  let w : Nat → Bytes := fun x => if x < c.msec then v x else mv x
  have hw : ∀ x, x < c.msec → v x = w x := fun x hx => (if_pos hx).symm
  have hlen : ∀ x, (w x).length = 512 := by
    intro x
    by_cases hx : x < c.msec
    · rw [← hw x hx]; exact (hv x hx).len
    · simp only [w, if_neg hx]; exact hb.sectors x
  have hsec : ∀ k, k < c.n → stripeIdToSector k < c.msec := fun k hk => load_bound hb.sectors hl0 (by rw [hb.len]; exact hk)
  rw [devBytes_congr hw]
  obtain ⟨md, h1, h2, -, h4⟩ := fromBytes_replace hb.sectors hlen hl0 (mv' := w) (by
      by_cases hx : 0 < c.msec
      · rw [← hw 0 hx]
        exact (hv 0 hx).other fun k _ => by unfold stripeIdToSector; omega
      · simp only [w, if_neg hx]) (by
      intro k hk
      rw [hb.len] at hk
      rw [← hw _ (hsec k hk)]
      exact (hv _ (hsec k hk)).valid k hk rfl)
  rw [hb.len] at h2 h4
  refine ⟨md, h1, h2, fun k hk => ?_⟩
  rw [h4 k hk, ← hw _ (hsec k hk)]
  exact (hv _ (hsec k hk)).hdr k hk rfl

theorem inv {hdrs : Bytes} {tv : Nat → D} {mv0 : Nat → Bytes} {b0 : Nat → Nat → D} {s0 s : Sys D} {ls0 ls : List (Lab D)} {t : Tool D}
    (hb : Bootable c hdrs mv0) (h0 : Run c (Sys.boot c hdrs tv mv0 b0) ls0 s0) (h : Beside c s0 ls s t) :
    ∃ mv, Inv c hdrs tv mv s0 (visible ls0) (visible ls) s t := by
  obtain ⟨⟨⟨h', mv, hb', hm'⟩, -⟩, -⟩ := run_sim hb rfl h0
  refine ⟨mv, ?_⟩
  induction h with
  | start => exact ⟨⟨h', hb', hm'⟩, (by intro x v h; cases h), (by intro m h; cases h), (by intro m x v h; cases h), fun _ _ => rfl⟩
  | @volume ls ls' s s' t a hB hs ih =>
    have hn := now hb h0 hB
    obtain ⟨⟨h1, hb1, hm1⟩, hsec, hmd, hout, hnone⟩ := ih
    have hst := fun k => step_settled hn.sound.1.fetch hs k
    rw [visible_append]
    refine ⟨⟨h1, hb1, step_meta hn.sound.1.fetch hm1 hs⟩, fun x v hx => ?_, fun m hm => ?_, fun m x v h2 h3 h4 h5 => (hout m x v h2 h3 h4 h5).mono _, hnone⟩
    · have := hsec x v hx
      exact ⟨this.len, this.valid, fun k hk hx => (this.hdr k hk hx).step _ (hst k), this.other⟩
    · exact ⟨(hmd m hm).1, fun k hk => ((hmd m hm).2 k hk).step _ (hst k)⟩
  | @tool ls s t t' hB hs ih =>
    have hn := now hb h0 hB
    obtain ⟨⟨h1, hb1, hm1⟩, hsec, hmd, hout, hnone⟩ := ih
    cases hs with
    | sector x hx hm =>
      refine ⟨⟨h1, hb1, hm1⟩, fun y v hy => ?_, hmd, hout, hnone⟩
      simp only [upd] at hy
      split at hy
      · rename_i he
        cases hy; subst he
        exact hn.sec hm1 _
      · exact hsec y v hy
    | load v md hm hv hl =>
      obtain ⟨md', g1, g2, g3⟩ := load_seen hb1 fun x hx => hsec x _ (hv x hx)
      rw [hl, Except.ok.injEq] at g1
      subst g1
      refine ⟨⟨h1, hb1, hm1⟩, hsec, ?_, ?_, (by intro h; cases h)⟩
      · intro m hm; cases hm; exact ⟨g2, g3⟩
      · intro m x v h3 h4
        simp only [hnone hm x] at h4; cases h4
    | disk md x hm hx hr hd =>
      refine ⟨⟨h1, hb1, hm1⟩, hsec, hmd, ?_, (by intro h; rw [hm] at h; cases h)⟩
      intro m y v h2 h3 h4 h5
      simp only [upd] at h3
      split at h3
      · rename_i he
        cases h3; subst he
        rw [hm, Option.some.injEq] at h2
        subst h2
        by_cases hk : y / c.ss < c.n
        · have hs := (hmd _ hm).2 _ hk
          refine (hn.disk y h4 ?_).held
          cases hF : flag (md.headers.getD (y / c.ss) 0) FETCHED with
          | true => exact hs.settled hF
          | false =>
            unfold Restore.fromDisk at hd
            rw [hF, Bool.or_false] at hd
            unfold halfWritten at h5
            rw [hF, hd] at h5
            simp only [Bool.true_and, Bool.not_false, Bool.and_true] at h5
            rw [hs.src] at h5
            exact .inl ((hn.nosrc _).2 h5)
        · rw [List.getD_eq_getElem?_getD, List.getElem?_eq_none (by have := (hmd _ hm).1; omega)] at hd
          exact absurd hd (by decide)
      · exact hout m y v h2 h3 h4 h5
    | source md x v hm hx hr hd hv =>
      refine ⟨⟨h1, hb1, hm1⟩, hsec, hmd, ?_, (by intro h; rw [hm] at h; cases h)⟩
      intro m y v h2 h3 h4 h5
      simp only [upd] at h3
      split at h3
      · rename_i he
        cases h3; subst he
        rw [hm, Option.some.injEq] at h2
        subst h2
        by_cases hk : y / c.ss < c.n
        · have hs := (hmd _ hm).2 _ hk
          simp only [Restore.fromDisk, Bool.or_eq_false_iff] at hd
          simp only [recorded, hd.1, Bool.false_or] at hr
          exact hs.image hr hd.2 y _ rfl hx hv
        · rw [List.getD_eq_getElem?_getD, List.getElem?_eq_none (by have := (hmd _ hm).1; omega)] at hr
          exact absurd hr (by decide)
      · exact hout m y v h2 h3 h4 h5

end Verif.LiveArchive
