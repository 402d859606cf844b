import Verif.Model.NullDev
import Verif.Proof.LazyStuck
import Verif.Props.LazySafety
import Verif.Props.RestoreLimits
import Verif.Props.Stack

/-! # C107: a fully fetched volume needs its source no more -/

set_option maxRecDepth 8000

namespace Verif.Lazy
open Verif Verif.Metadata Verif.Disk

variable {D : Type} {c : Cfg D} {hdrs : Bytes} {tv : Nat → D} {mv : Nat → Bytes} {b0 : Nat → Nat → D} {ls : List (Lab D)} {s : Sys D}

/-- Every stripe with a source is marked as fetched. -/
def AllFetched (hdrs : Bytes) : Prop := ∀ h ∈ hdrs, flag h HAS_SOURCE = true → flag h FETCHED = true

/-- The volume with another source: other contents, other stripes, an image or none for direct reads. -/
def Cfg.withSource (c : Cfg D) (src : Nat → Option D) (has : Nat → Bool) (image : Bool) : Cfg D :=
  { c with src := src, srcHas := has, image := image }

theorem AllFetched.at (h : AllFetched hdrs) (k : Nat) (hk : flag (hdrs.getD k 0) HAS_SOURCE = true) : flag (hdrs.getD k 0) FETCHED = true := by
  by_cases hl : k < hdrs.length
  · have e : hdrs.getD k 0 = hdrs[k] := by simp [List.getD, hl]
    rw [e] at hk ⊢
    exact h _ (List.getElem_mem hl) hk
  · have e : hdrs.getD k 0 = 0 := by simp [List.getD, List.getElem?_eq_none (by omega : hdrs.length ≤ k)]
    rw [e] at hk
    exact absurd hk (by decide)

theorem AllFetched.local (h : AllFetched hdrs) (hb : Bootable c hdrs mv) : AllLocal c (Sys.boot c hdrs tv mv b0) := by
  intro k _ hh
  rw [hb.hs] at hh
  have := h.at k hh
  show (decide (loadFs (hdrs.getD k 0) = .fetched) || decide (loadFs (hdrs.getD k 0) = .noSource)) = true
  unfold loadFs
  rw [hh, this]
  rfl

theorem AllLocal.complete {s : Sys D} (h : AllLocal c s) (hs : Sound c s) {r : QReq D} (hv : c.validReq r.off r.cnt) :
    fetchStatus s.sh (stripes c r) = .complete :=
  fetchStatus_local fun _ hj => h.all hs (stripe_bound hv hj)

theorem finishFalse_img (s : Sys D) (q q' id : Nat) : ((finishFalse s q' id).ch q).img = (s.ch q).img := by
  simp only [finishFalse, setCh_ch]
  split
  · rename_i h; subst h; rfl
  · rfl

theorem enqueueReq_img {s : Sys D} {q q' : Nat} {r : QReq D} {b : Bool} : ((enqueueReq c s q' r b).1.ch q).img = (s.ch q).img := by
  unfold enqueueReq
  split
  · simp only [setCh_ch]
    split
    · rename_i h; subst h; rfl
    · rfl
  · exact finishFalse_img _ _ _ _

/-- While everything is local no read goes to the image. -/
theorem AllLocal.step_img {s s' : Sys D} {a : Act D} {ls : List (Lab D)} (hl : AllLocal c s) (hs : Sound c s)
    (hi : ∀ q id, (s.ch q).img id = none) (h : Step c s a ls s') : ∀ q id, (s'.ch q).img id = none := by
  intro q id
  have hsame : ∀ s' : Sys D, s'.ch = s.ch → (s'.ch q).img id = none := fun s' e => by rw [e]; exact hi q id
  by_cases hg : a.isGuest = true
  · cases h with
    | read q' id' off cnt sendOk hv _ hid =>
      unfold addRead
      simp only [hl.complete hs (r := { id := id', off, cnt, out := none }) hv]
      exact hsame _ toBase_ch
    | write q' id' off cnt data sendOk hv hid =>
      unfold addWrite
      simp only
      split
      · rw [finishFalse_img]; exact hi q id
      · split
        · exact hsame _ toBase_ch
        · rw [enqueueReq_img]; exact hi q id
      · rw [enqueueReq_img]; exact hi q id
    | flush q' id' hid => exact hsame _ rfl
    | processQueue q' submitOk _ _ h =>
      unfold processQueue at h
      split at h
      · simp at h
      · have hch : ∀ f : Chan D → Chan D, ∀ s1 : Sys D, s1.ch = (s.setCh q' f).ch → (f (s.ch q')).img = (s.ch q').img →
            (s1.ch q).img id = none := by
          intro f s1 e1 e2
          rw [e1, setCh_ch]
          split
          · rw [e2]; exact hi _ _
          · exact hi _ _
        split at h
        · simp at h
        · simp only [Option.some.injEq, Prod.mk.injEq] at h
          obtain ⟨rfl, -⟩ := h
          rw [finishFalse_img]
          exact hch _ _ rfl rfl
        · split at h
          · simp at h
          · simp only at h
            split at h
            · simp only [Option.some.injEq, Prod.mk.injEq] at h
              obtain ⟨rfl, -⟩ := h
              exact hch _ _ toBase_ch rfl
            · simp only [Option.some.injEq, Prod.mk.injEq] at h
              obtain ⟨rfl, -⟩ := h
              rw [finishFalse_img]
              exact hch _ _ rfl rfl
    | reportFinished q' id' ok rest h =>
      simp only [setCh_ch]
      split
      · exact hi _ _
      · exact hi _ _
    | baseDone => exact hsame _ rfl
    | imageDone q' id' ok off cnt h => rw [hi] at h; cases h
    | _ => simp [Act.isGuest] at hg
  · exact hsame _ (worker_step h (by simpa using hg)).2

/-- Nothing is queued for or asked of the source while everything is local. -/
theorem AllLocal.idle {s : Sys D} (hl : AllLocal c s) (hs : Sound c s) (k : Nat) : k ∉ s.fe.queue ∧ s.fe.srcIn k = false := by
  by_cases hk : k < c.n
  · have := hs.idle (hl.all hs hk)
    exact ⟨this.1, this.2.2.1⟩
  · have hn : s.fe.states k = none := by
      cases h : s.fe.states k with
      | none => rfl
      | some x => exact absurd (hs.1.fetch.bound k (by rw [h]; simp)) hk
    have h := hs.1.fetch.ok k
    unfold StripeOk StripeOkC at h
    rw [hn] at h
    exact ⟨h.1, h.2.2.1⟩

theorem AllLocal.img (hl : AllLocal c s) (hs : Sound c s) (hi : ∀ q id, (s.ch q).img id = none) {s' : Sys D} (h : Run c s ls s') :
    ∀ q id, (s'.ch q).img id = none := by
  induction h with
  | nil => exact hi
  | step h hst ih => exact (hl.no_copies hs h).1.step_img (hs.run h) ih hst
  | crash => intro q id; rfl

/-- One step while everything is local is a step with any other source. -/
theorem AllLocal.step_source {s s' : Sys D} {a : Act D} {ls : List (Lab D)} (hl : AllLocal c s) (hs : Sound c s)
    (hi : ∀ q id, (s.ch q).img id = none) (src : Nat → Option D) (has : Nat → Bool) (image : Bool) (h : Step c s a ls s') :
    Step (c.withSource src has image) s a ls s' := by
  cases h with
  | read q id off cnt sendOk hv hg hid =>
    have hc := hl.complete hs (r := { id := id, off, cnt, out := none }) hv
    have e : addRead c s q id off cnt sendOk = addRead (c.withSource src has image) s q id off cnt sendOk := by
      have hc' : fetchStatus s.sh (stripes (c.withSource src has image) { id := id, off, cnt, out := none }) = .complete := hc
      unfold addRead
      simp only [hc, hc']
    rw [e]
    refine .read s q id off cnt sendOk hv (fun _ _ hloc => ?_) hid
    have hoff : off / c.ss < c.n := stripe_bound (r := { id := id, off, cnt, out := none }) hv (by
      rw [mem_stripes]
      have hle : off / c.ss ≤ (off + cnt - 1) / c.ss := Nat.div_le_div_right (by have := hv.1; omega)
      exact ⟨Nat.le_refl _, hle, hle⟩)
    rw [show s.sh.isLocal (off / (c.withSource src has image).ss) = true from hl.all hs hoff] at hloc
    cases hloc
  | write q id off cnt data sendOk hv hid => exact .write (c := c.withSource src has image) s q id off cnt data sendOk hv hid
  | flush q id hid => exact .flush s q id hid
  | processQueue q submitOk _ _ h => exact .processQueue s q submitOk _ _ h
  | reportFinished q id ok rest h => exact .reportFinished s q id ok rest h
  | baseDone q id ok h => exact .baseDone s q id ok h
  | imageDone q id ok off cnt h => rw [hi] at h; cases h
  | execData o x => exact .execData s o x
  | execMeta k x => exact .execMeta s k x
  | receiveFetch k ms h => exact .receiveFetch s k ms h
  | receiveWritten k ms h => exact .receiveWritten s k ms h
  | autofetch k ks ha hq h => exact .autofetch s k ks ha hq h
  | startFetch submitOk _ _ h =>
    unfold startFetch at h
    split at h
    · rename_i k q b free hq hf
      exact absurd (by rw [hq]; simp) (hl.idle hs k).1
    · cases h
  | sourceDone k ok submitOk garbage _ _ h =>
    unfold sourceDone at h
    rw [(hl.idle hs k).2] at h
    cases h
  | targetDone k ok submitOk h => exact .targetDone s k ok submitOk h
  | takeFinished k ok rest h => exact .takeFinished s k ok rest h
  | startMeta submitOk _ h => exact .startMeta s submitOk _ h
  | metaDone k ok submitOk h => exact .metaDone s k ok submitOk h
  | disconnect hd hb hc => exact .disconnect s hd hb hc

theorem AllLocal.run_source (hl : AllLocal c s) (hs : Sound c s) (hi : ∀ q id, (s.ch q).img id = none) (src : Nat → Option D)
    (has : Nat → Bool) (image : Bool) {s' : Sys D} (h : Run c s ls s') : Run (c.withSource src has image) s ls s' := by
  induction h with
  | nil => exact .nil _
  | step h hst ih => exact .step ih ((hl.no_copies hs h).1.step_source (hs.run h) (hl.img hs hi h) src has image hst)
  | crash buf0 h h1 h2 h3 ih => exact .crash (c := c.withSource src has image) buf0 ih h1 h2 h3

/-- **C107** Once the metadata mark every stripe that has a source as fetched, no run of the volume reads the source, fetches a
stripe or has a guest's read answered by the image, power losses included. -/
theorem C107_source_unused (hb : Bootable c hdrs mv) (hf : AllFetched hdrs) (h : Run c (Sys.boot c hdrs tv mv b0) ls s) :
    (∀ k, Lab.sourceRead k ∉ ls ∧ Lab.fetchWrite k ∉ ls ∧ Lab.enqueue k ∉ ls) ∧ ∀ q id, (s.ch q).img id = none := by
  have hl : AllLocal c (Sys.boot c hdrs tv mv b0) := hf.local hb
  have hn := (hl.no_copies (Sound.boot hb) h).2
  exact ⟨fun k => ⟨fun hm => hn k _ hm rfl, fun hm => hn k _ hm rfl, fun hm => hn k _ hm rfl⟩,
    hl.img (Sound.boot hb) (fun _ _ => rfl) h⟩

/-- **C107** The source may have any contents, or be gone: whatever a fully fetched volume does with one source it does, step by step
and with the same answers, with any other. -/
theorem C107_any_source (hb : Bootable c hdrs mv) (hf : AllFetched hdrs) (src : Nat → Option D) (has : Nat → Bool) (image : Bool) :
    Run c (Sys.boot c hdrs tv mv b0) ls s ↔ Run (c.withSource src has image) (Sys.boot (c.withSource src has image) hdrs tv mv b0) ls s := by
  have hb' : Bootable (c.withSource src has image) hdrs mv := ⟨hb.ss, hb.load, hb.len, hb.sectors, hb.hs, hb.srcStripes⟩
  refine ⟨fun h => (hf.local hb).run_source (Sound.boot hb) (fun _ _ => rfl) src has image h, fun h => ?_⟩
  exact (hf.local hb').run_source (Sound.boot hb') (fun _ _ => rfl) c.src c.srcHas c.image h

/-! ### Any source, any background fetching -/

/-- The volume with another source of another size, with background fetching on or off. -/
def Cfg.withFetching (c : Cfg D) (src : Nat → Option D) (has : Nat → Bool) (image : Bool) (stripes : Nat) (auto : Bool) : Cfg D :=
  { c with src := src, srcHas := has, image := image, srcStripes := stripes, autofetch := auto }

/-- What may differ: the stripes still to be fetched in the background, and whether the source is disconnected. -/
def Sys.fetching (s : Sys D) (q : List Nat) (d : Bool) : Sys D := { s with fe := { s.fe with autoq := q, disconnected := d } }

theorem toBase_fetching (s : Sys D) (q : Nat) (r : QReq D) (l : List Nat) (d : Bool) : toBase (s.fetching l d) q r = (toBase s q r).fetching l d := by
  unfold toBase
  split <;> rfl

theorem enqueueReq_fetching (s : Sys D) (q : Nat) (r : QReq D) (b : Bool) (l : List Nat) (d : Bool) :
    enqueueReq c (s.fetching l d) q r b = ((enqueueReq c s q r b).1.fetching l d, (enqueueReq c s q r b).2) := by
  unfold enqueueReq
  split <;> rfl

theorem addWrite_fetching (s : Sys D) (q id off cnt : Nat) (data : Nat → D) (b : Bool) (l : List Nat) (d : Bool) :
    addWrite c (s.fetching l d) q id off cnt data b = ((addWrite c s q id off cnt data b).1.fetching l d, (addWrite c s q id off cnt data b).2) := by
  unfold addWrite
  rw [show (s.fetching l d).sh = s.sh from rfl]
  simp only [enqueueReq_fetching, toBase_fetching]
  split
  · rfl
  · split <;> rfl
  · rfl

theorem processQueue_fetching (s : Sys D) (q : Nat) (b : Bool) (l : List Nat) (d : Bool) :
    processQueue c (s.fetching l d) q b = (processQueue c s q b).map fun x => (x.1.fetching l d, x.2) := by
  unfold processQueue
  rw [show (s.fetching l d).ch = s.ch from rfl, show (s.fetching l d).sh = s.sh from rfl]
  split
  · rfl
  · split
    · rfl
    · rfl
    · split
      · rfl
      · dsimp only
        split
        · rename_i r rest _ _ _ _ _
          exact congrArg (fun x => some (x, _)) (toBase_fetching (s.setCh q fun ch =>
            { ch with queue := rest, requested := fun k => ch.requested k && !(stripes c r).contains k }) q r l d)
        · rfl

theorem startMeta_fetching (s : Sys D) (b : Bool) (l : List Nat) (d : Bool) :
    startMeta (s.fetching l d) b = (startMeta s b).map fun x => x.fetching l d := by
  unfold startMeta
  rw [show (s.fetching l d).fl = s.fl from rfl]
  split
  · rfl
  · repeat' split
    all_goals rfl

theorem metaDone_fetching (s : Sys D) (k : Nat) (ok b : Bool) (l : List Nat) (d : Bool) :
    metaDone (s.fetching l d) k ok b = (metaDone s k ok b).fetching l d := by
  unfold metaDone
  dsimp only
  rw [show (s.fetching l d).fl = s.fl from rfl]
  split
  · rfl
  · split
    · split
      · split <;> rfl
      · rfl
    · rfl

theorem AllLocal.step_fetching {s s' : Sys D} {a : Act D} {ls : List (Lab D)} (hl : AllLocal c s) (hs : Sound c s)
    (hi : ∀ q id, (s.ch q).img id = none) (src : Nat → Option D) (has : Nat → Bool) (image : Bool) (n : Nat) (auto : Bool)
    (h : Step c s a ls s') (q0 : List Nat) (d0 : Bool) :
    (∃ a', Step (c.withFetching src has image n auto) (s.fetching q0 d0) a' ls (s'.fetching q0 d0)) ∨
      (ls = [] ∧ s'.fetching q0 d0 = s.fetching q0 d0) := by
  have hidle := hl.idle hs
  cases h with
  | read q id off cnt sendOk hv hg hid =>
    have hc := hl.complete hs (r := { id := id, off, cnt, out := none }) hv
    have e : addRead (c.withFetching src has image n auto) (s.fetching q0 d0) q id off cnt sendOk =
        ((addRead c s q id off cnt sendOk).1.fetching q0 d0, (addRead c s q id off cnt sendOk).2) := by
      have hc' : fetchStatus (s.fetching q0 d0).sh (stripes (c.withFetching src has image n auto) { id := id, off, cnt, out := none }) = .complete := hc
      unfold addRead
      simp only [hc, hc', toBase_fetching]
    have st := Step.read (c := c.withFetching src has image n auto) (s.fetching q0 d0) q id off cnt sendOk hv (fun _ _ hloc => by
      have hoff : off / c.ss < c.n := stripe_bound (r := { id := id, off, cnt, out := none }) hv (by
        rw [mem_stripes]
        have hle : off / c.ss ≤ (off + cnt - 1) / c.ss := Nat.div_le_div_right (by have := hv.1; omega)
        exact ⟨Nat.le_refl _, hle, hle⟩)
      rw [show (s.fetching q0 d0).sh.isLocal (off / (c.withFetching src has image n auto).ss) = true from hl.all hs hoff] at hloc
      cases hloc) hid
    rw [e] at st
    exact Or.inl ⟨_, st⟩
  | write q id off cnt data sendOk hv hid =>
    have st := Step.write (c := c.withFetching src has image n auto) (s.fetching q0 d0) q id off cnt data sendOk hv hid
    rw [addWrite_fetching] at st
    exact Or.inl ⟨_, st⟩
  | flush q id hid => exact Or.inl ⟨_, .flush (s.fetching q0 d0) q id hid⟩
  | processQueue q submitOk _ _ h =>
    refine Or.inl ⟨_, .processQueue (c := c.withFetching src has image n auto) (s.fetching q0 d0) q submitOk _ _ ?_⟩
    rw [processQueue_fetching]
    have h' : processQueue (c.withFetching src has image n auto) s q submitOk = some (s', ls) := h
    rw [h']
    rfl
  | reportFinished q id ok rest h => exact Or.inl ⟨_, .reportFinished (s.fetching q0 d0) q id ok rest h⟩
  | baseDone q id ok h => exact Or.inl ⟨_, .baseDone (s.fetching q0 d0) q id ok h⟩
  | imageDone q id ok off cnt h => rw [hi] at h; cases h
  | execData o x => exact Or.inl ⟨_, .execData (s.fetching q0 d0) o x⟩
  | execMeta k x => exact Or.inl ⟨_, .execMeta (s.fetching q0 d0) k x⟩
  | receiveFetch k ms h =>
    have hk : s.sh.isLocal k = true := hl.all hs (hs.1.fetch.mbound k (by rw [h]; simp))
    have e : ∀ s1 : Sys D, s1.sh = s.sh → handleFetch s1 k = (s1, []) := fun s1 e1 => by unfold handleFetch; rw [e1, if_pos hk]
    have st := Step.receiveFetch (c := c.withFetching src has image n auto) (s.fetching q0 d0) k ms h
    rw [e { s.fetching q0 d0 with msgs := ms } rfl] at st
    rw [e { s with msgs := ms } rfl]
    exact Or.inl ⟨_, st⟩
  | receiveWritten k ms h => exact Or.inl ⟨_, .receiveWritten (s.fetching q0 d0) k ms h⟩
  | autofetch k ks ha hq h =>
    have hk : s.sh.isLocal k = true := hl.all hs (hs.1.fetch.abound k (by rw [h]; simp))
    have e : ∀ s1 : Sys D, s1.sh = s.sh → handleFetch s1 k = (s1, []) := fun s1 e1 => by unfold handleFetch; rw [e1, if_pos hk]
    rw [e { s with fe := { s.fe with autoq := ks } } rfl]
    exact Or.inr ⟨rfl, rfl⟩
  | startFetch submitOk _ _ h =>
    unfold startFetch at h
    split at h
    · rename_i k q b free hq hf
      exact absurd (by rw [hq]; simp) (hidle k).1
    · cases h
  | sourceDone k ok submitOk garbage _ _ h =>
    unfold sourceDone at h
    rw [(hidle k).2] at h
    cases h
  | targetDone k ok submitOk h =>
    exfalso
    obtain ⟨op, h1, -⟩ := h
    by_cases hk : k < c.n
    · rw [(hs.idle (hl.all hs hk)).2.2.2] at h1; cases h1
    · have hn : s.fe.states k = none := by
        cases h : s.fe.states k with
        | none => rfl
        | some x => exact absurd (hs.1.fetch.bound k (by rw [h]; simp)) hk
      have h := hs.1.fetch.ok k
      unfold StripeOk StripeOkC at h
      rw [hn] at h
      rw [kinds_none.mp h.2.2.2] at h1
      cases h1
  | takeFinished k ok rest h => exact Or.inl ⟨_, .takeFinished (s.fetching q0 d0) k ok rest h⟩
  | startMeta submitOk _ h =>
    refine Or.inl ⟨_, .startMeta (s.fetching q0 d0) submitOk _ ?_⟩
    rw [startMeta_fetching, h]
    rfl
  | metaDone k ok submitOk h =>
    have st := Step.metaDone (c := c.withFetching src has image n auto) (s.fetching q0 d0) k ok submitOk h
    rw [metaDone_fetching] at st
    exact Or.inl ⟨_, st⟩
  | disconnect hd hb hc => exact Or.inr ⟨rfl, rfl⟩

theorem AllLocal.run_fetching (hl : AllLocal c s) (hs : Sound c s) (hi : ∀ q id, (s.ch q).img id = none) (src : Nat → Option D)
    (has : Nat → Bool) (image : Bool) (n : Nat) (auto : Bool) {s' : Sys D} (h : Run c s ls s') (q0 : List Nat) (d0 : Bool) :
    ∃ q1 d1, Run (c.withFetching src has image n auto) (s.fetching q0 d0) ls (s'.fetching q1 d1) := by
  induction h with
  | nil => exact ⟨q0, d0, .nil _⟩
  | step h hst ih =>
    obtain ⟨q1, d1, ih⟩ := ih
    refine ⟨q1, d1, ?_⟩
    rcases (hl.no_copies hs h).1.step_fetching (hs.run h) (hl.img hs hi h) src has image n auto hst q1 d1 with ⟨a', h1⟩ | ⟨rfl, h2⟩
    · exact .step ih h1
    · rw [h2, List.append_nil]; exact ih
  | crash buf0 h h1 h2 h3 ih =>
    obtain ⟨q1, d1, ih⟩ := ih
    exact ⟨_, _, .crash (c := c.withFetching src has image n auto) buf0 ih h1 h2 h3⟩

/-- **C107** Nor does it matter how large the source is and whether background fetching is on: a fully fetched volume goes through
the same histories, with the same contents of both devices at the end, with any source and either setting. -/
theorem C107_same_histories (hb : Bootable c hdrs mv) (hf : AllFetched hdrs) (src : Nat → Option D) (has : Nat → Bool) (image : Bool)
    (n : Nat) (hn : n ≤ c.n) (auto : Bool) (t : Dev Owner D) (m : Dev Nat Bytes) :
    (∃ s, Run c (Sys.boot c hdrs tv mv b0) ls s ∧ s.t = t ∧ s.m = m) ↔
    ∃ s, Run (c.withFetching src has image n auto) (Sys.boot (c.withFetching src has image n auto) hdrs tv mv b0) ls s ∧ s.t = t ∧ s.m = m := by
  have hb' : Bootable (c.withFetching src has image n auto) hdrs mv := ⟨hb.ss, hb.load, hb.len, hb.sectors, hb.hs, hn⟩
  constructor
  · rintro ⟨s, h, ht, hm⟩
    obtain ⟨q1, d1, h1⟩ := (hf.local hb).run_fetching (Sound.boot hb) (fun _ _ => rfl) src has image n auto h
      (if auto then List.range n else []) false
    exact ⟨_, h1, ht, hm⟩
  · rintro ⟨s, h, ht, hm⟩
    obtain ⟨q1, d1, h1⟩ := (hf.local hb').run_fetching (Sound.boot hb') (fun _ _ => rfl) c.src c.srcHas c.image c.srcStripes c.autofetch h
      (if c.autofetch then List.range c.srcStripes else []) false
    exact ⟨_, h1, ht, hm⟩

theorem AllFetched.preload (hf : AllFetched hdrs) {g : Nat → D} : preloadWith c g hdrs tv = tv := by
  funext x
  unfold preloadWith
  simp only
  split
  · rename_i hx
    simp only [Bool.and_eq_true, Bool.not_eq_true'] at hx
    rw [hf.at _ hx.1] at hx
    cases hx.2
  · rfl

/-- **C107** A fully fetched volume is a plain disk with the local contents. -/
theorem C107_local_disk (hb : Bootable c hdrs mv) (hf : AllFetched hdrs) (h : Run c (Sys.boot c hdrs tv mv b0) ls s) :
    ∃ d, Disk.Run (Dev.fresh tv) (visible ls) d := by
  obtain ⟨g, d, hd⟩ := C05_refines_plain_disk hb h
  rw [hf.preload] at hd
  exact ⟨d, hd⟩
/-- **C107** for the volume built of the real layers (C65): each device one of the two engines, encrypted or not. -/
theorem C107_volume {c : Cfg Bytes} {p : Crypt.Xts} {hp : p.Lawful} {k : Crypt.Keys} {tv : Nat → Bytes} {ls : List (Lab Bytes)}
    {et em : List (Ev Bytes)} {h : Stack.Host Bytes} (hb : Bootable c hdrs mv) (hf : AllFetched hdrs) (hr : Stack.ORun c ls et em h)
    (ht : Stack.Device p hp k tv et) (hm : Stack.Device p hp k mv em) :
    (∃ d, Disk.Run (Dev.fresh tv) (visible ls) d) ∧
      ∀ j, Lab.sourceRead j ∉ ls ∧ Lab.fetchWrite j ∉ ls ∧ Lab.enqueue j ∉ ls := by
  obtain ⟨dt, h1⟩ := ht.refines
  obtain ⟨dm, h2⟩ := hm.refines
  obtain ⟨b0, s, h3⟩ := (Stack.open_closed hb hr h1 h2).run
  exact ⟨C107_local_disk hb hf h3, (C107_source_unused hb hf h3).1⟩

/-! ## The placeholder -/

open Verif.NullDev

/-- **C107** The source built for a fully fetched volume refuses every stripe and has none, whatever image is configured. So does
the source built when no image is configured. -/
theorem C107_null_source (a : Bool) (ssc : Nat) (image : Option Nat) (h : a = true ∨ image = none) (k : Nat) :
    (deviceSource a ssc image).request k = none ∧ (deviceSource a ssc image).hasStripe k = false := by
  have e : deviceSource a ssc image = ⟨ssc, 0⟩ := by
    unfold deviceSource
    rcases h with rfl | rfl
    · rfl
    · split <;> rfl
  rw [e]
  exact ⟨rfl, rfl⟩

/-- **C107** Otherwise the source asks its image for exactly the sectors of the stripe that the image has, and refuses exactly the
stripes of which it has none: for images and stripe numbers for which the sector number does not overflow. -/
theorem C107_image_request {ssc n k : Nat} (h1 : 0 < ssc) (h2 : ssc < 2 ^ 32) (h3 : k * ssc < 2 ^ 64) :
    ((deviceSource false ssc (some n)).request k = none ↔ ∀ x, x / ssc = k → n ≤ x) ∧
    ((deviceSource false ssc (some n)).hasStripe k = true ↔ ∃ x, x / ssc = k ∧ x < n) ∧
    ∀ off cnt, (deviceSource false ssc (some n)).request k = some (off, cnt) → ∀ x, covers off cnt x ↔ x / ssc = k ∧ x < n := by
  have hin : ∀ x, x / ssc = k ↔ k * ssc ≤ x ∧ x < k * ssc + ssc := fun x => by
    rw [Nat.div_eq_iff h1, Nat.mul_comm]
    have : 0 < k * ssc + ssc := by omega
    omega
  have ho : (deviceSource false ssc (some n)).offset k = k * ssc := Nat.mod_eq_of_lt h3
  have hs : (deviceSource false ssc (some n)).sectors = n := rfl
  have hc : (deviceSource false ssc (some n)).ssc = ssc := rfl
  unfold Source.request Source.hasStripe
  rw [ho, hs, hc]
  refine ⟨?_, ?_, ?_⟩
  · constructor
    · intro h x hx
      split at h
      · have := (hin x).mp hx; omega
      · cases h
    · intro h
      have := h (k * ssc) ((hin _).mpr ⟨Nat.le_refl _, by omega⟩)
      rw [if_pos this]
  · rw [decide_eq_true_eq]
    constructor
    · intro h
      exact ⟨k * ssc, (hin _).mpr ⟨Nat.le_refl _, by omega⟩, h⟩
    · rintro ⟨x, hx, hn⟩
      have := (hin x).mp hx
      omega
  · intro off cnt h x
    split at h
    · cases h
    · simp only [Option.some.injEq, Prod.mk.injEq] at h
      obtain ⟨rfl, rfl⟩ := h
      rw [Nat.mod_eq_of_lt (by omega), hin]
      unfold covers
      omega

/-- `has_fetched_all_stripes` decides exactly that. -/
theorem hasFetchedAll_iff (m : Meta) : hasFetchedAll m = true ↔ AllFetched m.headers := by
  unfold hasFetchedAll AllFetched flag
  simp only [List.all_eq_true, Bool.or_eq_true, beq_iff_eq, bne_iff_ne, ne_eq, decide_eq_true_eq]
  refine forall_congr' fun h => forall_congr' fun _ => ?_
  by_cases h1 : h &&& HAS_SOURCE = 0 <;> simp [h1]

/-- **C107** The backend replaces the source by the placeholder exactly when that changes nothing: the metadata mark every stripe
that has a source as fetched, and then the volume goes through the same histories as with the source. If they do not, the image is
used. -/
theorem C107_replaced {m : Meta} (hb : Bootable c m.headers mv) (image : Option Nat) (t : Dev Owner D) (md : Dev Nat Bytes) :
    (hasFetchedAll m = true →
      let p := deviceSource (hasFetchedAll m) c.ss image
      let c' := c.withFetching (fun _ => none) p.hasStripe c.image ((p.sectors + c.ss - 1) / c.ss) c.autofetch
      (∃ s, Run c (Sys.boot c m.headers tv mv b0) ls s ∧ s.t = t ∧ s.m = md) ↔
        ∃ s, Run c' (Sys.boot c' m.headers tv mv b0) ls s ∧ s.t = t ∧ s.m = md) ∧
    ((∃ h ∈ m.headers, flag h HAS_SOURCE = true ∧ flag h FETCHED = false) →
      (deviceSource (hasFetchedAll m) c.ss image).sectors = image.getD 0) := by
  refine ⟨fun h => C107_same_histories hb ((hasFetchedAll_iff m).mp h) _ _ _ _ ?_ _ t md, ?_⟩
  · rw [h, show (deviceSource true c.ss image).sectors = 0 from rfl, Nat.div_eq_of_lt (by have := hb.ss; omega)]
    exact Nat.zero_le _
  rintro ⟨h, h1, h2, h3⟩
  have : hasFetchedAll m = false := by
    cases hx : hasFetchedAll m with
    | false => rfl
    | true =>
      have := (hasFetchedAll_iff m).mp hx h h1 h2
      rw [h3] at this; cases this
  rw [this]
  rfl

/-- **C107** It gets there: once every stripe with a source is announced as fetched (in particular once the volume has disconnected
from its source, C14), the metadata that survive any power loss mark all of them, so that every later start is one of a fully fetched
volume. -/
theorem C107_from_then_on (hb : Bootable c hdrs mv) (h : Run c (Sys.boot c hdrs tv mv b0) ls s)
    (hall : ∀ k, k < c.n → c.hs k = true → s.sh.isLocal k = true) {ls' : List (Lab D)} {s' : Sys D} (h' : Run c s ls' s')
    {tv' : Nat → D} {mv' : Nat → Bytes} (ht : s'.t.survives tv') (hm : s'.m.survives mv') :
    ∃ md, fromBytes (devBytes c.msec mv') = .ok md ∧ Bootable c md.headers mv' ∧ AllFetched md.headers ∧ hasFetchedAll md = true := by
  have hs := (Sound.boot (tv := tv) (b0 := b0) hb).run h
  obtain ⟨md, h1, h2⟩ := C06_reload hb (h.trans h') hm
  have hr := Run.crash b0 h' ht hm h1
  have hf : AllFetched md.headers := by
    intro x hx hsrc
    obtain ⟨k, hk, rfl⟩ := List.getElem_of_mem hx
    have e : md.headers.getD k 0 = md.headers[k] := by simp [List.getD, hk]
    have hl := hr.local hs k (hall k (by rw [← h2.len]; exact hk) (by rw [h2.hs, e]; exact hsrc))
    have hl : (decide (loadFs (md.headers.getD k 0) = .fetched) || decide (loadFs (md.headers.getD k 0) = .noSource)) = true := hl
    unfold loadFs at hl
    rw [e, hsrc] at hl
    cases hx : flag md.headers[k] FETCHED with
    | true => rfl
    | false => rw [hx] at hl; cases hl
  exact ⟨md, h1, h2, hf, (hasFetchedAll_iff md).mpr hf⟩

/-- The numbers of the requests among some calls. -/
def asked : List Call → List Nat
  | [] => []
  | .read id _ _ :: cs | .write id :: cs | .flush id :: cs => id :: asked cs
  | _ :: cs => asked cs

/-- **C107** The placeholder answers every request once, with success, in the order of the calls: what `poll` has returned and what
it still will are the requests made. -/
theorem C107_null_answers (cs : List Call) :
    (run [] cs).2 ++ (run [] cs).1 = (asked cs).map (·, true) ∧ (run [] (cs ++ [.poll])).2 = (asked cs).map (·, true) := by
  have h : ∀ (cs : List Call) fin, (run fin cs).2 ++ (run fin cs).1 = fin ++ (asked cs).map (·, true) := by
    intro cs
    induction cs with
    | nil => intro fin; simp [run, asked]
    | cons c cs ih =>
      intro fin
      cases c <;> simp [run, step, asked, ih]
  have h2 : ∀ (cs : List Call) fin, (run fin (cs ++ [.poll])).2 = (run fin cs).2 ++ (run fin cs).1 := by
    intro cs
    induction cs with
    | nil => intro fin; simp [run, step]
    | cons c cs ih => intro fin; simp only [List.cons_append, run]; rw [ih]; simp
  exact ⟨by rw [h]; simp, by rw [h2, h]; simp⟩

/-- **C107** A read of the placeholder zeroes the sectors read and nothing else of the buffer, and `busy` says whether a request is
yet to be returned. -/
theorem C107_null_reads (cnt : Nat) (buf : Bytes) (hc : cnt < 2 ^ 32) (i : Nat) :
    (filled cnt buf).length = buf.length ∧ (i < buf.length → (filled cnt buf)[i]? = if i < cnt * 512 then some 0 else buf[i]?) ∧
    ∀ fin, busy fin = true ↔ fin ≠ [] := by
  have hs : satMul cnt 512 = cnt * 512 := by unfold satMul; omega
  unfold filled
  rw [hs]
  refine ⟨?_, ?_, ?_⟩
  · simp only [List.length_append, List.length_replicate, List.length_drop]; omega
  · intro hi
    simp only
    by_cases h : i < cnt * 512
    · rw [if_pos h, List.getElem?_append_left (by simp; omega), List.getElem?_replicate, if_pos (by omega)]
    · rw [if_neg h, List.getElem?_append_right (by simp; omega), List.getElem?_drop, List.length_replicate]
      congr 1
      omega
  · intro fin; cases fin <;> simp [busy]

/-! ## A case -/

/-- One stripe of 64 sectors, fetched; reads may go to an image and unfetched stripes are fetched in the background. -/
def doneCfg : Cfg Bytes :=
  { ss := 64, n := 1, tsec := 64, msec := 2, hs := fun k => k == 0, src := fun _ => some Restore.seven, srcHas := fun k => k == 0, srcStripes := 1,
    image := true, track := false, autofetch := true }

theorem done_bootable : ∃ mv, Bootable doneCfg [HAS_SOURCE ||| FETCHED] mv := by
  obtain ⟨mv, h⟩ := Remote.saved_bootable (c := doneCfg) (m := { Meta.new 6 1 0 with headers := [HAS_SOURCE ||| FETCHED] })
    ⟨rfl, rfl, rfl, by decide, by decide⟩ (by decide) (by decide)
    (by decide) (by
      intro k
      match k with
      | 0 => decide
      | k + 1 => show false = flag 0 HAS_SOURCE; decide) (by decide)
  exact ⟨mv, h⟩

/-- The guest reads the first sector while the worker starts fetching in the background: the read is answered with the local
contents, not the image's, and the same happens when the image is gone. -/
example : ∃ mv ls s, Bootable doneCfg [HAS_SOURCE ||| FETCHED] mv ∧ AllFetched [HAS_SOURCE ||| FETCHED] ∧
    Run doneCfg (Sys.boot doneCfg [HAS_SOURCE ||| FETCHED] (fun _ => zeros 512) mv fun _ _ => zeros 512) ls s ∧
    Run (doneCfg.withSource (fun _ => none) (fun _ => false) false)
      (Sys.boot (doneCfg.withSource (fun _ => none) (fun _ => false) false) [HAS_SOURCE ||| FETCHED] (fun _ => zeros 512) mv fun _ _ => zeros 512) ls s ∧
    visible ls = [.issue 0 7 (.read 0 1), .resp 0 7 true [some (zeros 512)]] := by
  obtain ⟨mv, hb⟩ := done_bootable
  have hf : AllFetched [HAS_SOURCE ||| FETCHED] := by
    intro h hh _
    simp only [List.mem_singleton] at hh
    subst hh
    decide
  have r : Reach doneCfg (Sys.boot doneCfg [HAS_SOURCE ||| FETCHED] (fun _ => zeros 512) mv fun _ _ => zeros 512) [] _ := ⟨[], .nil _, rfl⟩
  have r := r.quiet (Step.autofetch (c := doneCfg) (Sys.boot doneCfg [HAS_SOURCE ||| FETCHED] (fun _ => zeros 512) mv fun _ _ => zeros 512) 0 [] rfl rfl rfl)
  have st := Step.read (c := doneCfg)
    (handleFetch { Sys.boot doneCfg [HAS_SOURCE ||| FETCHED] (fun _ => zeros 512) mv fun _ _ => zeros 512 with
      fe := { (Sys.boot doneCfg [HAS_SOURCE ||| FETCHED] (fun _ => zeros 512) mv fun _ _ => zeros 512).fe with autoq := [] } } 0).1 0 7 0 1 true ⟨by decide, by decide, by decide⟩
    (fun _ _ h => by
      have : (Shared.load [HAS_SOURCE ||| FETCHED]).isLocal (0 / doneCfg.ss) = false := h
      exact absurd this (by decide)) ⟨rfl, rfl, (by intro r hr; cases hr), (by intro r hr; cases hr)⟩
  have r := r.step st
  have r := r.quiet (Step.execDataR (o := .guest 0 7) (x := 0) (off := 0) (cnt := 1) (got := fun _ => none) rfl ⟨Nat.le_refl _, by decide⟩)
  have r := r.step (Step.baseDone _ 0 7 true ⟨_, rfl, fun _ x hx => by
    have : x = 0 := by have : x < 0 + 1 := hx.2; omega
    subst this; simp [upd]⟩)
  obtain ⟨ls, h1, h2⟩ := r
  exact ⟨mv, ls, _, hb, hf, h1, (C107_any_source hb hf _ _ _).mp h1, h2⟩

/-- C107_replaced: both cases occur. -/
example : hasFetchedAll { Meta.new 6 3 0 with headers := [HAS_SOURCE ||| FETCHED, 0, WRITTEN] } = true ∧
    (∃ h ∈ ({ Meta.new 6 3 0 with headers := [HAS_SOURCE ||| FETCHED, HAS_SOURCE, 0] } : Meta).headers,
      flag h HAS_SOURCE = true ∧ flag h FETCHED = false) := ⟨by decide, HAS_SOURCE, by decide, by decide, by decide⟩

/-- C107_image_request: an image of 100 sectors in stripes of 64; the second stripe is cut short, the third is refused. -/
example : (deviceSource false 64 (some 100)).request 1 = some (64, 36) ∧ (deviceSource false 64 (some 100)).request 2 = none := by decide

/-- C107_null_answers, C107_null_reads. -/
example : (run [] [.read 3 1 [1, 2], .poll, .flush 4, .write 5, .poll]).2 = [(3, true), (4, true), (5, true)] ∧
    filled 1 (List.replicate 513 7) = List.replicate 512 0 ++ [7] := by decide +kernel

/-- C107_from_then_on: the demo volume starts with a stripe to fetch (`[4, 0]`), fetches it, and what is on its devices then is a
fully fetched volume. -/
example : ∃ mv s ls, Bootable demoCfg [4, 0] mv ∧ ¬AllFetched [4, 0] ∧ Run demoCfg (demoBoot mv) ls s ∧
    (∀ k, k < demoCfg.n → demoCfg.hs k = true → s.sh.isLocal k = true) ∧
    ∃ md, fromBytes (devBytes demoCfg.msec s.m.vol) = .ok md ∧ AllFetched md.headers := by
  obtain ⟨mv, hb⟩ := demo_bootable
  obtain ⟨s, ⟨ls, r, -⟩, h1, -⟩ := demo_run mv
  have hall : ∀ k, k < demoCfg.n → demoCfg.hs k = true → s.sh.isLocal k = true := by
    intro k _ hs
    have : k = 0 := by simp [demoCfg] at hs; omega
    subst this
    simp [Shared.isLocal, h1]
  obtain ⟨⟨⟨_, _, hb1, hm⟩, hf⟩, hfam⟩ := run_sim hb rfl r
  obtain ⟨gg, a, hpin, -, hsim⟩ := hfam.sim
  obtain ⟨md, g1, -, g2, -⟩ := C107_from_then_on hb r hall (.nil s) hsim.tinv.vol_pers hm.dev.vol_pers
  refine ⟨mv, s, ls, hb, fun h => ?_, r, hall, md, g1, g2⟩
  exact absurd (h 4 (by simp) (by decide)) (by decide)

end Verif.Lazy
