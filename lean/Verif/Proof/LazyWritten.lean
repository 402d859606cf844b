import Verif.Proof.LazyRun

/-! Written tracking (C08) and the order of waiting requests (C18). -/

set_option maxRecDepth 8000

namespace Verif.Lazy
open Verif Verif.Metadata Verif.Disk

variable {D : Type} {c : Cfg D}

theorem covers_stripes {r : QReq D} {x : Nat} (hx : covers r.off r.cnt x) : x / c.ss ∈ stripes c r := by
  unfold stripes firstStripe lastStripe
  obtain ⟨h1, h2⟩ := hx
  have h3 : r.off / c.ss ≤ x / c.ss := Nat.div_le_div_right h1
  have h4 : x / c.ss ≤ (r.off + r.cnt - 1) / c.ss := Nat.div_le_div_right (by omega)
  simp only [List.mem_map, List.mem_range]
  exact ⟨x / c.ss - r.off / c.ss, by omega, by omega⟩

theorem toBase_pers {s : Sys D} {q : Nat} {r : QReq D} {x : Nat} {v : D} (h : (toBase s q r).t.pers x v) :
    s.t.pers x v ∨ (r.out.isSome = true ∧ covers r.off r.cnt x) := by
  unfold toBase at h
  split at h
  · exact Or.inl h
  · rename_i data hd
    rcases h with h | ⟨h, -⟩
    · exact Or.inl h
    · exact Or.inr ⟨by rw [hd]; rfl, h⟩

/-- A guest step makes new contents possible only by handing a write to the data device. -/
def PersFrom (s s' : Sys D) (ls : List (Lab D)) : Prop :=
  ∀ x v, s'.t.pers x v → s.t.pers x v ∨ ∃ q r, Lab.toBase q r ∈ ls ∧ r.out.isSome = true ∧ covers r.off r.cnt x

theorem enqueueReq_t {s : Sys D} {q : Nat} {r : QReq D} {b : Bool} : (enqueueReq c s q r b).1.t = s.t := by
  unfold enqueueReq; split <;> rfl

theorem guest_pers {s s' : Sys D} {a : Act D} {ls : List (Lab D)} (h : Step c s a ls s') (hg : a.isGuest = true) :
    PersFrom s s' ls := by
  have tb : ∀ (s1 : Sys D) q r, s1.t = s.t → Lab.toBase q r ∈ ls → PersFrom s (toBase s1 q r) ls := by
    intro s1 q r ht hm x v hp
    rcases toBase_pers hp with h1 | ⟨h1, h2⟩
    · rw [ht] at h1; exact Or.inl h1
    · exact Or.inr ⟨q, r, hm, h1, h2⟩
  have same : ∀ s1 : Sys D, s1.t = s.t → PersFrom s s1 ls := by
    intro s1 ht x v hp
    rw [ht] at hp; exact Or.inl hp
  cases h with
  | read q id off cnt b hv _ hid =>
    unfold addRead at tb same ⊢
    simp only at tb same ⊢
    split
    · rename_i hst; rw [hst] at tb; exact tb _ _ _ rfl (by simp)
    · rename_i hst; rw [hst] at same; exact same _ rfl
    · rename_i hst; rw [hst] at same
      simp only at same
      split
      · rename_i hc; rw [if_pos hc] at same; exact same _ rfl
      · rename_i hc; rw [if_neg hc] at same; exact same _ enqueueReq_t
  | write q id off cnt data b hv hid =>
    unfold addWrite at tb same ⊢
    simp only at tb same ⊢
    split
    · rename_i hst; rw [hst] at same; exact same _ rfl
    · rename_i hst; rw [hst] at tb same
      simp only at tb same
      split
      · rename_i hc; rw [if_pos hc] at tb; exact tb _ _ _ rfl (by simp)
      · rename_i hc; rw [if_neg hc] at same; exact same _ enqueueReq_t
    · rename_i hst; rw [hst] at same; exact same _ enqueueReq_t
  | flush q id hid => intro x v hp; exact Or.inl hp
  | processQueue q b _ _ h =>
    unfold processQueue at h
    split at h
    · simp at h
    · split at h
      · simp at h
      · simp only [Option.some.injEq, Prod.mk.injEq] at h
        obtain ⟨rfl, -⟩ := h
        exact same _ rfl
      · split at h
        · simp at h
        · simp only at h
          split at h
          · simp only [Option.some.injEq, Prod.mk.injEq] at h
            obtain ⟨rfl, rfl⟩ := h
            exact tb _ _ _ rfl (by simp)
          · simp only [Option.some.injEq, Prod.mk.injEq] at h
            obtain ⟨rfl, -⟩ := h
            exact same _ rfl
  | reportFinished q id ok rest h => exact same _ rfl
  | baseDone q id ok h => intro x v hp; exact Or.inl hp.1
  | imageDone q id ok off cnt h => exact same _ rfl
  | _ => simp [Act.isGuest] at hg

/-- Sectors of stripes not marked as written still have their original content `o`. -/
structure WInv (c : Cfg D) (o : Nat → D) (s : Sys D) : Prop where
  pers : ∀ x v, c.dom x → s.sh.ws (x / c.ss) = false → settled s (x / c.ss) → s.t.pers x v → v = o x
  src : ∀ x, c.dom x → s.sh.ws (x / c.ss) = false → s.sh.isLocal (x / c.ss) = false → c.src x = some (o x)

theorem WInv.frame {o : Nat → D} {s s' : Sys D} (h : WInv c o s) (hw : ∀ k, s.sh.ws k = true → s'.sh.ws k = true)
    (hset : ∀ k, settled s' k → settled s k) (hl : ∀ k, s.sh.isLocal k = true → s'.sh.isLocal k = true)
    (hp : ∀ x v, s'.sh.ws (x / c.ss) = false → settled s' (x / c.ss) → s'.t.pers x v → s.t.pers x v) : WInv c o s' := by
  have hw' : ∀ k, s'.sh.ws k = false → s.sh.ws k = false := by
    intro k hk
    cases h1 : s.sh.ws k with
    | false => rfl
    | true => rw [hw k h1] at hk; simp at hk
  refine ⟨fun x v hd hws hst hpers => h.pers x v hd (hw' _ hws) (hset _ hst) (hp x v hws hst hpers), fun x hd hws hlo => h.src x hd (hw' _ hws) ?_⟩
  cases h1 : s.sh.isLocal (x / c.ss) with
  | false => rfl
  | true => rw [hl _ h1] at hlo; simp at hlo

theorem step_winv (ht : c.track = true) {o : Nat → D} {s s' : Sys D} {a : Act D} {ls : List (Lab D)} (hs : Sound c s) (hi : WInv c o s)
    (h : Step c s a ls s') : WInv c o s' := by
  have hmono := step_mono hs h
  have hlab := step_labOk hs h
  obtain ⟨gg, ab, hsim⟩ := hs.sim
  obtain ⟨⟨⟨hdrs, mv, hb, hm⟩, hf⟩, -⟩ := hs
  by_cases hg : a.isGuest = true
  · have hgf := guest_frame h hg
    refine hi.frame hmono.ws (fun k => by unfold settled; rw [hgf.sh, hgf.fe]; exact fun h => h) hmono.loc ?_
    intro x v hws hst hp
    rcases guest_pers h hg x v hp with h1 | ⟨q, r, h1, h2, h3⟩
    · exact h1
    · have := (hlab _ h1).2.2 ht h2 (x / c.ss) (covers_stripes h3)
      rw [hgf.sh, this] at hws
      simp at hws
  cases h with
  | execData o' x =>
    exact hi.frame hmono.ws (fun _ h => h) hmono.loc (fun x v _ _ hp => by simpa only [pers_exec] using hp)
  | receiveFetch k ms hms =>
    refine hi.frame hmono.ws (fun k' hk' => ?_) hmono.loc (fun x v _ _ hp => by rw [handleFetch_t] at hp; exact hp)
    exact handleFetch_settled (s := { s with msgs := ms }) hk'
  | autofetch k ks ha hq hk =>
    refine hi.frame hmono.ws (fun k' hk' => ?_) hmono.loc (fun x v _ _ hp => by rw [handleFetch_t] at hp; exact hp)
    exact handleFetch_settled (s := { s with fe := { s.fe with autoq := ks } }) hk'
  | startFetch b _ _ hst =>
    obtain ⟨hfr, htt, hset⟩ := startFetch_frame hf hst
    exact hi.frame hmono.ws hset hmono.loc (fun x v _ _ hp => by rwa [htt] at hp)
  | sourceDone k ok b g _ _ hst =>
    obtain ⟨hfr, hset, hsi, htt⟩ := sourceDone_frame hf hst
    refine hi.frame hmono.ws hset hmono.loc (fun x v hws hs' hp => ?_)
    rcases htt with htt | ⟨bu, htt⟩
    · rwa [htt] at hp
    · rw [htt] at hp
      rcases hp with hp | ⟨hcov, -⟩
      · exact hp
      · exfalso
        have hk0 := (hf.ok k).src hsi
        have hxk := ((dom_div hb.ss).1 hcov).1
        rw [hxk] at hs'
        rcases hset k hs' with h1 | h1
        · rw [hk0.1] at h1; simp at h1
        · rw [hk0.2.2.2.2] at h1; simp at h1
  | targetDone k ok b hmc =>
    obtain ⟨hfr, hcase⟩ := targetDone_frame (b := b) hf hmc
    rcases hcase with ⟨data, done, -, -, -, -, htt, hset⟩ | ⟨htt, hset⟩ | ⟨snap, rfl, hop, htt, hset⟩
    · exact hi.frame hmono.ws hset hmono.loc (fun x v _ _ hp => by rw [htt] at hp; exact hp.1)
    · exact hi.frame hmono.ws hset hmono.loc (fun x v _ _ hp => by rw [htt] at hp; exact hp.1)
    · have hk0 := (hf.ok k).busy (by rw [kinds_of_ops hop]; simp)
      refine ⟨fun x v hd hws hst hp => ?_, fun x hd hws hlo => ?_⟩
      · rw [htt] at hp
        rw [hfr.ws] at hws
        rcases hset _ hst with h1 | h1
        · exact hi.pers x v hd hws h1 hp.1
        · have hsrc := hi.src x hd hws (by rw [h1]; exact hk0.1)
          have h2 := hsim.fflush k snap hop x h1 hd.2
          rw [h2.2 v (hp.2 snap hop rfl), h2.1 _ hsrc]
      · rw [hfr.ws] at hws; rw [hfr.loc] at hlo; exact hi.src x hd hws hlo
  | startMeta b _ hst =>
    obtain ⟨h1, h2, h3, h4, h5⟩ := startMeta_frame hst
    exact hi.frame hmono.ws (fun k => by unfold settled; rw [h1, h5]; exact fun h => h) hmono.loc (fun x v _ _ hp => by rwa [h2] at hp)
  | metaDone k ok b hmc =>
    refine hi.frame hmono.ws ?_ hmono.loc (fun x v _ _ hp => by rwa [metaDone_t] at hp)
    rintro k' (hl | hl)
    · exact metaDone_local hm k ok b k' hl
    · rw [metaDone_fe] at hl; exact Or.inr hl
  | execMeta | receiveWritten | takeFinished | disconnect => exact hi.frame hmono.ws (fun _ h => h) hmono.loc (fun _ _ _ _ hp => hp)
  | _ => simp [Act.isGuest] at hg

theorem crash_ws {s : Sys D} (hs : Sound c s) {tv : Nat → D} {mv' : Nat → Bytes} {md : Meta} {b0 : Nat → Nat → D}
    (h2 : s.m.survives mv') (h3 : fromBytes (devBytes c.msec mv') = .ok md) {k : Nat} (hk : k < c.n) (hw : s.sh.ws k = true) :
    (Sys.boot c md.headers tv mv' b0).sh.ws k = true :=
  ((crash_hdrOk hs h2 h3).2 k hk).written hw

/-- Stripes outside the metadata have no written flag at all. -/
def WsBound (c : Cfg D) (s : Sys D) : Prop := ∀ k, s.sh.ws k = true → k < c.n

theorem step_wsBound {s s' : Sys D} {a : Act D} {ls : List (Lab D)} (hs : Sound c s) (hi : WsBound c s) (h : Step c s a ls s') :
    WsBound c s' := by
  obtain ⟨gg, ab, hsim⟩ := hs.sim
  obtain ⟨⟨⟨hdrs, mv, hb, hm⟩, hf⟩, -⟩ := hs
  by_cases hg : a.isGuest = true
  · unfold WsBound; rw [(guest_frame h hg).sh]; exact hi
  cases h with
  | receiveFetch k ms hms => unfold WsBound; rw [handleFetch_frame.ws]; exact hi
  | autofetch k ks ha hq h => unfold WsBound; rw [handleFetch_frame.ws]; exact hi
  | startFetch b _ _ h => unfold WsBound; rw [(startFetch_frame hf h).1.ws]; exact hi
  | sourceDone k ok b g _ _ h => unfold WsBound; rw [(sourceDone_frame hf h).1.ws]; exact hi
  | targetDone k ok b h => unfold WsBound; rw [(targetDone_frame hf h).1.ws]; exact hi
  | startMeta b _ h => unfold WsBound; rw [(startMeta_frame h).2.2.2.2]; exact hi
  | metaDone k ok b h =>
    intro k' hk'
    unfold metaDone at hk'
    simp only at hk'
    split at hk'
    · exact hi k' hk'
    · rename_i u hu
      split at hk'
      · split at hk'
        · split at hk' <;> exact hi k' hk'
        · simp only [Shared.setHeader] at hk'
          split at hk'
          · by_cases he : k' = k
            · subst he; exact (hm.upd k' u hu).kn
            · rw [upd_ne _ _ he] at hk'; exact hi k' hk'
          · exact hi k' hk'
      · exact hi k' hk'
  | execData | execMeta | receiveWritten | takeFinished | disconnect => exact hi
  | _ => simp [Act.isGuest] at hg

theorem WsBound.boot {hdrs : Bytes} {tv : Nat → D} {mv : Nat → Bytes} {b0 : Nat → Nat → D} (hb : Bootable c hdrs mv) :
    WsBound c (Sys.boot c hdrs tv mv b0) := by
  intro k hk
  refine Nat.lt_of_not_le fun hn => ?_
  have : hdrs.getD k 0 = 0 := by
    rw [List.getD_eq_getElem?_getD, List.getElem?_eq_none (by have := hb.len; omega)]; rfl
  have hk' : flag (hdrs.getD k 0) WRITTEN = true := hk
  rw [this] at hk'
  exact absurd hk' (by decide)

theorem WInv.boot {hdrs : Bytes} {tv : Nat → D} {mv : Nat → Bytes} {b0 : Nat → Nat → D} (hb : Bootable c hdrs mv) :
    WInv c (preload c hdrs tv) (Sys.boot c hdrs tv mv b0) := by
  refine ⟨fun x v hd _ hst hp => ?_, fun x hd _ hl => ?_⟩
  · have hv : v = tv x := hp
    have hl : (Sys.boot c hdrs tv mv b0).sh.isLocal (x / c.ss) = true := by
      rcases hst with h | h
      · exact h
      · simp [Sys.boot] at h
    rw [boot_isLocal] at hl
    unfold preload preloadWith
    simp only
    rw [if_neg (by revert hl; cases flag (hdrs.getD (x / c.ss) 0) HAS_SOURCE <;> cases flag (hdrs.getD (x / c.ss) 0) FETCHED <;> simp)]
    exact hv
  · rw [boot_isLocal] at hl
    simp only [Bool.or_eq_false_iff, Bool.not_eq_false'] at hl
    have hg := hd.1
    unfold Cfg.good at hg
    rw [hb.hs, hl.1] at hg
    simp only [Bool.not_true, Bool.false_or] at hg
    obtain ⟨y, hy⟩ := Option.isSome_iff_exists.mp hg
    unfold preload preloadWith
    simp only [hl.1, hl.2, hy]
    simp

/-- What a restart finds: original content wherever the loaded flags say "not written". -/
theorem crash_original {o : Nat → D} {s : Sys D} (hs : Sound c s) (hi : WInv c o s) (hwb : WsBound c s) {tv : Nat → D} {mv' : Nat → Bytes} {md : Meta}
    (h1 : s.t.survives tv) (h2 : s.m.survives mv') (h3 : fromBytes (devBytes c.msec mv') = .ok md) {x : Nat} (hd : c.dom x)
    (hw : flag (md.headers.getD (x / c.ss) 0) WRITTEN = false) :
    s.sh.ws (x / c.ss) = false ∧
    ((s.sh.isLocal (x / c.ss) = true ∨ flag (md.headers.getD (x / c.ss) 0) FETCHED = true) → tv x = o x) ∧
    preload c md.headers tv x = o x := by
  obtain ⟨g1, g2⟩ := crash_hdrOk hs h2 h3
  have hws : s.sh.ws (x / c.ss) = false := by
    cases hq : s.sh.ws (x / c.ss) with
    | false => rfl
    | true =>
      have := (g2 _ (hwb _ hq)).written hq
      rw [hw] at this; simp at this
  obtain ⟨gg, ab, hsim⟩ := hs.sim
  have hset : (s.sh.isLocal (x / c.ss) = true ∨ flag (md.headers.getD (x / c.ss) 0) FETCHED = true) → settled s (x / c.ss) := by
    rintro (h | h)
    · exact Or.inl h
    · by_cases hk : x / c.ss < c.n
      · exact (g2 _ hk).settled h
      · have : md.headers.getD (x / c.ss) 0 = 0 := by
          rw [List.getD_eq_getElem?_getD, List.getElem?_eq_none (by have := g1.len; omega)]; rfl
        rw [this] at h; exact absurd h (by decide)
  have hloc := fun h => hi.pers x (tv x) hd hws (hset h) (h1 x)
  refine ⟨hws, hloc, ?_⟩
  unfold preload preloadWith
  simp only
  split
  · rename_i hc
    simp only [Bool.and_eq_true, Bool.not_eq_true'] at hc
    by_cases hl : s.sh.isLocal (x / c.ss) = true
    · exfalso
      by_cases hk : x / c.ss < c.n
      · have hok := g2 _ hk
        simp only [Shared.isLocal, Bool.or_eq_true, decide_eq_true_eq] at hl
        rcases hl with hl | hl
        · rw [hok.fetched hl] at hc; simp at hc
        · have := (hsim.nosrc _).1 hl
          rw [← hok.src, hc.1] at this; simp at this
      · have : md.headers.getD (x / c.ss) 0 = 0 := by
          rw [List.getD_eq_getElem?_getD, List.getElem?_eq_none (by have := g1.len; omega)]; rfl
        rw [this] at hc; exact absurd hc.1 (by decide)
    · rw [hi.src x hd hws (by simpa using hl)]; rfl
  · rename_i hc
    apply hloc
    cases hf : flag (md.headers.getD (x / c.ss) 0) FETCHED with
    | true => exact Or.inr rfl
    | false =>
      left
      apply (hsim.nosrc _).2
      rw [g1.hs]
      rw [hf] at hc
      simpa using hc

theorem crash_winv {o : Nat → D} {s : Sys D} (hs : Sound c s) (hi : WInv c o s) (hwb : WsBound c s) {tv : Nat → D} {mv' : Nat → Bytes} {md : Meta} {b0 : Nat → Nat → D}
    (h1 : s.t.survives tv) (h2 : s.m.survives mv') (h3 : fromBytes (devBytes c.msec mv') = .ok md) :
    WInv c o (Sys.boot c md.headers tv mv' b0) := by
  obtain ⟨g1, g2⟩ := crash_hdrOk hs h2 h3
  have hb := WInv.boot (tv := tv) (b0 := b0) g1
  refine ⟨fun x v hd hws hst hp => ?_, fun x hd hws hl => ?_⟩
  · rw [hb.pers x v hd hws hst hp]
    exact (crash_original hs hi hwb h1 h2 h3 hd hws).2.2
  · rw [hb.src x hd hws hl]
    rw [(crash_original hs hi hwb h1 h2 h3 hd hws).2.2]

theorem Run.winv (ht : c.track = true) {hdrs : Bytes} {tv : Nat → D} {mv : Nat → Bytes} {b0 : Nat → Nat → D} {s : Sys D} {ls : List (Lab D)}
    (hb : Bootable c hdrs mv) (h : Run c (Sys.boot c hdrs tv mv b0) ls s) : WInv c (preload c hdrs tv) s ∧ WsBound c s :=
  h.preserve (P := fun s => WInv c (preload c hdrs tv) s ∧ WsBound c s) (.boot hb)
    (fun _ _ _ _ h1 h2 h3 => ⟨step_winv ht h1 h2.1 h3, step_wsBound h1 h2.2 h3⟩)
    (fun _ _ _ _ _ h1 h2 h3 h4 h5 => ⟨crash_winv h1 h2.1 h2.2 h3 h4 h5, .boot (crash_hdrOk h1 h4 h5).1⟩) ⟨.boot hb, .boot hb⟩

/-! ### Order of waiting requests -/

/-- Requests of queue `q` that started / stopped waiting, in order. -/
def waits (q : Nat) (ls : List (Lab D)) : List Nat :=
  ls.filterMap fun | .wait q' id => if q' = q then some id else none | _ => none
def unwaits (q : Nat) (ls : List (Lab D)) : List Nat :=
  ls.filterMap fun | .unwait q' id => if q' = q then some id else none | _ => none

def queueIds (s : Sys D) (q : Nat) : List Nat := (s.ch q).queue.map QReq.id

def Fifo (s s' : Sys D) (ls : List (Lab D)) : Prop := ∀ q, queueIds s q ++ waits q ls = unwaits q ls ++ queueIds s' q

theorem Fifo.same {s s' : Sys D} {ls : List (Lab D)} (h : ∀ q, (s'.ch q).queue = (s.ch q).queue) (hl : ∀ q, waits q ls = [] ∧ unwaits q ls = []) :
    Fifo s s' ls := by
  intro q
  rw [(hl q).1, (hl q).2]
  simp [queueIds, h]

theorem setCh_queue {s : Sys D} {q q' : Nat} {f : Chan D → Chan D} (h : ∀ ch, (f ch).queue = ch.queue) :
    ((s.setCh q f).ch q').queue = (s.ch q').queue := by
  unfold Sys.setCh
  by_cases he : q' = q
  · subst he; simp [h]
  · simp [upd_ne _ _ he]

macro "chq" : tactic => `(tactic| (intro q'; simp only [finishFalse, Sys.setCh, upd]; split <;> simp_all))

theorem toBase_ch {s : Sys D} {q : Nat} {r : QReq D} : (toBase s q r).ch = s.ch := (@toBase_frame D s q r).2.2.2.2.2

theorem enqueueReq_fifo {s : Sys D} {q : Nat} {r : QReq D} {b : Bool} : Fifo s (enqueueReq c s q r b).1 (enqueueReq c s q r b).2 := by
  unfold enqueueReq
  split
  · intro q'
    simp only [queueIds, Sys.setCh]
    by_cases he : q' = q
    · subst he; simp [waits, unwaits]
    · simp [waits, unwaits, upd_ne _ _ he, Ne.symm he]
  · exact .same (by chq) (fun _ => ⟨rfl, rfl⟩)

theorem Fifo.ev {s s' : Sys D} {ls : List (Lab D)} {e : Ev D} (h : Fifo s s' ls) : Fifo s s' (.ev e :: ls) := by
  intro q; have := h q; simpa [waits, unwaits] using this

theorem step_fifo {s s' : Sys D} {a : Act D} {ls : List (Lab D)} (hs : Sound c s) (h : Step c s a ls s') : Fifo s s' ls := by
  have hf := hs.1.fetch
  have nolab : ∀ ls : List (Lab D), (∀ l ∈ ls, (∀ q id, l ≠ .wait q id) ∧ ∀ q id, l ≠ .unwait q id) → ∀ q, waits q ls = [] ∧ unwaits q ls = [] := by
    intro ls h q
    constructor <;>
    · simp only [waits, unwaits, List.filterMap_eq_nil_iff]
      intro l hl
      have := h l hl
      split
      · rename_i q' id; first | exact absurd rfl (this.1 q' id) | exact absurd rfl (this.2 q' id)
      · rfl
  have hfc : ∀ (s : Sys D) k ok, ∀ l ∈ (fetchCompleted s k ok).2, (∀ q id, l ≠ .wait q id) ∧ ∀ q id, l ≠ .unwait q id := by
    intro s k ok
    unfold fetchCompleted
    simp only
    split
    · simp
    · split <;> simp
  have hhf : ∀ (s : Sys D) k, ∀ l ∈ (handleFetch s k).2, (∀ q id, l ≠ .wait q id) ∧ ∀ q id, l ≠ .unwait q id := by
    intro s k
    unfold handleFetch
    split
    · simp
    · split <;> simp
  cases h with
  | read q id off cnt b hv hg hid =>
    apply Fifo.ev
    unfold addRead
    simp only
    split
    · exact .same (fun q' => by rw [toBase_ch]) (nolab _ (by simp))
    · exact .same (by chq) (nolab _ (by simp))
    · split
      · exact .same (by chq) (nolab _ (by simp))
      · exact enqueueReq_fifo
  | write q id off cnt data b hv hid =>
    apply Fifo.ev
    unfold addWrite
    simp only
    split
    · exact .same (by chq) (nolab _ (by simp))
    · split
      · exact .same (fun q' => by rw [toBase_ch]) (nolab _ (by simp))
      · exact enqueueReq_fifo
    · exact enqueueReq_fifo
  | processQueue q b _ _ h =>
    unfold processQueue at h
    split at h
    · simp at h
    · rename_i r rest hq
      have key : ∀ s'' ls', (s''.ch q).queue = rest → (∀ q', q' ≠ q → (s''.ch q').queue = (s.ch q').queue) →
          (∀ l ∈ ls', (∀ q id, l ≠ .wait q id) ∧ ∀ q id, l ≠ .unwait q id) → Fifo s s'' (.unwait q r.id :: ls') := by
        intro s'' ls' h1 h2 h3 q'
        have h4 := nolab ls' h3 q'
        by_cases he : q' = q
        · subst he
          simp only [queueIds, hq, h1]
          have e1 : waits q' (Lab.unwait q' r.id :: ls') = waits q' ls' := rfl
          have e2 : unwaits q' (Lab.unwait q' r.id :: ls') = r.id :: unwaits q' ls' := by simp [unwaits]
          rw [e1, e2, h4.1, h4.2]; simp
        · simp only [queueIds, h2 q' he]
          have e1 : waits q' (Lab.unwait q r.id :: ls') = waits q' ls' := rfl
          have e2 : unwaits q' (Lab.unwait q r.id :: ls') = unwaits q' ls' := by simp [unwaits, Ne.symm he]
          rw [e1, e2, h4.1, h4.2]; simp
      split at h
      · simp at h
      · simp only [Option.some.injEq, Prod.mk.injEq] at h
        obtain ⟨rfl, rfl⟩ := h
        exact key _ _ (by simp [finishFalse, Sys.setCh]) (fun q' he => by simp [finishFalse, Sys.setCh, upd_ne _ _ he]) (by simp)
      · split at h
        · simp at h
        · simp only at h
          split at h
          · simp only [Option.some.injEq, Prod.mk.injEq] at h
            obtain ⟨rfl, rfl⟩ := h
            exact key _ _ (by rw [toBase_ch]; simp [Sys.setCh]) (fun q' he => by rw [toBase_ch]; simp [Sys.setCh, upd_ne _ _ he]) (by simp)
          · simp only [Option.some.injEq, Prod.mk.injEq] at h
            obtain ⟨rfl, rfl⟩ := h
            exact key _ _ (by simp [finishFalse, Sys.setCh]) (fun q' he => by simp [finishFalse, Sys.setCh, upd_ne _ _ he]) (by simp)
  | flush q id hid => exact .same (fun _ => rfl) (nolab _ (by simp))
  | reportFinished q id ok rest h => exact .same (by chq) (nolab _ (by simp))
  | baseDone q id ok h => exact .same (fun _ => rfl) (nolab _ (by simp))
  | imageDone q id ok off cnt h => exact .same (by chq) (nolab _ (by simp))
  | receiveFetch k ms hms => exact .same (fun q => by rw [handleFetch_frame.ch]) (nolab _ (hhf _ _))
  | autofetch k ks ha hq h => exact .same (fun q => by rw [handleFetch_frame.ch]) (nolab _ (hhf _ _))
  | startFetch b _ _ h =>
    refine .same (fun q => by rw [(startFetch_frame hf h).1.ch]) (nolab _ ?_)
    unfold startFetch at h
    split at h
    · simp only at h
      split at h
      · simp only [Option.some.injEq, Prod.mk.injEq] at h
        obtain ⟨-, rfl⟩ := h
        simp
      · simp only [Option.some.injEq, Prod.mk.injEq] at h
        obtain ⟨-, rfl⟩ := h
        intro l hl
        rcases List.mem_cons.mp hl with rfl | hl
        · simp
        · exact hfc _ _ _ l hl
    · simp at h
  | sourceDone k ok b g _ _ h =>
    refine .same (fun q => by rw [(sourceDone_frame hf h).1.ch]) (nolab _ ?_)
    unfold sourceDone at h
    split at h
    · simp only at h
      split at h
      · simp only [Option.some.injEq, Prod.mk.injEq] at h
        obtain ⟨-, rfl⟩ := h
        simp
      · split at h
        · split at h
          · simp only [Option.some.injEq, Prod.mk.injEq] at h
            obtain ⟨-, rfl⟩ := h
            simp
          · simp only [Option.some.injEq] at h
            have h2 := (Prod.ext_iff.mp h).2
            simp only at h2
            rw [← h2]; exact hfc _ _ _
        · simp only [Option.some.injEq] at h
          have h2 := (Prod.ext_iff.mp h).2
          simp only at h2
          rw [← h2]; exact hfc _ _ _
    · simp at h
  | targetDone k ok b h =>
    refine .same (fun q => by rw [(targetDone_frame hf h).1.ch]) (nolab _ ?_)
    unfold targetDone
    simp only
    split
    · split
      · split
        · simp
        · exact hfc _ _ _
      · exact hfc _ _ _
      · simp
    · exact hfc _ _ _
  | startMeta b _ h => exact .same (fun q => by rw [(startMeta_frame h).2.2.1]) (fun _ => ⟨rfl, rfl⟩)
  | metaDone k ok b h => exact .same (fun q => by rw [metaDone_ch]) (fun _ => ⟨rfl, rfl⟩)
  | execData | execMeta | receiveWritten | takeFinished | disconnect => exact .same (fun _ => rfl) (fun _ => ⟨rfl, rfl⟩)

theorem Run.fifo {s s' : Sys D} {ls : List (Lab D)} (h : Run c s ls s') (hs : Sound c s) (hc : Lab.ev .crash ∉ ls) : Fifo s s' ls := by
  induction h with
  | nil => intro q; simp [waits, unwaits]
  | @step _ _ l1 l2 _ h hst ih =>
    have h1 := ih (fun hm => hc (by simp [hm]))
    have h2 := step_fifo (hs.run h) hst
    intro q
    have e1 : waits q (l1 ++ l2) = waits q l1 ++ waits q l2 := by simp [waits]
    have e2 : unwaits q (l1 ++ l2) = unwaits q l1 ++ unwaits q l2 := by simp [unwaits]
    rw [e1, e2, ← List.append_assoc, h1 q, List.append_assoc, h2 q, List.append_assoc]
  | crash => exact absurd (by simp) hc

end Verif.Lazy
