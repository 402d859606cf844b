import Verif.Model.Reconfig
import Verif.Proof.LazyKill
import Verif.Proof.LazyAck

/-! Settings changed between two starts: what is known of a state does not depend on them. -/

set_option maxRecDepth 8000

namespace Verif.Lazy
open Verif Verif.Metadata Verif.Disk

variable {D : Type} {c c' c0 : Cfg D} {ok : Cfg D → Prop}

/-- The new configuration is the old one with other settings. -/
theorem SameVolume.eq (h : SameVolume c c') :
    c' = { c with srcHas := c'.srcHas, srcStripes := c'.srcStripes, image := c'.image, track := c'.track, autofetch := c'.autofetch } := by
  obtain ⟨h1, h2, h3, h4, h5, h6, h7, -⟩ := h
  cases c; cases c'
  simp_all

theorem Sim.change {g : Nat → D} {s : Sys D} {a : Disk D} {ex} (hv : SameVolume c c') (h : Sim c g s a ex) : Sim c' g s a ex := by
  rw [hv.eq]
  exact ⟨h.tinv, h.ainv, h.nosrc, h.vol, h.pers, h.src, h.stable, h.fwrite, h.fflush, h.gop, h.queue, h.fin, h.img, h.one, h.free, h.exf⟩

theorem Family.change {s : Sys D} {P : (Nat → D) → Disk D → Prop} (hv : SameVolume c c') (h : Family c s P) : Family c' s P := by
  obtain ⟨h0, h⟩ := h
  refine ⟨h0, fun g hg => ?_⟩
  obtain ⟨a, h1, h2⟩ := h g (by rw [hv.eq] at hg; exact hg)
  exact ⟨a, h1, h2.change hv⟩

theorem Bootable.change {hdrs : Bytes} {mv : Nat → Bytes} (hv : SameVolume c c') (h : Bootable c hdrs mv) : Bootable c' hdrs mv := by
  have := hv.srcStripes
  rw [hv.eq] at this ⊢
  exact ⟨h.ss, h.load, h.len, h.sectors, h.hs, this⟩

theorem MetaInv.change {mv : Nat → Bytes} {s : Sys D} (hv : SameVolume c c') (h : MetaInv c mv s) : MetaInv c' mv s := by
  rw [hv.eq]
  have hh : ∀ {k u}, HdrOk c s k u → HdrOk { c with srcHas := c'.srcHas, srcStripes := c'.srcStripes, image := c'.image, track := c'.track, autofetch := c'.autofetch } s k u :=
    fun h => ⟨h.src, h.fetched, h.written, h.settled⟩
  exact ⟨h.len, fun k hk => hh (h.hdr k hk), fun x v hp => ⟨(h.pers x v hp).len, (h.pers x v hp).valid, fun k hk hx => hh ((h.pers x v hp).hdr k hk hx),
    (h.pers x v hp).other⟩, fun k u hu => ⟨(h.upd k u hu).kn, (h.upd k u hu).sector, (h.upd k u hu).busy, (h.upd k u hu).header, (h.upd k u hu).mask,
    (h.upd k u hu).set, (h.upd k u hu).stage⟩, h.noupd, h.uniq, h.queue, h.dev⟩

theorem FetchInv.change {s : Sys D} (hv : SameVolume c c') (h : FetchInv c s) : FetchInv c' s := by
  rw [hv.eq]
  exact ⟨h.ok, h.nodup, h.fin, h.bound, h.mbound, h.wbound, h.abound⟩

theorem SafeInv.change {s : Sys D} {P : (Nat → D) → Disk D → Prop} {d : Bool} (hv : SameVolume c c') (h : SafeInv c s P d) : SafeInv c' s P d := by
  obtain ⟨p, ⟨⟨hd, mv, hb, hm⟩, hf⟩, hfam, hp⟩ := h
  exact ⟨p, ⟨⟨hd, mv, hb.change hv, hm.change hv⟩, hf.change hv⟩, hfam.change hv, hp⟩

theorem SafeInv.crash {s : Sys D} {P P' : (Nat → D) → Disk D → Prop} {tv : Nat → D} {mv : Nat → Bytes} {md : Meta} (h : SafeInv c s P false)
    (ht : s.t.survives tv) (hm' : s.m.survives mv) (hld : fromBytes (devBytes c.msec mv) = .ok md) (b0 : Nat → Nat → D)
    (hP : ∀ g a v, P g a → a.survives v → P' g (Dev.fresh v)) : SafeInv c (Sys.boot c md.headers tv mv b0) P' false := by
  obtain ⟨p, ⟨⟨hd', mv', hb', hm⟩, hf⟩, hsim, hp⟩ := h
  rcases hp with hp | ⟨hp, -⟩
  · obtain ⟨h1, h3⟩ := (hsim.wp p).crash (P' := P') hb' hm ht (fun x => hp x _ (hm' x)) hld b0 hP
    exact ⟨fun x v => v = _, ⟨⟨_, _, h1, boot_meta h1⟩, boot_fetch h1⟩, h3, .inl fun _ _ h => h⟩
  · simp at hp

theorem SafeInv.kill {s : Sys D} {P P' : (Nat → D) → Disk D → Prop} {md : Meta} {d : Bool} (h : SafeInv c s P d)
    (hld : fromBytes (devBytes c.msec s.m.vol) = .ok md) (b0 : Nat → Nat → D) (hP : ∀ g a, P g a → P' g (Disk.kill a)) :
    SafeInv c (s.restart c md.headers b0) P' true ∧ (s.metaClean → SafeInv c (s.restart c md.headers b0) P' false) := by
  obtain ⟨p, ⟨⟨hd', mv', hb', hm⟩, hf⟩, hsim, hp⟩ := h
  obtain ⟨h1, h2⟩ := (hsim.wp p).kill (P' := P') hb' hm hld b0 hP
  refine ⟨⟨_, kill_good (s := _) h1 b0, h2.wp _, .inr ⟨rfl, ?_⟩⟩, fun hcl => ⟨_, kill_good (s := _) h1 b0, h2.wp _, .inl hcl⟩⟩
  intro k sn h; cases h

theorem conf_sim {hdrs : Bytes} {tv : Nat → D} {mv : Nat → Bytes} {b0 : Nat → Nat → D} {s0 s : Sys D}
    {es : List (Option (Ev D))} {d : Bool} (hb : Bootable c0 hdrs mv) (hs0 : s0 = Sys.boot c0 hdrs tv mv b0)
    (h : ConfRun ok c0 s0 es c s d) :
    SafeInv c s (fun g a => Disk.KRun (Dev.fresh (preloadWith c0 g hdrs tv)) es a) d ∧ 0 < c.ss := by
  subst hs0
  induction h with
  | nil => exact ⟨safe_sim hb rfl (.nil _), hb.ss⟩
  | step _ hst ih => exact ⟨(ih.1.step ih.2 hst fun _ _ _ hr h1 => Disk.Run.toK hr h1).1, ih.2⟩
  | flush _ hst hfl ih => exact ⟨(ih.1.step ih.2 hst fun _ _ _ hr h1 => Disk.Run.toK hr h1).2 hfl, ih.2⟩
  | crash b0' _ hv _ ht hm hld ih =>
    exact ⟨(ih.1.change hv).crash ht hm hld b0' fun g a v hr h2 => Disk.Run.toK (es' := [.crash]) hr (.snoc (.nil _) (.crash a v h2)),
      by rw [hv.ss]; exact ih.2⟩
  | kill b0' _ hv _ hld ih => exact ⟨((ih.1.change hv).kill hld b0' fun g a hr => hr.kill).1, by rw [hv.ss]; exact ih.2⟩
  | cleanKill b0' _ hv _ hld hcl ih =>
    exact ⟨((ih.1.change hv).kill hld b0' fun g a hr => hr.kill).2 hcl, by rw [hv.ss]; exact ih.2⟩

/-! ### Written tracking -/

theorem WInv.change {o : Nat → D} {s : Sys D} (hv : SameVolume c c') (h : WInv c o s) : WInv c' o s := by
  rw [hv.eq]
  exact ⟨h.pers, h.src⟩

theorem SafeInv.sound {s : Sys D} {P : (Nat → D) → Disk D → Prop} {d : Bool} (h : SafeInv c s P d) : ∃ p, Sound c (s.wp p) := by
  obtain ⟨p, hg, hfam, -⟩ := h
  exact ⟨p, hg, (hfam.wp p).mono fun _ _ _ => trivial⟩

/-- In a safe state the set of surviving metadata contents need not be changed. -/
theorem SafeInv.survives {s : Sys D} {P : (Nat → D) → Disk D → Prop} (h : SafeInv c s P false) :
    ∃ p, Sound c (s.wp p) ∧ ∀ x v, s.m.pers x v → p x v := by
  obtain ⟨p, hg, hfam, hp⟩ := h
  rcases hp with hp | ⟨hp, -⟩
  · exact ⟨p, ⟨hg, (hfam.wp p).mono fun _ _ _ => trivial⟩, hp⟩
  · cases hp

theorem WInv.wp {o : Nat → D} {s : Sys D} {p} : WInv c o (s.wp p) ↔ WInv c o s := ⟨fun h => ⟨h.pers, h.src⟩, fun h => ⟨h.pers, h.src⟩⟩

theorem kill_winv {o : Nat → D} {s : Sys D} {p} (hs : Sound c (s.wp p)) (hi : WInv c o s) (hwb : WsBound c s) {md : Meta} {b0 : Nat → Nat → D}
    (h3 : fromBytes (devBytes c.msec s.m.vol) = .ok md) :
    WInv c o (s.restart c md.headers b0) ∧ WsBound c (s.restart c md.headers b0) := by
  obtain ⟨⟨⟨_, _, hb, hm⟩, -⟩, -⟩ := id hs
  obtain ⟨g1, g2⟩ := crash_hdrOk hs (mv' := s.m.vol) hm.dev.vol_pers h3
  obtain ⟨gg, ab, hsim⟩ := hs.sim
  have hloc : ∀ k, (s.restart c md.headers b0).sh.isLocal k =
      (!flag (md.headers.getD k 0) HAS_SOURCE || flag (md.headers.getD k 0) FETCHED) := fun k =>
    boot_isLocal (c := c) (hdrs := md.headers) (tv := s.t.vol) (mv := s.m.vol) (b0 := b0) (k := k)
  have hws : ∀ k, (s.restart c md.headers b0).sh.ws k = false → s.sh.ws k = false := by
    intro k hk
    cases hq : s.sh.ws k with
    | false => rfl
    | true =>
      have : flag (md.headers.getD k 0) WRITTEN = true := (g2 k (hwb k hq)).written hq
      have hk' : flag (md.headers.getD k 0) WRITTEN = false := hk
      rw [this] at hk'; cases hk'
  have hout : ∀ k, ¬ k < c.n → md.headers.getD k 0 = 0 := by
    intro k hk
    rw [List.getD_eq_getElem?_getD, List.getElem?_eq_none (by have := g1.len; omega)]; rfl
  refine ⟨⟨fun x v hd hw hst hp => hi.pers x v hd (hws _ hw) ?_ hp, fun x hd hw hl => hi.src x hd (hws _ hw) ?_⟩, ?_⟩
  · have hl : (s.restart c md.headers b0).sh.isLocal (x / c.ss) = true := by
      rcases hst with h | h
      · exact h
      · simp [Sys.restart, Sys.boot] at h
    rw [hloc] at hl
    by_cases hk : x / c.ss < c.n
    · have hok := g2 _ hk
      cases hf : flag (md.headers.getD (x / c.ss) 0) FETCHED with
      | true => exact hok.settled hf
      | false =>
        left
        rw [hf] at hl
        exact (hsim.nosrc _).2 (by rw [← hok.src]; simpa using hl)
    · left
      refine (hsim.nosrc _).2 ?_
      rw [g1.hs, hout _ hk]; rfl
  · rw [hloc] at hl
    cases hl0 : s.sh.isLocal (x / c.ss) with
    | false => rfl
    | true =>
      exfalso
      by_cases hk : x / c.ss < c.n
      · have hok := g2 _ hk
        simp only [Shared.isLocal, Bool.or_eq_true, decide_eq_true_eq] at hl0
        rcases hl0 with h1 | h1
        · rw [hok.fetched h1] at hl; simp at hl
        · have := (hsim.nosrc _).1 h1
          rw [← hok.src] at this
          rw [this] at hl; simp at hl
      · rw [hout _ hk] at hl; exact absurd hl (by decide)
  · exact WsBound.boot (tv := s.t.vol) (b0 := b0) g1

theorem conf_winv {hdrs : Bytes} {tv : Nat → D} {mv : Nat → Bytes} {b0 : Nat → Nat → D} {s0 s : Sys D}
    {es : List (Option (Ev D))} {d : Bool} (hok : ∀ c, ok c → c.track = true) (hb : Bootable c0 hdrs mv) (hs0 : s0 = Sys.boot c0 hdrs tv mv b0)
    (h : ConfRun ok c0 s0 es c s d) : WInv c (preload c0 hdrs tv) s ∧ WsBound c s ∧ c.track = true := by
  have hst : ∀ {c : Cfg D} {s s' : Sys D} {es : List (Option (Ev D))} {d : Bool} {a : Act D} {ls : List (Lab D)}, ConfRun ok c0 s0 es c s d → Step c s a ls s' →
      WInv c (preload c0 hdrs tv) s ∧ WsBound c s ∧ c.track = true → WInv c (preload c0 hdrs tv) s' ∧ WsBound c s' ∧ c.track = true := by
    intro c s s' es d a ls hr hst ⟨h1, h2, h3⟩
    obtain ⟨p, hs⟩ := (conf_sim hb hs0 hr).1.sound
    obtain ⟨⟨_, _, _, hm⟩, -⟩ := hs.1
    obtain ⟨p', hst', -⟩ := step_wp p hm hst
    exact ⟨WInv.wp.mp (step_winv h3 hs (WInv.wp.mpr h1) hst'), step_wsBound (s' := s'.wp p') hs h2 hst', h3⟩
  induction h with
  | nil h => subst hs0; exact ⟨.boot hb, .boot hb, hok _ h⟩
  | step hr hs ih => exact hst hr hs ih
  | flush hr hs _ ih => exact hst hr hs ih
  | crash b0' hr hv ho ht hm hld ih =>
    obtain ⟨p, hs, hp⟩ := ((conf_sim hb hs0 hr).1.change hv).survives
    exact ⟨crash_winv hs (WInv.wp.mpr (ih.1.change hv)) (fun k hk => by rw [hv.n]; exact ih.2.1 k hk) ht (fun x => hp x _ (hm x)) hld,
      .boot (crash_hdrOk hs (fun x => hp x _ (hm x)) hld).1, hok _ ho⟩
  | kill b0' hr hv ho hld ih =>
    obtain ⟨p, hs⟩ := ((conf_sim hb hs0 hr).1.change hv).sound
    obtain ⟨h1, h2⟩ := kill_winv (b0 := b0') hs (ih.1.change hv) (fun k hk => by rw [hv.n]; exact ih.2.1 k hk) hld
    exact ⟨h1, h2, hok _ ho⟩
  | cleanKill b0' hr hv ho hld hcl ih =>
    obtain ⟨p, hs⟩ := ((conf_sim hb hs0 hr).1.change hv).sound
    obtain ⟨h1, h2⟩ := kill_winv (b0 := b0') hs (ih.1.change hv) (fun k hk => by rw [hv.n]; exact ih.2.1 k hk) hld
    exact ⟨h1, h2, hok _ ho⟩

/-! ### Without the source -/

/-- Nothing is being fetched, nothing is read from the image, and only the stripes that were local at the start are. -/
structure Det (c : Cfg D) (loc : Nat → Bool) (s : Sys D) : Prop where
  loc : ∀ k, s.sh.isLocal k = true → loc k = true
  st : ∀ k, s.fe.states k = none ∨ s.fe.states k = some .queued
  img : ∀ q id, (s.ch q).img id = none

theorem Det.settled {loc : Nat → Bool} {s : Sys D} (h : Det c loc s) {k : Nat} (hs : Lazy.settled s k) : loc k = true := by
  rcases hs with hs | hs
  · exact h.loc k hs
  · rcases h.st k with h1 | h1 <;> rw [h1] at hs <;> cases hs

theorem Det.boot {hdrs : Bytes} {tv : Nat → D} {mv : Nat → Bytes} {b0 : Nat → Nat → D} :
    Det c (Shared.load hdrs).isLocal (Sys.boot c hdrs tv mv b0) := ⟨fun _ h => h, fun _ => .inl rfl, fun _ _ => rfl⟩

theorem fetchCompleted_st {s : Sys D} {k : Nat} (k' : Nat) : (fetchCompleted s k false).1.fe.states k' = s.fe.states k' ∨
    (fetchCompleted s k false).1.fe.states k' = none ∨ (fetchCompleted s k false).1.fe.states k' = some .queued := by
  have hr : (s.fe.release k).states = s.fe.states := by unfold Fetcher.release; split <;> rfl
  unfold fetchCompleted
  simp only [Bool.false_eq_true, if_false]
  split
  · by_cases h : k' = k
    · subst h; right; right; simp
    · left; simp [upd_ne _ _ h, hr]
  · by_cases h : k' = k
    · subst h; right; left; simp
    · left; simp [upd_ne _ _ h, hr]

theorem handleFetch_st {s : Sys D} {k : Nat} (k' : Nat) : (handleFetch s k).1.fe.states k' = s.fe.states k' ∨
    (handleFetch s k).1.fe.states k' = some .queued := by
  unfold handleFetch
  split
  · exact .inl rfl
  · split
    · exact .inl rfl
    · by_cases h : k' = k
      · subst h; right; simp
      · left; simp [upd_ne _ _ h]

theorem setCh_img {s : Sys D} {q : Nat} {f : Chan D → Chan D} (hf : ∀ ch id, (f ch).img id = none ∨ (f ch).img id = ch.img id)
    (h : ∀ q id, (s.ch q).img id = none) (q' id : Nat) : ((s.setCh q f).ch q').img id = none := by
  rw [setCh_ch]
  split
  · rcases hf (s.ch q) id with h1 | h1
    · exact h1
    · rw [h1]; exact h q id
  · exact h q' id

theorem guest_img (hc : c.image = false) {s s' : Sys D} {a : Act D} {ls : List (Lab D)} (hg : a.isGuest = true)
    (h : ∀ q id, (s.ch q).img id = none) (hs : Step c s a ls s') : ∀ q id, (s'.ch q).img id = none := by
  have hfin : ∀ (q id q' id' : Nat), ((finishFalse s q id).ch q').img id' = none := by
    intro q id
    exact setCh_img (f := fun ch => { ch with finished := ch.finished ++ [(id, false)] }) (fun _ _ => .inr rfl) h
  have henq : ∀ (q : Nat) (r : QReq D) (b : Bool) (q' id : Nat), ((enqueueReq c s q r b).1.ch q').img id = none := by
    intro q r b
    unfold enqueueReq
    split
    · exact setCh_img (q := q) (f := fun ch => { ch with
        requested := (startFetches s.sh (stripes c r) (s.ch q).requested []).1, queue := ch.queue ++ [r] }) (fun _ _ => .inr rfl) h
    · exact hfin _ _
  cases hs with
  | read q id off cnt b hv hg' hid =>
    unfold addRead
    simp only [hc, Bool.and_false, Bool.false_eq_true, if_false]
    split
    · intro q id; rw [toBase_ch]; exact h q id
    · exact hfin _ _
    · exact henq _ _ _
  | write q id off cnt data b hv hid =>
    unfold addWrite
    simp only
    split
    · exact hfin _ _
    · split
      · intro q id; rw [toBase_ch]; exact h q id
      · exact henq _ _ _
    · exact henq _ _ _
  | flush q id hid => exact h
  | processQueue q b _ _ h' =>
    unfold processQueue at h'
    split at h'
    · simp at h'
    · split at h'
      · simp at h'
      · simp only [Option.some.injEq, Prod.mk.injEq] at h'
        obtain ⟨rfl, -⟩ := h'
        exact setCh_img (by intros; exact .inr rfl) (setCh_img (by intros; exact .inr rfl) h)
      · split at h'
        · simp at h'
        · simp only at h'
          split at h'
          · simp only [Option.some.injEq, Prod.mk.injEq] at h'
            obtain ⟨rfl, rfl⟩ := h'
            intro q' id; rw [toBase_ch]; exact setCh_img (by intros; exact .inr rfl) h q' id
          · simp only [Option.some.injEq, Prod.mk.injEq] at h'
            obtain ⟨rfl, -⟩ := h'
            exact setCh_img (by intros; exact .inr rfl) (setCh_img (by intros; exact .inr rfl) h)
  | reportFinished q id ok rest h' => exact setCh_img (by intros; exact .inr rfl) h
  | baseDone q id ok h' => exact h
  | imageDone q id ok off cnt h' => rw [h] at h'; cases h'
  | _ => simp [Act.isGuest] at hg

theorem step_det {loc : Nat → Bool} (hd : c.detached) {s s' : Sys D} {a : Act D} {ls : List (Lab D)} (hs : Sound c s) (hi : Det c loc s)
    (h : Step c s a ls s') : Det c loc s' := by
  obtain ⟨⟨⟨_, _, hb, hm⟩, hf⟩, -⟩ := hs
  by_cases hg : a.isGuest = true
  · have hgf := guest_frame h hg
    exact ⟨by rw [hgf.sh]; exact hi.loc, by rw [hgf.fe]; exact hi.st, guest_img hd.2 hg hi.img h⟩
  cases h with
  | execData | execMeta | receiveWritten | takeFinished | disconnect => exact ⟨hi.loc, hi.st, hi.img⟩
  | receiveFetch k ms hms =>
    refine ⟨fun k => by rw [handleFetch_frame.loc]; exact hi.loc k, fun k' => ?_, by rw [handleFetch_frame.ch]; exact hi.img⟩
    rcases handleFetch_st (s := { s with msgs := ms }) (k := k) k' with h1 | h1
    · rw [h1]; exact hi.st k'
    · exact .inr h1
  | autofetch k ks ha hq hk =>
    refine ⟨fun k => by rw [handleFetch_frame.loc]; exact hi.loc k, fun k' => ?_, by rw [handleFetch_frame.ch]; exact hi.img⟩
    rcases handleFetch_st (s := { s with fe := { s.fe with autoq := ks } }) (k := k) k' with h1 | h1
    · rw [h1]; exact hi.st k'
    · exact .inr h1
  | startFetch b _ _ hst =>
    have hfr := (startFetch_frame hf hst).1
    refine ⟨fun k => by rw [hfr.loc]; exact hi.loc k, fun k' => ?_, by rw [hfr.ch]; exact hi.img⟩
    unfold startFetch at hst
    split at hst
    · simp only [hd.1, Bool.and_false, Bool.false_and, Bool.false_eq_true, if_false, Option.some.injEq, Prod.mk.injEq] at hst
      obtain ⟨rfl, -⟩ := hst
      rcases fetchCompleted_st (s := _) (k := _) k' with h1 | h1 | h1
      · rw [h1]; exact hi.st k'
      · exact .inl h1
      · exact .inr h1
    · cases hst
  | sourceDone k ok b g _ _ hst =>
    exfalso
    unfold sourceDone at hst
    split at hst
    · rename_i hsi
      have := hf.ok k
      unfold StripeOk at this
      rw [hsi] at this
      rcases hi.st k with h1 | h1 <;> rw [h1] at this <;> simp [StripeOkC] at this
    · cases hst
  | targetDone k ok b hmc =>
    exfalso
    obtain ⟨op, hop, -⟩ := hmc
    have := hf.ok k
    unfold StripeOk at this
    rw [kinds_of_ops hop] at this
    rcases hi.st k with h1 | h1 <;> rw [h1] at this <;> simp [StripeOkC] at this
  | startMeta b _ hst =>
    obtain ⟨h1, h2, h3, h4, h5⟩ := startMeta_frame hst
    exact ⟨fun k hk => hi.loc k (by rw [← h5]; exact hk), by rw [h1]; exact hi.st, by rw [h3]; exact hi.img⟩
  | metaDone k ok b hmc =>
    exact ⟨fun k' hk => hi.settled (metaDone_local hm k ok b k' hk), by rw [metaDone_fe]; exact hi.st, by rw [metaDone_ch]; exact hi.img⟩
  | _ => simp [Act.isGuest] at hg

theorem Run.det {hdrs : Bytes} {tv : Nat → D} {mv : Nat → Bytes} {b0 : Nat → Nat → D} {s : Sys D} {ls : List (Lab D)} (hd : c.detached)
    (hb : Bootable c hdrs mv) (h : Run c (Sys.boot c hdrs tv mv b0) ls s) : Det c (Shared.load hdrs).isLocal s := by
  refine h.preserve (P := Det c (Shared.load hdrs).isLocal) (.boot hb) (fun _ _ _ _ h1 h2 h3 => step_det hd h1 h2 h3) ?_ .boot
  intro s tv mv' md b0 hs hi ht hm hld
  obtain ⟨g1, g2⟩ := crash_hdrOk hs hm hld
  refine ⟨fun k hk => ?_, fun _ => .inl rfl, fun _ _ => rfl⟩
  have hk' : (Sys.boot c md.headers tv mv' b0).sh.isLocal k = true := hk
  rw [boot_isLocal] at hk'
  have hl := boot_isLocal (c := c) (hdrs := hdrs) (tv := tv) (mv := mv) (b0 := b0) (k := k)
  cases hf : flag (md.headers.getD k 0) FETCHED with
  | true =>
    by_cases hkn : k < c.n
    · exact hi.settled ((g2 k hkn).settled hf)
    · rw [List.getD_eq_getElem?_getD, List.getElem?_eq_none (by have := g1.len; omega)] at hf
      exact absurd hf (by decide)
  | false =>
    rw [hf] at hk'
    show (Sys.boot c hdrs tv mv b0).sh.isLocal k = true
    rw [hl, ← hb.hs, g1.hs]
    simp at hk' ⊢
    exact .inl hk'

/-- The sectors of a read or write. -/
def _root_.Verif.Disk.Req.sectors : Req D → Option (Nat × Nat)
  | .read off cnt => some (off, cnt)
  | .write off cnt _ => some (off, cnt)
  | .flush => none

/-- An issued request that has not been answered is with the plain disk. -/
theorem pending_read {d d' : Disk D} {e0 e1 : List (Ev D)} {q w off cnt : Nat}
    (hr : Disk.Run d (e0 ++ Ev.issue q w (.read off cnt) :: e1) d') (ho : unanswered (q, w) e1) :
    ∃ got, d'.ops (q, w) = some (.read off cnt got) := by
  obtain ⟨m0, g1, g2⟩ := hr.split e0 _ rfl
  obtain ⟨m, m', h1, h2, h3⟩ := Disk.Run.event g2
  obtain ⟨hn, rfl⟩ := issue_inv h2
  refine h3.inv (fun d => ∃ got, d.ops (q, w) = some (.read off cnt got)) ⟨_, by simp [Disk.issue, Dev.issueRead]; rfl⟩ ?_
  rintro d1 es1 d2 hs hm ⟨got, hop⟩
  obtain ⟨op', h4, got', rfl, -⟩ := op_step hs (fun e he => ho e (hm e he)) hop
  exact ⟨got', h4⟩

/-- Without the source, the step that answers a read or write with success finds all its stripes local. -/
theorem resp_local {loc : Nat → Bool} {g : Nat → D} {s s' : Sys D} {d : Disk D} {a : Act D} {ls : List (Lab D)} (hsim : Sim c g s d none)
    (hi : Det c loc s) (h : Step c s a ls s') {q w off cnt : Nat} {o : List (Option D)}
    (hd : (∃ got, d.ops (q, w) = some (.read off cnt got)) ∨ ∃ data done, d.ops (q, w) = some (.write off cnt data done))
    (hl : Ev.resp q w true o ∈ visible ls) {x : Nat} (hx : covers off cnt x) : s.sh.isLocal (x / c.ss) = true := by
  by_cases hg : a.isGuest = true
  · cases h with
    | read q id off cnt b hv hg' hid => simp [visible, visible_addRead] at hl
    | write q id off cnt data b hv hid => simp [visible, visible_addWrite] at hl
    | flush q id hid => simp [visible] at hl
    | processQueue q b _ _ h => rw [visible_processQueue h] at hl; simp at hl
    | reportFinished q' id ok rest h =>
      simp only [visible, List.mem_singleton, Ev.resp.injEq] at hl
      obtain ⟨rfl, rfl, rfl, -⟩ := hl
      have := (hsim.fin q w true (by rw [h]; simp)).1
      cases this
    | baseDone q' id ok h =>
      simp only [visible, List.mem_singleton, Ev.resp.injEq] at hl
      obtain ⟨rfl, rfl, rfl, -⟩ := hl
      obtain ⟨op, hop, -⟩ := h
      have hgo := hsim.gop q w op hop
      cases op with
      | read off' cnt' got =>
        rcases hd with ⟨_, hd⟩ | ⟨_, _, hd⟩ <;> rw [hgo.1] at hd <;> cases hd
        exact (hgo.2 x hx).2
      | write off' cnt' data' done' =>
        rcases hd with ⟨_, hd⟩ | ⟨_, _, hd⟩ <;> rw [hgo.1] at hd <;> cases hd
        exact (hgo.2 x hx).2
      | flush snap =>
        obtain ⟨sn, h1, -⟩ := hgo
        rcases hd with ⟨_, hd⟩ | ⟨_, _, hd⟩ <;> rw [h1] at hd <;> cases hd
    | imageDone q' id ok off' cnt' h => rw [hi.img] at h; cases h
    | _ => simp [Act.isGuest] at hg
  · rw [(worker_step h (by simpa using hg)).1] at hl
    simp at hl

theorem det_answered {hdrs : Bytes} {tv : Nat → D} {mv : Nat → Bytes} {b0 : Nat → Nat → D} {s : Sys D} {ls : List (Lab D)} (hd : c.detached)
    (hb : Bootable c hdrs mv) (h : Run c (Sys.boot c hdrs tv mv b0) ls s) {e0 e1 e2 : List (Ev D)} {q w off cnt x : Nat} {r : Req D}
    {o : List (Option D)} (hr : r.sectors = some (off, cnt))
    (hv : visible ls = (e0 ++ Ev.issue q w r :: e1 ++ [Ev.resp q w true o]) ++ e2)
    (ho : unanswered (q, w) e1) (hx : covers off cnt x) : (Shared.load hdrs).isLocal (x / c.ss) = true := by
  rw [List.append_assoc, List.singleton_append] at hv
  obtain ⟨s1, a, la, lb, s2, lc, A', B', g1, g2, g3, g4, g5⟩ := h.at_event hv (by simp)
  have hal := step_resp_alone g2 (q := q) (w := w) (ok := true) (o := o) (by rw [g5]; simp)
  rw [g5] at hal
  have hA : A' = [] := by
    cases A' with
    | nil => rfl
    | cons y ys => simp at hal
  subst hA
  rw [List.append_nil] at g4
  obtain ⟨-, hfam⟩ := run_sim hb rfl g1
  obtain ⟨gg, d, -, hd', hsim⟩ := hfam.sim
  rw [← g4] at hd'
  have hi := g1.det hd hb
  refine hi.loc _ (resp_local hsim hi g2 (q := q) (w := w) (off := off) (cnt := cnt) (o := o) ?_ (by rw [g5]; simp) hx)
  cases r with
  | read off' cnt' => cases hr; exact .inl (pending_read hd' ho)
  | write off' cnt' data =>
    cases hr
    obtain ⟨done, h⟩ := pending_op hd' ho
    exact .inr ⟨_, done, h⟩
  | flush => cases hr

end Verif.Lazy
