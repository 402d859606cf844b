import Verif.Spec.LazyTail
import Verif.Proof.LazyDrain

/-! Where the contents of sectors past the end of the image come from. -/

set_option maxRecDepth 8000

namespace Verif.Lazy
open Verif Verif.Metadata Verif.Disk

variable {D : Type} {c : Cfg D}

/-! ### Devices -/

section dev
variable {O : Type} [DecidableEq O]

/-- Everything that is, may be or is about to be in sector `x` of the device satisfies `P x`. -/
structure Holds (P : Nat → D → Prop) (d : Dev O D) : Prop where
  vol : ∀ x, P x (d.vol x)
  pers : ∀ x v, d.pers x v → P x v
  wr : ∀ o off cnt data done, d.ops o = some (.write off cnt data done) → ∀ x, covers off cnt x → P x (data x)

theorem Holds.fresh {P : Nat → D → Prop} {v : Nat → D} (h : ∀ x, P x (v x)) : Holds P (Dev.fresh v : Dev O D) :=
  ⟨h, fun x w hw => by rw [show w = v x from hw]; exact h x, fun o off cnt data done hw => by simp [Dev.fresh] at hw⟩

theorem Holds.issueRead {P : Nat → D → Prop} {d : Dev O D} (h : Holds P d) (o : O) (off cnt : Nat) : Holds P (d.issueRead o off cnt) := by
  refine ⟨h.vol, h.pers, fun o' off' cnt' data done hw => ?_⟩
  unfold Dev.issueRead at hw
  by_cases ho : o' = o
  · subst ho; simp at hw
  · exact h.wr o' off' cnt' data done (by simpa [upd_ne _ _ ho] using hw)

theorem Holds.issueFlush {P : Nat → D → Prop} {d : Dev O D} (h : Holds P d) (o : O) : Holds P (d.issueFlush o) := by
  refine ⟨h.vol, h.pers, fun o' off' cnt' data done hw => ?_⟩
  unfold Dev.issueFlush at hw
  by_cases ho : o' = o
  · subst ho; simp at hw
  · exact h.wr o' off' cnt' data done (by simpa [upd_ne _ _ ho] using hw)

theorem Holds.issueWrite {P : Nat → D → Prop} {d : Dev O D} (h : Holds P d) (o : O) {off cnt : Nat} {data : Nat → D}
    (hd : ∀ x, covers off cnt x → P x (data x)) : Holds P (d.issueWrite o off cnt data) := by
  refine ⟨h.vol, ?_, fun o' off' cnt' data' done hw => ?_⟩
  · rintro x v (hv | ⟨hc, rfl⟩)
    · exact h.pers x v hv
    · exact hd x hc
  · unfold Dev.issueWrite at hw
    by_cases ho : o' = o
    · subst ho
      simp only [upd_same, Option.some.injEq, Op.write.injEq] at hw
      obtain ⟨rfl, rfl, rfl, -⟩ := hw
      exact hd
    · simp only [upd_ne _ _ ho, Option.map_eq_some_iff] at hw
      obtain ⟨op, h1, h2⟩ := hw
      cases op <;> simp only [Op.addSnap] at h2
      · simp at h2
      · rw [h2] at h1; exact h.wr o' _ _ _ _ h1
      · simp at h2

theorem Holds.exec {P : Nat → D → Prop} {d : Dev O D} (h : Holds P d) (o : O) (x : Nat) : Holds P (d.exec o x) := by
  unfold Dev.exec
  split
  · split
    · refine ⟨h.vol, h.pers, fun o' off' cnt' data done hw => ?_⟩
      by_cases ho : o' = o
      · subst ho; simp at hw
      · exact h.wr o' off' cnt' data done (by simpa [upd_ne _ _ ho] using hw)
    · exact h
  · rename_i off cnt data done ho
    split
    · rename_i hc
      refine ⟨fun y => ?_, h.pers, fun o' off' cnt' data' done' hw => ?_⟩
      · by_cases hy : y = x
        · subst hy; simp only [upd_same]; exact h.wr o _ _ _ _ ho y hc
        · simp only [upd_ne _ _ hy]; exact h.vol y
      · by_cases ho' : o' = o
        · subst ho'
          simp only [upd_same, Option.some.injEq, Op.write.injEq] at hw
          obtain ⟨rfl, rfl, rfl, -⟩ := hw
          exact h.wr _ _ _ _ _ ho
        · exact h.wr o' off' cnt' data' done' (by simpa [upd_ne _ _ ho'] using hw)
    · exact h
  · exact h

theorem Holds.complete {P : Nat → D → Prop} {d : Dev O D} (h : Holds P d) (o : O) (ok : Bool) : Holds P (d.complete o ok) := by
  refine ⟨h.vol, fun x v hv => h.pers x v hv.1, fun o' off' cnt' data done hw => ?_⟩
  unfold Dev.complete at hw
  by_cases ho : o' = o
  · subst ho; simp at hw
  · exact h.wr o' off' cnt' data done (by simpa [upd_ne _ _ ho] using hw)

end dev

/-! ### The system -/

/-- Contents a sector past the end of the image can have: its own, what the guest wrote (`W`), or what a buffer held. -/
def TailP (c : Cfg D) (Z : D → Prop) (W : Nat → D → Prop) (tv : Nat → D) (x : Nat) (v : D) : Prop :=
  pastEnd c x → v = tv x ∨ W x v ∨ Stale c Z (x % c.ss) v

structure TailInv (c : Cfg D) (Z : D → Prop) (W : Nat → D → Prop) (tv : Nat → D) (s : Sys D) : Prop where
  buf : ∀ b i, Stale c Z i (s.fe.bufs b i)
  dev : Holds (TailP c Z W tv) s.t
  que : ∀ q, ∀ r ∈ (s.ch q).queue, ∀ data, r.out = some data → ∀ x, covers r.off r.cnt x → W x (data x)

section
variable {Z : D → Prop} {W : Nat → D → Prop} {tv : Nat → D}

theorem fetchCompleted_bufs (s : Sys D) (k : Nat) (ok : Bool) :
    (fetchCompleted s k ok).1.fe.bufs = s.fe.bufs ∧ (fetchCompleted s k ok).1.t = s.t ∧ (fetchCompleted s k ok).1.ch = s.ch := by
  have : (s.fe.release k).bufs = s.fe.bufs := by unfold Fetcher.release; split <;> rfl
  unfold fetchCompleted
  simp only
  split
  · exact ⟨this, rfl, rfl⟩
  · split <;> exact ⟨this, rfl, rfl⟩

theorem TailInv.of {s s' : Sys D} (h : TailInv c Z W tv s) (h1 : s'.fe.bufs = s.fe.bufs) (h2 : s'.t = s.t)
    (h3 : ∀ q, ∀ r ∈ (s'.ch q).queue, r ∈ (s.ch q).queue := by intro q r h; exact h) :
    TailInv c Z W tv s' := ⟨by rw [h1]; exact h.buf, by rw [h2]; exact h.dev, fun q r hr => h.que q r (h3 q r hr)⟩

theorem TailInv.failed {s : Sys D} (h : TailInv c Z W tv s) (k : Nat) (ok : Bool) : TailInv c Z W tv (fetchCompleted s k ok).1 :=
  h.of (fetchCompleted_bufs _ _ _).1 (fetchCompleted_bufs _ _ _).2.1 fun q r hr => by rwa [(fetchCompleted_bufs _ _ _).2.2] at hr

theorem queue_setCh {s : Sys D} {q : Nat} {f : Chan D → Chan D} {q' : Nat} {r : QReq D}
    (h : r ∈ ((s.setCh q f).ch q').queue) : r ∈ (s.ch q').queue ∨ (q' = q ∧ r ∈ (f (s.ch q)).queue) := by
  unfold Sys.setCh at h
  by_cases hq : q' = q
  · subst hq; right; simpa using h
  · left; simpa [upd_ne _ _ hq] using h

theorem queue_finish {s : Sys D} {q id : Nat} {q' : Nat} {r : QReq D} (h : r ∈ ((finishFalse s q id).ch q').queue) :
    r ∈ (s.ch q').queue := by
  unfold finishFalse at h
  rcases queue_setCh h with h1 | ⟨rfl, h1⟩ <;> exact h1

theorem toBase_tail {s : Sys D} {q : Nat} {r : QReq D} (h : TailInv c Z W tv s)
    (hg : ∀ data, r.out = some data → ∀ x, covers r.off r.cnt x → W x (data x)) :
    TailInv c Z W tv (toBase s q r) := by
  unfold toBase
  split
  · exact ⟨h.buf, h.dev.issueRead _ _ _, h.que⟩
  · rename_i data hd
    exact ⟨h.buf, h.dev.issueWrite _ fun x hx _ => .inr (.inl (hg data hd x hx)), h.que⟩

theorem enqueueReq_tail {s : Sys D} {q : Nat} {r : QReq D} {b : Bool} (h : TailInv c Z W tv s)
    (hg : ∀ data, r.out = some data → ∀ x, covers r.off r.cnt x → W x (data x)) :
    TailInv c Z W tv (enqueueReq c s q r b).1 := by
  unfold enqueueReq
  split
  · simp only
    refine ⟨h.buf, h.dev, fun q' r' hr => ?_⟩
    simp only [Sys.setCh] at hr
    by_cases hq : q' = q
    · subst hq
      rw [upd_same] at hr
      rcases List.mem_append.mp hr with h1 | h1
      · exact h.que q' r' h1
      · rw [List.mem_singleton.mp h1]; exact hg
    · rw [upd_ne _ _ hq] at hr; exact h.que q' r' hr
  · refine h.of rfl rfl fun q' r' hr => queue_finish hr

end

section
variable {Z : D → Prop} {W : Nat → D → Prop} {tv : Nat → D}

theorem fillBuf_origin {k : Nat} {buf : Nat → D} (h : ∀ i, Stale c Z i (buf i)) (i : Nat) :
    Stale c Z i (fillBuf c k buf i) := by
  unfold fillBuf
  cases hs : c.src (k * c.ss + i) with
  | none => exact h i
  | some v => exact .image k _ hs

theorem sentBuf_origin {k : Nat} {buf : Nat → D} (h : ∀ i, Stale c Z i (buf i)) (i : Nat) : Stale c Z i (sentBuf c k buf i) := by
  unfold sentBuf
  split
  · exact .enc k _ (h i)
  · exact h i

theorem bufs_upd {bufs : Nat → Nat → D} (h : ∀ b i, Stale c Z i (bufs b i)) {b : Nat} {f : Nat → D}
    (hf : ∀ i, Stale c Z i (f i)) : ∀ b' i, Stale c Z i (upd bufs b f b' i) := by
  intro b' i
  by_cases hb : b' = b
  · subst hb; rw [upd_same]; exact hf i
  · rw [upd_ne _ _ hb]; exact h b' i

theorem step_tail {s s' : Sys D} {a : Act D} {ls : List (Lab D)} (hs : Sound c s) (hi : TailInv c Z W tv s)
    (h : Step c s a ls s') (ht : a.tame c s)
    (hw : ∀ q id off cnt data, Ev.issue q id (.write off cnt data) ∈ visible ls → ∀ x, covers off cnt x → W x (data x)) : TailInv c Z W tv s' := by
  obtain ⟨gg, ab, hsim⟩ := hs.sim
  obtain ⟨⟨⟨hdrs, mv, hb, hm⟩, hf⟩, -⟩ := hs
  cases h with
  | read q id off cnt sendOk hv hg hid =>
    unfold addRead
    simp only
    split
    · exact toBase_tail (r := { id, off, cnt, out := none }) hi (fun _ h => by cases h)
    · exact hi.of rfl rfl fun q r hr => queue_finish hr
    · split
      · refine hi.of rfl rfl fun q' r hr => ?_
        simp only at hr
        rcases queue_setCh hr with h1 | ⟨rfl, h1⟩ <;> exact h1
      · exact enqueueReq_tail hi (fun _ h => by cases h)
  | write q id off cnt data sendOk hv hid =>
    have hd : ∀ data', ({ id, off, cnt, out := some data } : QReq D).out = some data' → ∀ x, covers off cnt x → W x (data' x) := by
      intro data' h
      simp only [Option.some.injEq] at h
      subst h
      exact hw q id off cnt data (by simp [visible])
    unfold addWrite
    simp only
    split
    · exact hi.of rfl rfl fun q r hr => queue_finish hr
    · split
      · exact toBase_tail (r := { id, off, cnt, out := some data }) hi hd
      · exact enqueueReq_tail hi hd
    · exact enqueueReq_tail hi hd
  | flush q id hid => exact ⟨hi.buf, hi.dev.issueFlush _, hi.que⟩
  | processQueue q submitOk _ _ h =>
    unfold processQueue at h
    split at h
    · simp at h
    · rename_i r rest hq
      have hsub : ∀ (f : Chan D → Chan D), (f (s.ch q)).queue = rest → ∀ q', ∀ r' ∈ ((s.setCh q f).ch q').queue, r' ∈ (s.ch q').queue := by
        intro f hf' q' r' hr
        rcases queue_setCh hr with h1 | ⟨rfl, h1⟩
        · exact h1
        · rw [hf'] at h1; rw [hq]; exact List.mem_cons_of_mem _ h1
      split at h
      · simp at h
      · simp only [Option.some.injEq, Prod.mk.injEq] at h
        obtain ⟨rfl, -⟩ := h
        exact hi.of rfl rfl (fun q' r' hr => hsub _ rfl q' r' (queue_finish hr))
      · split at h
        · simp at h
        · simp only at h
          split at h
          · simp only [Option.some.injEq, Prod.mk.injEq] at h
            obtain ⟨rfl, -⟩ := h
            exact toBase_tail (hi.of (s' := s.setCh q _) rfl rfl (hsub _ rfl)) (hi.que q r (by rw [hq]; simp))
          · simp only [Option.some.injEq, Prod.mk.injEq] at h
            obtain ⟨rfl, -⟩ := h
            exact hi.of rfl rfl (fun q' r' hr => hsub _ rfl q' r' (queue_finish hr))
  | reportFinished | imageDone =>
    exact hi.of rfl rfl fun q r hr => by rcases queue_setCh hr with h1 | ⟨rfl, h1⟩ <;> exact h1
  | baseDone q id ok h => exact ⟨hi.buf, hi.dev.complete _ _, hi.que⟩
  | execData o x => exact ⟨hi.buf, hi.dev.exec o x, hi.que⟩
  | execMeta | receiveWritten | takeFinished | disconnect => exact hi.of rfl rfl
  | receiveFetch k ms hms =>
    unfold handleFetch
    split
    · exact hi.of rfl rfl
    · split <;> exact hi.of rfl rfl
  | autofetch k ks ha hq h =>
    unfold handleFetch
    split
    · exact hi.of rfl rfl
    · split <;> exact hi.of rfl rfl
  | startFetch submitOk _ _ h =>
    unfold startFetch at h
    split at h
    · simp only at h
      split at h
      · simp only [Option.some.injEq, Prod.mk.injEq] at h
        obtain ⟨rfl, -⟩ := h
        exact hi.of rfl rfl
      · simp only [Option.some.injEq, Prod.mk.injEq] at h
        obtain ⟨rfl, -⟩ := h
        refine TailInv.failed ?_ _ _
        exact hi.of rfl rfl
    · simp at h
  | sourceDone k ok submitOk garbage _ _ h =>
    unfold sourceDone at h
    split at h
    · simp only at h
      split at h
      · simp only [Option.some.injEq, Prod.mk.injEq] at h
        obtain ⟨rfl, -⟩ := h
        exact hi.of rfl rfl
      · rename_i b hal
        split at h
        · split at h
          · simp only [Option.some.injEq, Prod.mk.injEq] at h
            obtain ⟨rfl, -⟩ := h
            refine ⟨bufs_upd hi.buf (sentBuf_origin (fillBuf_origin (hi.buf b))), hi.dev.issueWrite _ fun x hx hp => .inr (.inr ?_), hi.que⟩
            have h1 := (dom_div hb.ss).mp hx
            have h2 : x - k * c.ss = x % c.ss := by
              have := Nat.div_add_mod' x c.ss
              rw [h1.1] at this
              omega
            rw [h2]
            exact fillBuf_origin (hi.buf b) _
          · simp only [Option.some.injEq] at h
            rw [← show (fetchCompleted _ _ _).1 = s' from congrArg Prod.fst h]
            refine TailInv.failed ?_ _ _
            exact ⟨bufs_upd hi.buf (sentBuf_origin (fillBuf_origin (hi.buf b))), hi.dev, hi.que⟩
        · rename_i hok
          simp only [Option.some.injEq] at h
          rw [← show (fetchCompleted _ _ _).1 = s' from congrArg Prod.fst h]
          refine TailInv.failed ?_ _ _
          refine ⟨bufs_upd hi.buf fun i => ?_, hi.dev, hi.que⟩
          rcases ht (by simpa using hok) b i hal with h1 | h1
          · rw [h1]; exact hi.buf b i
          · exact .image k _ h1
    · simp at h
  | targetDone k ok submitOk h =>
    unfold targetDone
    simp only
    have h1 : TailInv c Z W tv { s with t := s.t.complete (.fetch k) ok } := ⟨hi.buf, hi.dev.complete _ _, hi.que⟩
    split
    · split
      · split
        · exact ⟨hi.buf, (hi.dev.complete _ _).issueFlush _, hi.que⟩
        · exact h1.failed _ _
      · exact h1.failed _ _
      · exact h1
    · exact h1.failed _ _
  | startMeta submitOk _ h => exact hi.of (by rw [(startMeta_frame h).1]) (startMeta_frame h).2.1 (fun q r hr => by rwa [(startMeta_frame h).2.2.1] at hr)
  | metaDone k ok submitOk h =>
    refine hi.of ?_ ?_ ?_
    · simp
    · simp
    · intro q r hr
      simpa using hr

end

theorem Tame.run {Z : D → Prop} {s s' : Sys D} {ls : List (Lab D)} (h : Tame c Z s ls s') : Run c s ls s' := by
  induction h with
  | nil => exact .nil _
  | step _ hst _ ih => exact .step ih hst
  | crash b0 _ _ h1 h2 h3 ih => exact .crash b0 ih h1 h2 h3

theorem TailInv.run {Z : D → Prop} {W : Nat → D → Prop} {tv : Nat → D} {s s' : Sys D} {ls : List (Lab D)} (hs : Sound c s)
    (h : TailInv c Z W tv s) (hr : Tame c Z s ls s')
    (hw : ∀ q id off cnt data, Ev.issue q id (.write off cnt data) ∈ visible ls → ∀ x, covers off cnt x → W x (data x)) :
    TailInv c Z W tv s' := by
  induction hr with
  | nil => exact h
  | step hr hst ht ih =>
    simp only [visible_append, List.mem_append] at hw
    exact step_tail (hs.run hr.run) (ih fun q id off cnt data h => hw q id off cnt data (.inl h)) hst ht
      fun q id off cnt data h => hw q id off cnt data (.inr h)
  | crash b0 hz hr h1 h2 h3 ih =>
    simp only [visible_append, List.mem_append] at hw
    have ih := ih fun q id off cnt data h => hw q id off cnt data (.inl h)
    exact ⟨fun b i => .init _ (hz b i), .fresh fun x => ih.dev.pers x _ (h1 x), fun q r hr => by cases hr⟩

end Verif.Lazy
