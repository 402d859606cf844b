import Verif.Proof.LazyRefine

/-! Facts about whole runs: what may be in the labels of a step, and what never goes back. -/

set_option maxRecDepth 8000

namespace Verif.Lazy
open Verif Verif.Metadata Verif.Disk

variable {D : Type} {c : Cfg D}

/-- Good, and related to some plain disk. -/
def Sound (c : Cfg D) (s : Sys D) : Prop := Good c s ∧ Family c s fun _ _ => True

theorem Sound.sim {s : Sys D} (h : Sound c s) : ∃ g a, Sim c g s a none := by
  obtain ⟨g, a, -, -, h⟩ := h.2.sim
  exact ⟨g, a, h⟩

theorem Sound.run {s0 s : Sys D} {ls : List (Lab D)} (h0 : Sound c s0) (h : Run c s0 ls s) : Sound c s :=
  ⟨(h0.1.cont h0.2 h).1, (h0.1.cont h0.2 h).2.mono fun _ _ _ => trivial⟩

theorem Sound.boot {hdrs : Bytes} {tv : Nat → D} {mv : Nat → Bytes} {b0 : Nat → Nat → D} (hb : Bootable c hdrs mv) :
    Sound c (Sys.boot c hdrs tv mv b0) :=
  ⟨⟨⟨hdrs, mv, hb, boot_meta hb⟩, boot_fetch hb⟩, (Family.boot hb).mono fun _ _ _ => trivial⟩

theorem Sound.step {s s' : Sys D} {a : Act D} {ls : List (Lab D)} (h0 : Sound c s) (h : Step c s a ls s') : Sound c s' := by
  have := h0.run (.step (.nil s) h)
  exact this

theorem Run.trans {s s' s'' : Sys D} {l l' : List (Lab D)} (h : Run c s l s') (h' : Run c s' l' s'') : Run c s (l ++ l') s'' := by
  induction h' with
  | nil => simpa using h
  | step _ hst ih => rw [← List.append_assoc]; exact .step ih hst
  | crash b0 _ h1 h2 h3 ih => rw [← List.append_assoc]; exact .crash b0 ih h1 h2 h3

/-- A property of states kept by steps and by power losses holds throughout. -/
theorem Run.preserve {P : Sys D → Prop} {s0 s : Sys D} {ls : List (Lab D)} (h : Run c s0 ls s) (h0 : Sound c s0)
    (hstep : ∀ s a ls s', Sound c s → P s → Step c s a ls s' → P s')
    (hcrash : ∀ s tv mv' md b0, Sound c s → P s → s.t.survives tv → s.m.survives mv' →
      fromBytes (devBytes c.msec mv') = .ok md → P (Sys.boot c md.headers tv mv' b0)) (hp : P s0) : P s := by
  induction h with
  | nil => exact hp
  | step h hst ih => exact hstep _ _ _ _ (h0.run h) ih hst
  | crash b0 h h1 h2 h3 ih => exact hcrash _ _ _ _ _ (h0.run h) ih h1 h2 h3

/-- What the labels of a step say about the state before it. -/
def LabOk (c : Cfg D) (s s' : Sys D) : Lab D → Prop
  | .toBase _ r => c.validReq r.off r.cnt ∧ (∀ k ∈ stripes c r, s.sh.isLocal k = true) ∧
      (c.track = true → r.out.isSome = true → ∀ k ∈ stripes c r, s.sh.ws k = true)
  | .enqueue k => s.sh.isLocal k = false ∧ s.fe.states k = none ∧ k < c.n
  | .sourceRead k => s.sh.isLocal k = false ∧ k ∈ s.fe.queue
  | .fetchWrite k => s.sh.isLocal k = false ∧ s.fe.srcIn k = true
  | .fetchFailed k => s.sh.isLocal k = false ∧ s.fe.states k ≠ none ∧ s'.sh.fs k = .failed
  | _ => True

theorem LabOk.handleFetch {s0 s : Sys D} {k : Nat} (hk : k < c.n) (h1 : s.sh = s0.sh) (h2 : s.fe.states = s0.fe.states) :
    ∀ l ∈ (handleFetch s k).2, LabOk c s0 (handleFetch s k).1 l := by
  unfold Lazy.handleFetch
  split
  · simp
  · split
    · simp
    · rename_i h3 h4
      intro l hl
      simp only [List.mem_singleton] at hl
      subst hl
      refine ⟨?_, ?_, hk⟩
      · rw [← h1]; simpa using h3
      · rw [← h2]; simpa using h4

theorem LabOk.fetchCompleted {s0 s : Sys D} {k : Nat} {ok : Bool} (h1 : s0.sh.isLocal k = false) (h2 : s0.fe.states k ≠ none) :
    ∀ l ∈ (fetchCompleted s k ok).2, LabOk c s0 (fetchCompleted s k ok).1 l := by
  unfold Lazy.fetchCompleted
  simp only
  split
  · simp
  · split
    · simp
    · intro l hl
      simp only [List.mem_singleton] at hl
      subst hl
      exact ⟨h1, h2, by simp [Shared.setFailed]⟩

theorem enqueueReq_labs {s : Sys D} {q : Nat} {r : QReq D} {b : Bool} :
    (enqueueReq c s q r b).2 = if b then [.wait q r.id] else [] := by
  unfold enqueueReq; split <;> rfl

theorem enqueueReq_labOk {s s' : Sys D} {q : Nat} {r : QReq D} {b : Bool} : ∀ l ∈ (enqueueReq c s q r b).2, LabOk c s s' l := by
  intro l hl
  rw [enqueueReq_labs] at hl
  split at hl
  · simp only [List.mem_singleton] at hl; subst hl; trivial
  · simp at hl

theorem addRead_labOk {s s' : Sys D} {q id off cnt : Nat} {b : Bool} (hv : c.validReq off cnt) :
    ∀ l ∈ (addRead c s q id off cnt b).2, LabOk c s s' l := by
  unfold addRead
  simp only
  split
  · rename_i h
    intro l hl
    simp only [List.mem_singleton] at hl; subst hl
    exact ⟨hv, fetchStatus_complete h, by simp⟩
  · simp
  · split
    · simp
    · exact enqueueReq_labOk

theorem addWrite_labOk {s s' : Sys D} {q id off cnt : Nat} {data : Nat → D} {b : Bool} (hv : c.validReq off cnt) : ∀ l ∈ (addWrite c s q id off cnt data b).2, LabOk c s s' l := by
  unfold addWrite
  simp only
  split
  · simp
  · rename_i h
    split
    · rename_i hw
      intro l hl
      simp only [List.mem_singleton] at hl; subst hl
      refine ⟨hv, fetchStatus_complete h, fun ht _ k hk => ?_⟩
      simp only [ht, Bool.not_true, Bool.false_or, List.all_eq_true] at hw
      exact hw k hk
    · exact enqueueReq_labOk
  · exact enqueueReq_labOk

theorem processQueue_labOk {s s' s'' : Sys D} {q : Nat} {b : Bool} {ls : List (Lab D)}
    (hq : ∀ r ∈ (s.ch q).queue, c.validReq r.off r.cnt)
    (h : processQueue c s q b = some (s', ls)) : ∀ l ∈ ls, LabOk c s s'' l := by
  unfold processQueue at h
  split at h
  · simp at h
  · rename_i r rest hqe
    split at h
    · simp at h
    · simp only [Option.some.injEq, Prod.mk.injEq] at h
      obtain ⟨-, rfl⟩ := h
      intro l hl
      simp only [List.mem_singleton] at hl; subst hl; trivial
    · rename_i hst
      split at h
      · simp at h
      · rename_i hw
        simp only at h
        split at h
        · simp only [Option.some.injEq, Prod.mk.injEq] at h
          obtain ⟨-, rfl⟩ := h
          intro l hl
          simp only [List.mem_cons, List.not_mem_nil, or_false] at hl
          rcases hl with rfl | rfl
          · trivial
          · refine ⟨hq r (by rw [hqe]; simp), fetchStatus_complete hst, fun ht ho k hk => ?_⟩
            simp only [ht, ho, Bool.true_and, Bool.not_eq_true', Bool.not_eq_false, List.all_eq_true] at hw
            exact hw k hk
        · simp only [Option.some.injEq, Prod.mk.injEq] at h
          obtain ⟨-, rfl⟩ := h
          intro l hl
          simp only [List.mem_singleton] at hl; subst hl; trivial

theorem step_labOk {s s' : Sys D} {a : Act D} {ls : List (Lab D)} (hs : Sound c s) (h : Step c s a ls s') :
    ∀ l ∈ ls, LabOk c s s' l := by
  obtain ⟨gg, ab, hsim⟩ := hs.sim
  obtain ⟨⟨⟨hdrs, mv, hb, hm⟩, hf⟩, -⟩ := hs
  cases h with
  | read q id off cnt sendOk hv hg hid =>
    intro l hl
    rcases List.mem_cons.mp hl with rfl | hl
    · trivial
    · exact addRead_labOk hv l hl
  | write q id off cnt data sendOk hv hid =>
    intro l hl
    rcases List.mem_cons.mp hl with rfl | hl
    · trivial
    · exact addWrite_labOk hv l hl
  | processQueue q submitOk _ _ h =>
    exact processQueue_labOk (fun r hr => (hsim.queue q r hr).1) h
  | receiveFetch k ms hms => exact LabOk.handleFetch (hf.mbound k (by rw [hms]; simp)) rfl rfl
  | autofetch k ks ha hq h => exact LabOk.handleFetch (hf.abound k (by rw [h]; simp)) rfl rfl
  | startFetch submitOk _ _ h =>
    unfold startFetch at h
    split at h
    · rename_i k q bu free hq hfr
      have hk0 := (hf.ok k).queued (by rw [hq]; simp)
      simp only at h
      split at h
      · simp only [Option.some.injEq, Prod.mk.injEq] at h
        obtain ⟨-, rfl⟩ := h
        intro l hl
        simp only [List.mem_singleton] at hl; subst hl
        exact ⟨hk0.1, by rw [hq]; simp⟩
      · simp only [Option.some.injEq, Prod.mk.injEq] at h
        obtain ⟨rfl, rfl⟩ := h
        intro l hl
        rcases List.mem_cons.mp hl with rfl | hl
        · exact ⟨hk0.1, by rw [hq]; simp⟩
        · exact LabOk.fetchCompleted hk0.1 (by rw [hk0.2.2.2.2]; simp) l hl
    · simp at h
  | sourceDone k ok submitOk garbage _ _ h =>
    unfold sourceDone at h
    split at h
    · rename_i hsi
      have hk0 := (hf.ok k).src hsi
      simp only at h
      split at h
      · simp only [Option.some.injEq, Prod.mk.injEq] at h
        obtain ⟨-, rfl⟩ := h
        simp
      · split at h
        · split at h
          · simp only [Option.some.injEq, Prod.mk.injEq] at h
            obtain ⟨-, rfl⟩ := h
            intro l hl
            simp only [List.mem_singleton] at hl; subst hl
            exact ⟨hk0.1, hsi⟩
          · simp only [Option.some.injEq] at h
            obtain ⟨h1, h2⟩ := Prod.ext_iff.mp h
            subst h1; subst h2
            exact LabOk.fetchCompleted hk0.1 (by rw [hk0.2.2.2.2]; simp)
        · simp only [Option.some.injEq] at h
          obtain ⟨h1, h2⟩ := Prod.ext_iff.mp h
          subst h1; subst h2
          exact LabOk.fetchCompleted hk0.1 (by rw [hk0.2.2.2.2]; simp)
    · simp at h
  | targetDone k ok submitOk h =>
    obtain ⟨op, hop, -⟩ := h
    have hk0 := (hf.ok k).busy (by rw [kinds_of_ops hop]; simp)
    have hst : s.fe.states k ≠ none := by
      rcases hk0.2.2.2.2 with ⟨h1, -⟩ | ⟨h1, -⟩ <;> rw [h1] <;> simp
    unfold targetDone
    simp only
    split
    · split
      · split
        · simp
        · exact LabOk.fetchCompleted hk0.1 hst
      · exact LabOk.fetchCompleted hk0.1 hst
      · simp
    · exact LabOk.fetchCompleted hk0.1 hst
  | flush q id hid => intro l hl; simp only [List.mem_singleton] at hl; subst hl; trivial
  | reportFinished q id ok rest h => intro l hl; simp only [List.mem_singleton] at hl; subst hl; trivial
  | baseDone q id ok h => intro l hl; simp only [List.mem_singleton] at hl; subst hl; trivial
  | imageDone q id ok off cnt h => intro l hl; simp only [List.mem_singleton] at hl; subst hl; trivial
  | _ => simp

/-! ### What never goes back -/

theorem metaDone_fs {s : Sys D} {k : Nat} {ok b : Bool} (k' : Nat) (h : s.sh.fs k' = .fetched) :
    (metaDone s k ok b).sh.fs k' = .fetched := by
  unfold metaDone
  simp only
  split
  · exact h
  · split
    · split
      · split <;> exact h
      · simp only [Shared.setHeader]
        split
        · by_cases hk : k' = k
          · subst hk; simp
          · simp only [upd_ne _ _ hk]; exact h
        · exact h
    · exact h

theorem metaDone_ws {s : Sys D} {k : Nat} {ok b : Bool} (k' : Nat) (h : s.sh.ws k' = true) :
    (metaDone s k ok b).sh.ws k' = true := by
  unfold metaDone
  simp only
  split
  · exact h
  · split
    · split
      · split <;> exact h
      · simp only [Shared.setHeader]
        split
        · by_cases hk : k' = k
          · subst hk; simp
          · simp only [upd_ne _ _ hk]; exact h
        · exact h
    · exact h

structure Mono (s s' : Sys D) : Prop where
  fs : ∀ k, s.sh.fs k = .fetched → s'.sh.fs k = .fetched
  loc : ∀ k, s.sh.isLocal k = true → s'.sh.isLocal k = true
  ws : ∀ k, s.sh.ws k = true → s'.sh.ws k = true

theorem FetchFrame.mono {s s' : Sys D} (h : FetchFrame s s') : Mono s s' :=
  ⟨fun k hk => (h.fs k).2 hk, fun k hk => by rw [h.loc]; exact hk, fun k hk => by rw [h.ws]; exact hk⟩

theorem Mono.of_sh {s s' : Sys D} (h : s'.sh = s.sh) : Mono s s' := by
  constructor <;> intro k hk <;> rw [h] <;> exact hk

theorem handleFetch_sh {s : Sys D} {k : Nat} : (handleFetch s k).1.sh = s.sh := by
  unfold handleFetch
  split
  · rfl
  · split <;> rfl

theorem load_isLocal (hdrs : Bytes) (k : Nat) :
    (Shared.load hdrs).isLocal k = (!flag (hdrs.getD k 0) HAS_SOURCE || flag (hdrs.getD k 0) FETCHED) := by
  simp only [Shared.load, Shared.isLocal, loadFs]
  rcases Bool.eq_false_or_eq_true (flag (hdrs.getD k 0) HAS_SOURCE) with h1 | h1 <;>
    rcases Bool.eq_false_or_eq_true (flag (hdrs.getD k 0) FETCHED) with h2 | h2 <;> simp [-List.getD_eq_getElem?_getD, h1, h2]

theorem step_mono {s s' : Sys D} {a : Act D} {ls : List (Lab D)} (hs : Sound c s) (h : Step c s a ls s') : Mono s s' := by
  by_cases hg : a.isGuest = true
  · exact .of_sh (guest_frame h hg).sh
  have hf := hs.1.fetch
  cases h with
  | receiveFetch k ms hms => exact .of_sh handleFetch_sh
  | autofetch k ks ha hq h => exact .of_sh handleFetch_sh
  | startFetch submitOk _ _ h => exact (startFetch_frame hf h).1.mono
  | sourceDone k ok submitOk garbage _ _ h => exact (sourceDone_frame hf h).1.mono
  | targetDone k ok submitOk h => exact (targetDone_frame hf h).1.mono
  | startMeta submitOk _ h => exact .of_sh (startMeta_frame h).2.2.2.2
  | metaDone k ok submitOk h => exact ⟨fun k' => metaDone_fs k', fun k' => metaDone_mono k', fun k' => metaDone_ws k'⟩
  | execData | execMeta | receiveWritten | takeFinished | disconnect => exact .of_sh rfl
  | _ => simp [Act.isGuest] at hg

theorem crash_hdrOk {s : Sys D} (hs : Sound c s) {mv' : Nat → Bytes} {md : Meta} (h2 : s.m.survives mv')
    (h3 : fromBytes (devBytes c.msec mv') = .ok md) :
    Bootable c md.headers mv' ∧ ∀ k, k < c.n → HdrOk c s k (md.headers.getD k 0) := by
  obtain ⟨gg, ab, hsim⟩ := hs.sim
  obtain ⟨⟨⟨hdrs, mv, hb, hm⟩, hf⟩, -⟩ := hs
  obtain ⟨md', g1, g2, g3⟩ := reload hb hm h2
  rw [h3] at g1
  simp only [Except.ok.injEq] at g1
  subst g1
  exact ⟨g2, g3⟩

theorem crash_local {s : Sys D} (hs : Sound c s) {tv : Nat → D} {mv' : Nat → Bytes} {md : Meta} {b0 : Nat → Nat → D}
    (h2 : s.m.survives mv') (h3 : fromBytes (devBytes c.msec mv') = .ok md) (k : Nat) (hl : s.sh.isLocal k = true) :
    (Sys.boot c md.headers tv mv' b0).sh.isLocal k = true := by
  obtain ⟨g2, g3⟩ := crash_hdrOk hs h2 h3
  obtain ⟨gg, ab, hsim⟩ := hs.sim
  show (Shared.load md.headers).isLocal k = true
  rw [load_isLocal]
  by_cases hk : k < c.n
  · have hok := g3 k hk
    simp only [Shared.isLocal, Bool.or_eq_true, decide_eq_true_eq] at hl
    rcases hl with hl | hl
    · rw [hok.fetched hl]; simp
    · have := (hsim.nosrc k).1 hl
      rw [hok.src, this]; simp
  · have : md.headers.getD k 0 = 0 := by
      rw [List.getD_eq_getElem?_getD, List.getElem?_eq_none (by have := g2.len; omega)]; rfl
    rw [this]; rfl

/-- Local stripes stay local, through power losses too. -/
theorem Run.local {s s' : Sys D} {ls : List (Lab D)} (h : Run c s ls s') (hs : Sound c s) (k : Nat)
    (hl : s.sh.isLocal k = true) : s'.sh.isLocal k = true :=
  h.preserve (P := fun s => s.sh.isLocal k = true) hs (fun _ _ _ _ h1 h2 h3 => (step_mono h1 h3).loc k h2)
    (fun _ _ _ _ _ h1 h2 _ h4 h5 => crash_local h1 h4 h5 k h2) hl

/-- A stripe marked as written stays so, through power losses too. -/
theorem Run.written {s s' : Sys D} {ls : List (Lab D)} (h : Run c s ls s') (hs : Sound c s) {k : Nat} (hk : k < c.n)
    (hl : s.sh.ws k = true) : s'.sh.ws k = true :=
  h.preserve (P := fun s => s.sh.ws k = true) hs (fun _ _ _ _ h1 h2 h3 => (step_mono h1 h3).ws k h2)
    (fun _ _ _ _ _ h1 h2 _ h4 h5 => ((crash_hdrOk h1 h4 h5).2 k hk).written h2) hl

/-- Once a stripe has been served from the data device it is local for ever. -/
theorem Run.toBase_local {s s' : Sys D} {ls : List (Lab D)} (h : Run c s ls s') (hs : Sound c s) {q : Nat} {r : QReq D}
    (hl : Lab.toBase q r ∈ ls) {k : Nat} (hk : k ∈ stripes c r) : s'.sh.isLocal k = true := by
  induction h with
  | nil => simp at hl
  | step h hst ih =>
    have hs' := hs.run h
    rcases List.mem_append.mp hl with hl | hl
    · exact (step_mono hs' hst).loc k (ih hl)
    · exact (step_mono hs' hst).loc k ((step_labOk hs' hst _ hl).2.1 k hk)
  | crash b0 h h1 h2 h3 ih =>
    rcases List.mem_append.mp hl with hl | hl
    · exact crash_local (hs.run h) h2 h3 k (ih hl)
    · simp at hl

/-- A position in the labels of a run lies in one step. -/
theorem Run.at_label {s s' : Sys D} {ls : List (Lab D)} (h : Run c s ls s') {l1 l2 : List (Lab D)} {l : Lab D}
    (hl : ls = l1 ++ l :: l2) (hne : l ≠ .ev .crash) :
    ∃ s1 a la lb s2, Run c s (la) s1 ∧ la <+: l1 ∧ Step c s1 a lb s2 ∧ l ∈ lb ∧ (∃ l3, lb <:+: l3 ∧ ls = la ++ l3) ∧
      ∃ lc, Run c s2 lc s' ∧ ls = la ++ lb ++ lc := by
  induction h generalizing l1 l2 with
  | nil => simp at hl
  | @step _ _ la lb _ h hst ih =>
    rcases List.append_eq_append_iff.mp hl with ⟨x, h1, h2⟩ | ⟨x, h1, h2⟩
    · refine ⟨_, _, la, lb, _, h, ⟨x, h1.symm⟩, hst, by rw [h2]; simp, ⟨lb, List.infix_refl _, rfl⟩, [], .nil _, by simp⟩
    · cases x with
      | nil =>
        simp only [List.append_nil, List.nil_append] at h1 h2
        exact ⟨_, _, la, lb, _, h, by rw [h1]; exact List.prefix_refl _, hst, by rw [← h2]; simp, ⟨lb, List.infix_refl _, rfl⟩, [], .nil _, by simp⟩
      | cons y x =>
        simp only [List.cons_append, List.cons.injEq] at h2
        obtain ⟨rfl, h2⟩ := h2
        obtain ⟨s1, a, la', lb', s2, g1, g2, g3, g4, ⟨l3, g5, g6⟩, lc, g7, g8⟩ := ih h1
        exact ⟨s1, a, la', lb', s2, g1, g2, g3, g4, ⟨l3 ++ lb, g5.trans (List.prefix_append _ _).isInfix, by rw [g6]; simp⟩, lc ++ lb, .step g7 hst, by rw [g8]; simp⟩
  | @crash _ la _ _ _ b0 h h1' h2' h3' ih =>
    rcases List.append_eq_append_iff.mp hl with ⟨x, h1, h2⟩ | ⟨x, h1, h2⟩
    · exfalso
      cases x with
      | nil => simp at h2; exact hne h2.1.symm
      | cons y x => simp at h2
    · cases x with
      | nil => simp at h2; exact absurd h2.1 hne
      | cons y x =>
        simp only [List.cons_append, List.cons.injEq] at h2
        obtain ⟨rfl, h2⟩ := h2
        obtain ⟨s1, a, la', lb', s2, g1, g2, g3, g4, ⟨l3, g5, g6⟩, lc, g7, g8⟩ := ih h1
        exact ⟨s1, a, la', lb', s2, g1, g2, g3, g4, ⟨l3 ++ [.ev .crash], g5.trans (List.prefix_append _ _).isInfix, by rw [g6]; simp⟩, lc ++ [.ev .crash], .crash b0 g7 h1' h2' h3', by rw [g8]; simp⟩

end Verif.Lazy
