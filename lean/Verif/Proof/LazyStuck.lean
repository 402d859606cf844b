import Verif.Proof.LazyServe

/-! What a lost metadata update does: the stripe it was about is never announced as fetched again. -/

set_option maxRecDepth 8000

namespace Verif.Lazy
open Verif Verif.Metadata Verif.Disk

variable {D : Type} {c : Cfg D}

/-! ### Fetch steps -/

/-- How a fetch step changes the finished fetches. -/
structure FCount (s s' : Sys D) : Prop where
  fl : s'.fl = s.fl
  old : ∀ k, s.fe.states k = some .fetched →
    s'.fe.states k = some .fetched ∧ s'.fe.finished.count (k, true) = s.fe.finished.count (k, true) ∧ s'.sh.fs k = s.sh.fs k
  new : ∀ k, s.fe.states k ≠ some .fetched →
    (s'.fe.states k = some .fetched ∧ s'.fe.finished.count (k, true) = s.fe.finished.count (k, true) + 1) ∨
    (s'.fe.states k ≠ some .fetched ∧ s'.fe.finished.count (k, true) = s.fe.finished.count (k, true))

theorem FCount.same {s s' : Sys D} (h1 : s'.fl = s.fl) (h2 : s'.fe.finished = s.fe.finished) (h3 : s'.sh = s.sh)
    (h4 : ∀ k, s'.fe.states k = some .fetched ↔ s.fe.states k = some .fetched) : FCount s s' :=
  ⟨h1, fun k hk => ⟨(h4 k).mpr hk, by rw [h2], by rw [h3]⟩, fun k hk => Or.inr ⟨fun h => hk ((h4 k).mp h), by rw [h2]⟩⟩

theorem fetchCompleted_count {s0 s : Sys D} {j : Nat} {ok : Bool} (h1 : s.fl = s0.fl) (h2 : s.fe.finished = s0.fe.finished)
    (h3 : s.sh = s0.sh) (h4 : s.fe.states = s0.fe.states) (hj : s0.fe.states j ≠ some .fetched) : FCount s0 (fetchCompleted s j ok).1 := by
  obtain ⟨r1, r2, r3, r4⟩ := release_rest s.fe j
  have hne : ∀ k, s0.fe.states k = some .fetched → k ≠ j := by rintro k hk rfl; exact hj hk
  unfold fetchCompleted
  simp only [r1, r2, r3, r4, h1, h2, h3, h4]
  split
  · refine ⟨rfl, fun k hk => ?_, fun k hk => ?_⟩
    · have := hne k hk
      refine ⟨by simp [upd_ne _ _ this, hk], ?_, rfl⟩
      simp [List.count_append, List.count_singleton, this.symm]
    · by_cases hkj : k = j
      · subst hkj; left; exact ⟨by simp, by simp [List.count_append]⟩
      · right
        refine ⟨by simp [upd_ne _ _ hkj, hk], ?_⟩
        have : j ≠ k := fun e => hkj e.symm
        simp [List.count_append, List.count_singleton, this]
  · split
    · refine ⟨rfl, fun k hk => ?_, fun k hk => ?_⟩
      · have := hne k hk
        exact ⟨by simp [upd_ne _ _ this, hk], rfl, rfl⟩
      · right
        by_cases hkj : k = j
        · subst hkj; exact ⟨by simp, rfl⟩
        · exact ⟨by simp [upd_ne _ _ hkj, hk], rfl⟩
    · refine ⟨rfl, fun k hk => ?_, fun k hk => ?_⟩
      · have := hne k hk
        refine ⟨by simp [upd_ne _ _ this, hk], ?_, by simp [Shared.setFailed, upd_ne _ _ this]⟩
        simp [List.count_append, List.count_singleton]
      · right
        by_cases hkj : k = j
        · subst hkj; exact ⟨by simp, by simp [List.count_append, List.count_singleton]⟩
        · exact ⟨by simp [upd_ne _ _ hkj, hk], by simp [List.count_append, List.count_singleton]⟩

theorem handleFetch_count {s0 s : Sys D} {j : Nat} (h1 : s.fl = s0.fl) (h2 : s.fe.finished = s0.fe.finished)
    (h3 : s.sh = s0.sh) (h4 : s.fe.states = s0.fe.states) : FCount s0 (handleFetch s j).1 := by
  unfold handleFetch
  split
  · exact .same h1 h2 h3 fun k => by rw [h4]
  · split
    · exact .same h1 h2 h3 fun k => by rw [h4]
    · rename_i hn
      refine .same h1 h2 h3 fun k => ?_
      by_cases hkj : k = j
      · subst hkj
        have : s.fe.states k = none := by simpa using hn
        rw [h4] at this
        simp [this]
      · simp [upd_ne _ _ hkj, h4]

theorem startFetch_count {s s' : Sys D} {ls : List (Lab D)} {b : Bool} (hf : FetchInv c s) (h : startFetch c s b = some (s', ls)) :
    FCount s s' := by
  unfold startFetch at h
  split at h
  · rename_i k q bu free hq hff
    have hst := ((hf.ok k).queued (by rw [hq]; simp)).2.2.2.2
    simp only at h
    split at h
    · simp only [Option.some.injEq, Prod.mk.injEq] at h
      obtain ⟨rfl, -⟩ := h
      refine .same rfl rfl rfl fun j => ?_
      by_cases hjk : j = k
      · subst hjk; simp [hst]
      · simp [upd_ne _ _ hjk]
    · simp only [Option.some.injEq, Prod.mk.injEq] at h
      obtain ⟨rfl, -⟩ := h
      exact fetchCompleted_count rfl rfl rfl rfl (by rw [hst]; simp)
  · simp at h

theorem sourceDone_count {s s' : Sys D} {ls : List (Lab D)} {k : Nat} {ok b : Bool} {g : Nat → D} (hf : FetchInv c s)
    (h : sourceDone c s k ok b g = some (s', ls)) : FCount s s' := by
  unfold sourceDone at h
  split at h
  · rename_i hsi
    have hst := ((hf.ok k).src hsi).2.2.2.2
    simp only at h
    split at h
    · simp only [Option.some.injEq, Prod.mk.injEq] at h
      obtain ⟨rfl, -⟩ := h
      exact .same rfl rfl rfl fun _ => Iff.rfl
    · split at h
      · split at h
        · simp only [Option.some.injEq, Prod.mk.injEq] at h
          obtain ⟨rfl, -⟩ := h
          exact .same rfl rfl rfl fun _ => Iff.rfl
        · simp only [Option.some.injEq] at h
          rw [← show (fetchCompleted _ _ _).1 = s' from congrArg Prod.fst h]
          exact fetchCompleted_count rfl rfl rfl rfl (by rw [hst]; simp)
      · simp only [Option.some.injEq] at h
        rw [← show (fetchCompleted _ _ _).1 = s' from congrArg Prod.fst h]
        exact fetchCompleted_count rfl rfl rfl rfl (by rw [hst]; simp)
  · simp at h

theorem targetDone_count {s : Sys D} {k : Nat} {ok b : Bool} (hf : FetchInv c s) (hm : s.t.mayComplete (.fetch k) ok) :
    FCount s (targetDone s k ok b).1 := by
  have hkd : s.t.kinds (.fetch k) ≠ none := by
    obtain ⟨op, h1, -⟩ := hm
    intro h; rw [kinds_none.mp h] at h1; simp at h1
  obtain ⟨-, -, -, -, hst⟩ := (hf.ok k).busy hkd
  have hne : s.fe.states k ≠ some .fetched := by rcases hst with ⟨h, -⟩ | ⟨h, -⟩ <;> rw [h] <;> simp
  unfold targetDone
  simp only
  split
  · split
    · rename_i hs
      split
      · refine .same rfl rfl rfl fun j => ?_
        by_cases hjk : j = k
        · subst hjk; simp [hne]
        · simp [upd_ne _ _ hjk]
      · exact fetchCompleted_count rfl rfl rfl rfl hne
    · exact fetchCompleted_count rfl rfl rfl rfl hne
    · exact .same rfl rfl rfl fun _ => Iff.rfl
  · exact fetchCompleted_count rfl rfl rfl rfl hne

/-! ### At most one announcement per stripe -/

/-- 1 if a FETCHED update of stripe `k` is in flight. -/
def updTok (s : Sys D) (k : Nat) : Nat := if (s.fl.updates k).map (·.mask) = some FETCHED then 1 else 0

/-- Announcements of stripe `k` under way to the metadata. -/
def tok (s : Sys D) (k : Nat) : Nat := s.fe.finished.count (k, true) + s.fl.queue.count (k, FETCHED) + updTok s k

/-- A stripe is announced at most once, after its copy is complete. -/
def TokInv (s : Sys D) : Prop := ∀ k, tok s k ≤ 1 ∧ (tok s k ≠ 0 → s.fe.states k = some .fetched)

theorem TokInv.keep {s s' : Sys D} (h : TokInv s) (h1 : ∀ k, tok s' k ≤ tok s k)
    (h2 : ∀ k, s.fe.states k = some .fetched → s'.fe.states k = some .fetched) : TokInv s' := fun k => by
  have := h k
  have := h1 k
  exact ⟨by omega, fun h3 => h2 k ((h k).2 (by omega))⟩

theorem FCount.tokInv {s s' : Sys D} (hc : FCount s s') (h : TokInv s) : TokInv s' := by
  intro k
  have e : tok s' k = s'.fe.finished.count (k, true) + s.fl.queue.count (k, FETCHED) + updTok s k := by
    unfold Lazy.tok updTok; rw [hc.fl]
  have e' : tok s k = s.fe.finished.count (k, true) + s.fl.queue.count (k, FETCHED) + updTok s k := rfl
  have hk := h k
  by_cases hst : s.fe.states k = some .fetched
  · obtain ⟨h1, h2, -⟩ := hc.old k hst
    rw [e, h2, ← e']
    exact ⟨hk.1, fun _ => h1⟩
  · have h0 : tok s k = 0 := Classical.byContradiction fun hn => hst (hk.2 hn)
    rcases hc.new k hst with ⟨h1, h2⟩ | ⟨h1, h2⟩
    · refine ⟨?_, fun _ => h1⟩
      rw [e, h2]; omega
    · refine ⟨by rw [e, h2]; omega, fun hn => absurd ?_ hn⟩
      rw [e, h2]; omega

theorem FW : FETCHED ≠ WRITTEN := by decide

/-- Effect of starting an update on the announcements. -/
theorem startMeta_tok {s s' : Sys D} {mv : Nat → Bytes} (hm : MetaInv c mv s) {b : Bool} (h : startMeta s b = some s') (k : Nat) :
    tok s' k ≤ tok s k := by
  have hfe := (startMeta_frame h).1
  unfold startMeta at h
  split at h
  · simp at h
  · rename_i j mask q hq
    split at h
    · simp at h
    · split at h
      · simp at h
      · rename_i hbz
        have hnu : s.fl.updates j = none := by
          cases hu : s.fl.updates j with
          | none => rfl
          | some u =>
            have := hm.upd j u hu
            exact absurd (by rw [← this.sector]; exact this.busy) hbz
        split at h
        · simp only [Option.some.injEq] at h
          subst h
          unfold tok updTok
          simp only [hq, List.count_cons]
          omega
        · split at h
          · simp only [Option.some.injEq] at h
            subst h
            unfold tok updTok
            simp only [hq, List.count_cons]
            by_cases hkj : k = j
            · subst hkj
              by_cases hmk : mask = FETCHED
              · subst hmk; simp [hnu]; omega
              · simp [hmk, hnu]
            · simp only [upd_ne _ _ hkj]
              omega
          · simp only [Option.some.injEq] at h
            subst h
            unfold tok updTok
            simp only [hq, List.count_cons]
            omega

theorem metaDone_tok (s : Sys D) (j : Nat) (ok b : Bool) (k : Nat) : tok (metaDone s j ok b) k ≤ tok s k := by
  have hfe : (metaDone s j ok b).fe = s.fe := by unfold metaDone; simp only; split <;> (try rfl); split <;> (try rfl); split <;> (try rfl); split <;> rfl
  have hq : (metaDone s j ok b).fl.queue = s.fl.queue := by
    unfold metaDone; simp only; split <;> (try rfl); split <;> (try rfl); split <;> (try rfl); split <;> rfl
  have hu : updTok (metaDone s j ok b) k ≤ updTok s k := by
    unfold updTok
    by_cases hkj : k = j
    · subst hkj
      cases hu : s.fl.updates k with
      | none => unfold metaDone; simp [hu]
      | some u =>
        unfold metaDone
        simp only [hu]
        split
        · split
          · split
            · simp
            · simp [Flusher.revert]
          · simp
        · simp [Flusher.revert]
    · have : (metaDone s j ok b).fl.updates k = s.fl.updates k := by
        unfold metaDone
        simp only
        split
        · rfl
        · split
          · split
            · split
              · simp [upd_ne _ _ hkj]
              · simp [Flusher.revert, upd_ne _ _ hkj]
            · simp [upd_ne _ _ hkj]
          · simp [Flusher.revert, upd_ne _ _ hkj]
      rw [this]; exact Nat.le_refl _
  unfold tok
  rw [hfe, hq]
  omega

theorem step_tok {s s' : Sys D} {a : Act D} {ls : List (Lab D)} (hs : Sound c s) (hi : TokInv s) (h : Step c s a ls s') : TokInv s' := by
  by_cases hg : a.isGuest = true
  · have g := guest_frame h hg
    exact hi.keep (fun k => by unfold tok updTok; rw [g.fe, g.fl]; exact Nat.le_refl _) fun k hk => by rw [g.fe]; exact hk
  obtain ⟨gg, ab, hsim⟩ := hs.sim
  obtain ⟨⟨⟨hdrs, mv, hb, hm⟩, hf⟩, -⟩ := hs
  cases h with
  | execData | execMeta => exact hi
  | receiveFetch k ms hms => exact FCount.tokInv (s := s) (handleFetch_count rfl rfl rfl rfl) hi
  | receiveWritten k ms hms =>
    refine hi.keep (fun j => ?_) fun _ h => h
    unfold tok updTok
    simp only [List.count_append, List.count_singleton]
    have : ((k, WRITTEN) == (j, FETCHED)) = false := by
      rw [beq_eq_false_iff_ne]; intro e; exact FW (Prod.mk.inj e).2.symm
    rw [this]
    simp
  | autofetch k ks ha hq h => exact FCount.tokInv (s := s) (handleFetch_count rfl rfl rfl rfl) hi
  | startFetch submitOk _ _ h => exact (startFetch_count hf h).tokInv hi
  | sourceDone k ok submitOk garbage _ _ h => exact (sourceDone_count hf h).tokInv hi
  | targetDone k ok submitOk h => exact (targetDone_count hf h).tokInv hi
  | takeFinished k ok rest h =>
    refine hi.keep (fun j => ?_) fun _ h => h
    unfold tok updTok
    cases ok with
    | false =>
      simp only [h, List.count_cons, Bool.false_eq_true, if_false]
      omega
    | true =>
      simp only [h, List.count_cons, if_true, List.count_append, List.count_nil]
      have : ((k, FETCHED) == (j, FETCHED)) = ((k, true) == (j, true)) := by
        by_cases e : k = j
        · subst e; simp
        · have h1 : ((k, FETCHED) == (j, FETCHED)) = false := by rw [beq_eq_false_iff_ne]; intro h; exact e (Prod.mk.inj h).1
          have h2 : ((k, true) == (j, true)) = false := by rw [beq_eq_false_iff_ne]; intro h; exact e (Prod.mk.inj h).1
          rw [h1, h2]
      rw [this]
      omega
  | startMeta submitOk _ h => exact hi.keep (fun k => startMeta_tok hm h k) fun k hk => by rw [(startMeta_frame h).1]; exact hk
  | metaDone k ok submitOk h => exact hi.keep (fun j => metaDone_tok _ _ _ _ _) fun j hj => by simpa using hj
  | disconnect hd hb hc => exact hi
  | _ => simp [Act.isGuest] at hg

theorem TokInv.boot {hdrs : Bytes} {tv : Nat → D} {mv : Nat → Bytes} {b0 : Nat → Nat → D} : TokInv (Sys.boot c hdrs tv mv b0) := by
  intro k
  have : tok (Sys.boot c hdrs tv mv b0) k = 0 := by simp [tok, updTok, Sys.boot]
  rw [this]
  exact ⟨by omega, fun h => absurd rfl h⟩

theorem TokInv.run {s0 s : Sys D} {ls : List (Lab D)} (hs : Sound c s0) (h0 : TokInv s0) (h : Run c s0 ls s) : TokInv s :=
  h.preserve hs (fun _ _ _ _ h1 h2 h3 => step_tok h1 h2 h3) (fun _ _ _ _ _ _ _ _ _ _ => .boot) h0

/-! ### A stripe nobody will announce -/

/-- The copy of the stripe is complete, but it is not known as fetched and nothing under way will change that. -/
structure Stuck (s : Sys D) (k : Nat) : Prop where
  st : s.fe.states k = some .fetched
  nf : s.sh.fs k = .notFetched
  tok : tok s k = 0
  hdr : flag (s.fl.hdrs.getD k 0) FETCHED = false

theorem FCount.stuck {s s' : Sys D} (hc : FCount s s') {k : Nat} (h : Stuck s k) : Stuck s' k := by
  obtain ⟨h1, h2, h3⟩ := hc.old k h.st
  refine ⟨h1, h3.trans h.nf, ?_, by rw [hc.fl]; exact h.hdr⟩
  have := h.tok
  unfold Lazy.tok updTok at *
  rw [h2, hc.fl]
  exact this

theorem step_stuck {s s' : Sys D} {a : Act D} {ls : List (Lab D)} (hs : Sound c s) {k : Nat} (hi : Stuck s k) (h : Step c s a ls s') :
    Stuck s' k := by
  by_cases hg : a.isGuest = true
  · have g := guest_frame h hg
    exact ⟨by rw [g.fe]; exact hi.st, by rw [g.sh]; exact hi.nf, by have := hi.tok; unfold tok updTok at *; rw [g.fe, g.fl]; exact this,
      by rw [g.fl]; exact hi.hdr⟩
  obtain ⟨gg, ab, hsim⟩ := hs.sim
  obtain ⟨⟨⟨hdrs, mv, hb, hm⟩, hf⟩, -⟩ := hs
  have h0 := hi.tok
  have hkn : k < c.n := hf.bound k (by rw [hi.st]; simp)
  have hlen : k < s.fl.hdrs.length := by rw [hm.len]; exact hkn
  cases h with
  | execData | execMeta => exact ⟨hi.st, hi.nf, hi.tok, hi.hdr⟩
  | receiveFetch j ms hms => exact FCount.stuck (s := s) (s' := (handleFetch { s with msgs := ms } j).1) (handleFetch_count rfl rfl rfl rfl) hi
  | receiveWritten j ms hms =>
    refine ⟨hi.st, hi.nf, ?_, hi.hdr⟩
    unfold tok updTok at *
    simp only [List.count_append, List.count_singleton]
    have : ((j, WRITTEN) == (k, FETCHED)) = false := by
      rw [beq_eq_false_iff_ne]; intro e; exact FW (Prod.mk.inj e).2.symm
    rw [this]
    simpa using h0
  | autofetch j ks ha hq h => exact FCount.stuck (s := s) (s' := (handleFetch { s with fe := { s.fe with autoq := ks } } j).1) (handleFetch_count rfl rfl rfl rfl) hi
  | startFetch submitOk _ _ h => exact (startFetch_count hf h).stuck hi
  | sourceDone j ok submitOk garbage _ _ h => exact (sourceDone_count hf h).stuck hi
  | targetDone j ok submitOk h => exact (targetDone_count hf h).stuck hi
  | takeFinished j ok rest h =>
    have hne : (j, ok) ≠ (k, true) := by
      intro e
      unfold tok at h0
      rw [h, e] at h0
      simp at h0
    refine ⟨hi.st, hi.nf, ?_, by simp only; split <;> exact hi.hdr⟩
    unfold tok updTok at *
    rw [h] at h0
    cases ok with
    | false =>
      simp only [List.count_cons, Bool.false_eq_true, if_false] at h0 ⊢
      omega
    | true =>
      have hjk : j ≠ k := by rintro rfl; exact hne rfl
      simp only [List.count_cons, if_true, List.count_append, List.count_nil] at h0 ⊢
      have : ((j, FETCHED) == (k, FETCHED)) = false := by rw [beq_eq_false_iff_ne]; intro h; exact hjk (Prod.mk.inj h).1
      rw [this]
      simp only [Bool.false_eq_true, if_false]
      omega
  | startMeta submitOk _ h =>
    obtain ⟨e1, -, -, -, e5⟩ := startMeta_frame h
    refine ⟨by rw [e1]; exact hi.st, by rw [e5]; exact hi.nf, by have := startMeta_tok hm h k; omega, ?_⟩
    unfold startMeta at h
    split at h
    · simp at h
    · rename_i j mask q hq
      have hw : j = k → mask = WRITTEN := by
        rintro rfl
        rcases (hm.queue j mask (by rw [hq]; simp)).2 with ⟨rfl, -⟩ | h1
        · unfold tok at h0; rw [hq] at h0; simp at h0
        · exact h1
      split at h
      · simp at h
      · split at h
        · simp at h
        · split at h
          · simp only [Option.some.injEq] at h
            subst h; exact hi.hdr
          · have hjl : j < s.fl.hdrs.length := by rw [hm.len]; exact (hm.queue j mask (by rw [hq]; simp)).1
            split at h
            · simp only [Option.some.injEq] at h
              subst h
              simp only
              rw [getD_set _ _ _ _ hjl]
              split
              · rename_i e
                rw [← e, hw e.symm, flag_or, hi.hdr, flag_WF]; rfl
              · exact hi.hdr
            · simp only [Option.some.injEq] at h
              subst h
              simp only
              rw [getD_set _ _ _ _ hjl]
              split
              · rename_i e
                rw [← e, hw e.symm, flag_clear_W_F, flag_or, hi.hdr, flag_WF]; rfl
              · exact hi.hdr
  | metaDone j ok submitOk h =>
    have hu : ∀ u, s.fl.updates j = some u → j = k → u.mask = WRITTEN ∧ flag u.header FETCHED = false := by
      rintro u hu rfl
      have huo := hm.upd j u hu
      refine ⟨?_, by rw [huo.header]; exact hi.hdr⟩
      rcases huo.mask with ⟨h1, -⟩ | ⟨h1, -⟩
      · unfold tok updTok at h0; rw [hu] at h0; simp [h1] at h0
      · exact h1
    refine ⟨by simpa using hi.st, ?_, by have := metaDone_tok s j ok submitOk k; omega, ?_⟩
    · cases hju : s.fl.updates j with
      | none => unfold metaDone; simp only [hju]; exact hi.nf
      | some u =>
        unfold metaDone
        simp only [hju]
        split
        · split
          · split <;> exact hi.nf
          · simp only [Shared.setHeader]
            split
            · rename_i hfl
              have hjk : k ≠ j := by
                rintro rfl
                rw [(hu u hju rfl).2] at hfl; simp at hfl
              rw [upd_ne _ _ hjk]; exact hi.nf
            · exact hi.nf
        · exact hi.nf
    · cases hju : s.fl.updates j with
      | none => unfold metaDone; simp only [hju]; exact hi.hdr
      | some u =>
        have hjl : j < s.fl.hdrs.length := by rw [hm.len]; exact (hm.upd j u hju).kn
        have hrev : flag ((s.fl.hdrs.set j (s.fl.hdrs.getD j 0 &&& ~~~u.mask)).getD k 0) FETCHED = false := by
          rw [getD_set _ _ _ _ hjl]
          split
          · rename_i e
            rw [(hu u hju e.symm).1, flag_clear_W_F, ← e]; exact hi.hdr
          · exact hi.hdr
        unfold metaDone
        simp only [hju]
        split
        · split
          · split
            · exact hi.hdr
            · exact hrev
          · exact hi.hdr
        · exact hrev
  | disconnect hd hb hc => exact ⟨hi.st, hi.nf, hi.tok, hi.hdr⟩
  | _ => simp [Act.isGuest] at hg

/-- Losing the FETCHED update of a stripe in flight. -/
theorem lost_stuck {s : Sys D} (hs : Sound c s) (ht : TokInv s) {k : Nat} {u : Update} {ok b : Bool} (hu : s.fl.updates k = some u)
    (hmk : u.mask = FETCHED) (hf : (ok && (b || u.stage == .flushing)) = false) (hn : s.sh.fs k = .notFetched) :
    Stuck (metaDone s k ok b) k := by
  obtain ⟨gg, ab, hsim⟩ := hs.sim
  obtain ⟨⟨⟨hdrs, mv, hb, hm⟩, hf'⟩, -⟩ := hs
  have hjl : k < s.fl.hdrs.length := by rw [hm.len]; exact (hm.upd k u hu).kn
  have h1 : updTok s k = 1 := by unfold updTok; rw [hu]; simp [hmk]
  have h2 := ht k
  have h3 : tok s k = s.fe.finished.count (k, true) + s.fl.queue.count (k, FETCHED) + updTok s k := rfl
  have hst : s.fe.states k = some .fetched := h2.2 (by omega)
  have hrev : flag ((s.fl.hdrs.set k (s.fl.hdrs.getD k 0 &&& ~~~u.mask)).getD k 0) FETCHED = false := by
    rw [getD_set _ _ _ _ hjl, if_pos rfl, hmk, flag_clear_F_F]
  have key : ∀ s' : Sys D, s'.fe = s.fe → s'.sh = s.sh → s'.fl.queue = s.fl.queue → s'.fl.updates k = none →
      s'.fl.hdrs = s.fl.hdrs.set k (s.fl.hdrs.getD k 0 &&& ~~~u.mask) → Stuck s' k := by
    intro s' e1 e2 e3 e4 e5
    refine ⟨by rw [e1]; exact hst, by rw [e2]; exact hn, ?_, by rw [e5]; exact hrev⟩
    unfold tok updTok
    rw [e1, e3, e4]
    simp
    constructor
    · omega
    · omega
  unfold metaDone
  simp only [hu]
  cases ok with
  | false =>
    simp only [Bool.false_eq_true, if_false]
    exact key _ rfl rfl rfl (by simp [Flusher.revert]) rfl
  | true =>
    simp only [if_true]
    cases hsg : u.stage with
    | flushing => rw [hsg] at hf; simp at hf
    | writing =>
      have hb' : b = false := by rw [hsg] at hf; simpa using hf
      subst hb'
      simp only [Bool.false_eq_true, if_false]
      exact key _ rfl rfl rfl (by simp [Flusher.revert]) rfl

/-- Losing the FETCHED update of a stripe before it starts. -/
theorem lost_stuck' {s s' : Sys D} (hs : Sound c s) (ht : TokInv s) {k : Nat} {q : List (Nat × UInt8)} (hq : s.fl.queue = (k, FETCHED) :: q)
    (hfl : flag (s.fl.hdrs.getD k 0) FETCHED = false) (h : startMeta s false = some s') (hn : s.sh.fs k = .notFetched) :
    Stuck s' k := by
  obtain ⟨gg, ab, hsim⟩ := hs.sim
  obtain ⟨⟨⟨hdrs, mv, hb, hm⟩, hf'⟩, -⟩ := hs
  have hjl : k < s.fl.hdrs.length := by rw [hm.len]; exact (hm.queue k FETCHED (by rw [hq]; simp)).1
  have h2 := ht k
  have h3 : tok s k = s.fe.finished.count (k, true) + s.fl.queue.count (k, FETCHED) + updTok s k := rfl
  have h4 : s.fl.queue.count (k, FETCHED) = q.count (k, FETCHED) + 1 := by rw [hq]; simp
  have hst : s.fe.states k = some .fetched := h2.2 (by omega)
  unfold startMeta at h
  rw [hq] at h
  simp only [hfl] at h
  split at h
  · simp at h
  · split at h
    · simp at h
    · simp only [Bool.false_eq_true, if_false, Option.some.injEq] at h
      subst h
      refine ⟨hst, hn, ?_, ?_⟩
      · have e : ∀ s' : Sys D, s'.fe = s.fe → s'.fl.updates = s.fl.updates → s'.fl.queue = q → tok s' k = 0 := by
          intro s' e1 e2 e3
          unfold tok updTok
          rw [e1, e2, e3]
          unfold updTok at h3
          omega
        exact e _ rfl rfl rfl
      · simp only
        rw [getD_set _ _ _ _ hjl, if_pos rfl, flag_clear_F_F]

/-! ### Requests behind it -/

/-- Request `r0` heads (a part of) queue `q`; it waits for stripe `k` and for no other, and `r` is behind it. -/
structure Blocked (c : Cfg D) (s : Sys D) (k q : Nat) (r0 r : QReq D) : Prop where
  stuck : Stuck s k
  queue : ∃ pre post, (s.ch q).queue = pre ++ r0 :: post ∧ r ∈ r0 :: post
  first : ∃ ks1 ks2, stripes c r0 = ks1 ++ k :: ks2 ∧ ∀ j ∈ ks1, s.sh.isLocal j = true

theorem fetchStatus_pending {sh : Shared} {k : Nat} {ks1 ks2 : List Nat} (h1 : ∀ j ∈ ks1, sh.isLocal j = true) (h2 : sh.fs k = .notFetched) :
    fetchStatus sh (ks1 ++ k :: ks2) = .pending := by
  induction ks1 with
  | nil => simp [fetchStatus, h2]
  | cons j ks ih =>
    have h := h1 j (by simp)
    have ih := ih fun i hi => h1 i (by simp [hi])
    simp only [Shared.isLocal, Bool.or_eq_true, decide_eq_true_eq] at h
    simp only [List.cons_append, fetchStatus]
    rcases h with h | h <;> rw [h] <;> exact ih

theorem enqueueReq_queue {s : Sys D} {q q' : Nat} {r : QReq D} {b : Bool} :
    ∃ t, ((enqueueReq c s q' r b).1.ch q).queue = (s.ch q).queue ++ t := by
  unfold enqueueReq
  split
  · simp only [setCh_ch]
    by_cases hq : q = q'
    · subst hq; exact ⟨[r], by simp⟩
    · exact ⟨[], by simp [hq]⟩
  · refine ⟨[], ?_⟩
    simp only [finishFalse, setCh_ch]
    split
    · rename_i h; subst h; simp
    · simp

theorem finishFalse_queue (s : Sys D) (q q' id : Nat) : ((finishFalse s q' id).ch q).queue = (s.ch q).queue := by
  simp only [finishFalse, setCh_ch]
  split
  · rename_i h; subst h; rfl
  · rfl

/-- A queue only loses its first request, and only if that is not pending. -/
theorem step_queue {s s' : Sys D} {a : Act D} {ls : List (Lab D)} (h : Step c s a ls s') (q : Nat) :
    (∃ t, (s'.ch q).queue = (s.ch q).queue ++ t) ∨
    ∃ r rest, (s.ch q).queue = r :: rest ∧ (s'.ch q).queue = rest ∧ fetchStatus s.sh (stripes c r) ≠ .pending := by
  have hsame : ∀ s' : Sys D, s'.ch = s.ch → ∃ t, (s'.ch q).queue = (s.ch q).queue ++ t := fun s' e => ⟨[], by rw [e]; simp⟩
  have hfin : ∀ q' id, ∃ t, ((finishFalse s q' id).ch q).queue = (s.ch q).queue ++ t := fun q' id =>
    ⟨[], by rw [finishFalse_queue]; simp⟩
  by_cases hg : a.isGuest = true
  · cases h with
    | read q' id off cnt sendOk hv _ hid =>
      left
      unfold addRead
      simp only
      split
      · exact hsame _ toBase_ch
      · exact hfin _ _
      · split
        · refine ⟨[], ?_⟩
          simp only [setCh_ch]
          split
          · rename_i h; subst h; simp
          · simp
        · exact enqueueReq_queue
    | write q' id off cnt data sendOk hv hid =>
      left
      unfold addWrite
      simp only
      split
      · exact hfin _ _
      · split
        · exact hsame _ toBase_ch
        · exact enqueueReq_queue
      · exact enqueueReq_queue
    | flush q' id hid => exact Or.inl (hsame _ rfl)
    | processQueue q' submitOk _ _ h =>
      unfold processQueue at h
      split at h
      · simp at h
      · rename_i r rest hq
        have hch : ∀ f : Chan D → Chan D, ∀ s1 : Sys D, s1.ch = (s.setCh q' f).ch → (f (s.ch q')).queue = rest →
            fetchStatus s.sh (stripes c r) ≠ .pending →
            (∃ t, (s1.ch q).queue = (s.ch q).queue ++ t) ∨
            ∃ r rest, (s.ch q).queue = r :: rest ∧ (s1.ch q).queue = rest ∧ fetchStatus s.sh (stripes c r) ≠ .pending := by
          intro f s1 e1 e2 hn
          rw [e1, setCh_ch]
          by_cases hqq : q = q'
          · subst hqq; simp only [if_true]; exact Or.inr ⟨r, rest, hq, e2, hn⟩
          · simp only [hqq, if_false]; exact Or.inl ⟨[], by simp⟩
        split at h
        · simp at h
        · rename_i hst
          simp only [Option.some.injEq, Prod.mk.injEq] at h
          obtain ⟨rfl, -⟩ := h
          rw [finishFalse_queue]
          exact hch _ _ rfl rfl (by rw [hst]; simp)
        · rename_i hst
          split at h
          · simp at h
          · simp only at h
            split at h
            · simp only [Option.some.injEq, Prod.mk.injEq] at h
              obtain ⟨rfl, -⟩ := h
              exact hch _ _ toBase_ch rfl (by rw [hst]; simp)
            · simp only [Option.some.injEq, Prod.mk.injEq] at h
              obtain ⟨rfl, -⟩ := h
              rw [finishFalse_queue]
              exact hch _ _ rfl rfl (by rw [hst]; simp)
    | reportFinished q' id ok rest h =>
      left; refine ⟨[], ?_⟩
      simp only [setCh_ch]
      split
      · rename_i h; subst h; simp
      · simp
    | baseDone => exact Or.inl (hsame _ rfl)
    | imageDone q' id ok off cnt h =>
      left; refine ⟨[], ?_⟩
      simp only [setCh_ch]
      split
      · rename_i h; subst h; simp
      · simp
    | _ => simp [Act.isGuest] at hg
  · exact Or.inl (hsame _ (worker_step h (by simpa using hg)).2)

theorem step_blocked {s s' : Sys D} {a : Act D} {ls : List (Lab D)} (hs : Sound c s) {k q : Nat} {r0 r : QReq D}
    (hi : Blocked c s k q r0 r) (h : Step c s a ls s') : Blocked c s' k q r0 r := by
  obtain ⟨ks1, ks2, hf1, hf2⟩ := hi.first
  refine ⟨step_stuck hs hi.stuck h, ?_, ks1, ks2, hf1, fun j hj => ?_⟩
  · obtain ⟨pre, post, h1, h2⟩ := hi.queue
    rcases step_queue h q with ⟨t, ht⟩ | ⟨r1, rest, g1, g2, g3⟩
    · refine ⟨pre, post ++ t, by rw [ht, h1]; simp, ?_⟩
      rw [← List.cons_append]
      exact List.mem_append_left _ h2
    · cases pre with
      | nil =>
        rw [h1] at g1
        simp only [List.nil_append, List.cons.injEq] at g1
        obtain ⟨rfl, -⟩ := g1
        exact absurd (by rw [hf1]; exact fetchStatus_pending hf2 hi.stuck.nf) g3
      | cons p pre =>
        rw [h1] at g1
        simp only [List.cons_append, List.cons.injEq] at g1
        exact ⟨pre, post, by rw [g2, ← g1.2], h2⟩
  · exact (step_mono hs h).loc j (hf2 j hj)

/-- A waiting request is not answered. -/
theorem queued_silent {s s' : Sys D} {a : Act D} {ls : List (Lab D)} (hs : Sound c s) {q : Nat} {r : QReq D}
    (hr : r ∈ (s.ch q).queue) (h : Step c s a ls s') : ¬ answeredIn q r.id (visible ls) := by
  obtain ⟨gg, ab, hsim⟩ := hs.sim
  have h1 := hsim.one q r.id
  have h2 : 1 ≤ (s.ch q).queue.countP (fun x => decide (x.id = r.id)) :=
    List.countP_pos_iff.mpr ⟨r, hr, by simp⟩
  unfold locs at h1
  rintro ⟨ok, x, hx⟩
  by_cases hg : a.isGuest = true
  · cases h with
    | read q' id off cnt sendOk hv _ hid =>
      have : visible (addRead c s q' id off cnt sendOk).2 = [] := by
        unfold addRead
        simp only
        split
        · rfl
        · rfl
        · split
          · rfl
          · exact visible_enqueueReq
      simp [visible, this] at hx
    | write q' id off cnt data sendOk hv hid =>
      have : visible (addWrite c s q' id off cnt data sendOk).2 = [] := by
        unfold addWrite
        simp only
        split
        · rfl
        · split
          · rfl
          · exact visible_enqueueReq
        · exact visible_enqueueReq
      simp [visible, this] at hx
    | flush q' id hid => simp [visible] at hx
    | processQueue q' submitOk _ _ h =>
      unfold processQueue at h
      split at h
      · simp at h
      · split at h
        · simp at h
        · simp only [Option.some.injEq, Prod.mk.injEq] at h
          obtain ⟨-, rfl⟩ := h
          simp [visible] at hx
        · split at h
          · simp at h
          · simp only at h
            split at h <;>
            · simp only [Option.some.injEq, Prod.mk.injEq] at h
              obtain ⟨-, rfl⟩ := h
              simp [visible] at hx
    | reportFinished q' id ok' rest h =>
      simp only [visible, List.mem_singleton, Ev.resp.injEq] at hx
      obtain ⟨rfl, rfl, -⟩ := hx
      have : 1 ≤ (s.ch q).finished.countP (fun p => decide (p.1 = r.id)) :=
        List.countP_pos_iff.mpr ⟨(r.id, ok'), by rw [h]; simp, by simp⟩
      omega
    | baseDone q' id ok' h =>
      simp only [visible, List.mem_singleton, Ev.resp.injEq] at hx
      obtain ⟨rfl, rfl, -⟩ := hx
      have hk : s.t.kinds (.guest q r.id) ≠ none := by
        obtain ⟨op, h3, -⟩ := h
        intro h; rw [kinds_none.mp h] at h3; simp at h3
      cases hkk : s.t.kinds (.guest q r.id) with
      | none => exact hk hkk
      | some y => rw [hkk] at h1; simp at h1; omega
    | imageDone q' id ok' off cnt h =>
      simp only [visible, List.mem_singleton, Ev.resp.injEq] at hx
      obtain ⟨rfl, rfl, -⟩ := hx
      rw [h] at h1
      simp only [Option.isSome_some, Bool.toNat_true] at h1; omega
    | _ => simp [Act.isGuest] at hg
  · rw [(worker_step h (by simpa using hg)).1] at hx
    simp at hx

/-- Nothing behind a stuck stripe is ever answered. -/
theorem Blocked.silent {s s' : Sys D} {ls : List (Lab D)} (hs : Sound c s) {k q : Nat} {r0 r : QReq D}
    (hi : Blocked c s k q r0 r) (h : Alive c s ls s') : Blocked c s' k q r0 r ∧ ¬ answeredIn q r.id (visible ls) := by
  induction h with
  | nil => exact ⟨hi, fun ⟨_, _, h⟩ => by simp [visible] at h⟩
  | step hr hst ih =>
    have hs' := hs.run hr.run
    refine ⟨step_blocked hs' ih.1 hst, ?_⟩
    rintro ⟨ok, x, hx⟩
    rw [visible_append] at hx
    rcases List.mem_append.mp hx with hx | hx
    · exact ih.2 ⟨ok, x, hx⟩
    · obtain ⟨pre, post, h1, h2⟩ := ih.1.queue
      exact queued_silent hs' (by rw [h1]; exact List.mem_append_right _ h2) hst ⟨ok, x, hx⟩

end Verif.Lazy
