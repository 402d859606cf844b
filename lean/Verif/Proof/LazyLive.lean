import Verif.Spec.LazyProgress
import Verif.Proof.LazyRun
import Verif.Proof.LazyCore
import Verif.Proof.LazyCount
import Verif.Proof.LazySafe

/-! Progress of the lazily fetched disk: invariants that say every stripe somebody waits for is on its way. -/

namespace Verif.Lazy
open Verif Verif.Metadata Verif.Disk

variable {D : Type} {c : Cfg D}

/-! ### How shared state and fetch states evolve -/

theorem fetchCompleted_sh (s : Sys D) (k : Nat) (ok : Bool) :
    (fetchCompleted s k ok).1.sh = s.sh ∨ (fetchCompleted s k ok).1.sh = s.sh.setFailed k := by
  unfold fetchCompleted
  simp only
  split
  · exact Or.inl rfl
  · split
    · exact Or.inl rfl
    · exact Or.inr rfl

theorem fetchCompleted_states (s : Sys D) (k : Nat) (ok : Bool) (j : Nat) (h : s.fe.states j ≠ none) :
    (fetchCompleted s k ok).1.fe.states j ≠ none ∨ (fetchCompleted s k ok).1.sh.fs j = .failed := by
  unfold fetchCompleted
  simp only
  by_cases hj : j = k
  · subst hj
    split
    · left; simp
    · split
      · left; simp
      · right; simp [Shared.setFailed]
  · left
    split
    · simpa [upd_ne _ _ hj] using h
    · split <;> simpa [upd_ne _ _ hj] using h

theorem fetchCompleted_msgs (s : Sys D) (k : Nat) (ok : Bool) : (fetchCompleted s k ok).1.msgs = s.msgs := by
  unfold fetchCompleted
  simp only
  split
  · rfl
  · split <;> rfl

/-- Ways a step changes the shared state. -/
inductive ShStep (sh : Shared) : Shared → Prop where
  | same : ShStep sh sh
  | failed (k) : ShStep sh (sh.setFailed k)
  | header (k h) : ShStep sh (sh.setHeader k h)

theorem ShStep.fs {sh sh' : Shared} (h : ShStep sh sh') {k : Nat} (hk : sh'.fs k = .notFetched) : sh.fs k = .notFetched := by
  cases h with
  | same => exact hk
  | failed j =>
    by_cases hj : k = j
    · subst hj; simp [Shared.setFailed] at hk
    · simpa [Shared.setFailed, upd_ne _ _ hj] using hk
  | header j h =>
    unfold Shared.setHeader at hk
    simp only at hk
    split at hk
    · by_cases hj : k = j
      · subst hj; simp at hk
      · simpa [upd_ne _ _ hj] using hk
    · exact hk

/-- What a fetch step (other than taking a message) does to the things progress depends on. -/
structure FStep (s s' : Sys D) : Prop where
  sh : ShStep s.sh s'.sh
  msgs : s'.msgs = s.msgs
  st : ∀ j, s.fe.states j ≠ none → s'.fe.states j ≠ none ∨ s'.sh.fs j = .failed
  fl : s'.fl = s.fl
  ch : s'.ch = s.ch
  fin : ∀ p, p ∈ s.fe.finished → p ∈ s'.fe.finished
  new : ∀ j, s'.fe.states j = some .fetched → s.fe.states j = some .fetched ∨ (j, true) ∈ s'.fe.finished

theorem fetchCompleted_rest (s : Sys D) (k : Nat) (ok : Bool) :
    (fetchCompleted s k ok).1.fl = s.fl ∧ (fetchCompleted s k ok).1.ch = s.ch ∧
    (∀ p, p ∈ s.fe.finished → p ∈ (fetchCompleted s k ok).1.fe.finished) ∧
    (∀ j, (fetchCompleted s k ok).1.fe.states j = some .fetched →
      s.fe.states j = some .fetched ∨ (j, true) ∈ (fetchCompleted s k ok).1.fe.finished) := by
  unfold fetchCompleted
  simp only
  split
  · refine ⟨rfl, rfl, fun p hp => by simp [hp], fun j hj => ?_⟩
    by_cases hjk : j = k
    · right; simp [hjk]
    · left; simpa [upd_ne _ _ hjk] using hj
  · split
    · refine ⟨rfl, rfl, fun p hp => by simp [hp], fun j hj => ?_⟩
      by_cases hjk : j = k
      · subst hjk; simp at hj
      · left; simpa [upd_ne _ _ hjk] using hj
    · refine ⟨rfl, rfl, fun p hp => by simp [hp], fun j hj => ?_⟩
      by_cases hjk : j = k
      · subst hjk; simp at hj
      · left; simpa [upd_ne _ _ hjk] using hj

theorem FStep.fetchCompleted {s0 s : Sys D} {k : Nat} {ok : Bool} (h1 : s.sh = s0.sh) (h2 : s.msgs = s0.msgs)
    (h3 : s.fe.states = s0.fe.states) (h4 : s.fl = s0.fl) (h5 : s.ch = s0.ch) (h6 : s.fe.finished = s0.fe.finished) :
    FStep s0 (fetchCompleted s k ok).1 := by
  obtain ⟨g1, g2, g3, g4⟩ := fetchCompleted_rest s k ok
  refine ⟨?_, by rw [fetchCompleted_msgs, h2], fun j hj => fetchCompleted_states s k ok j (by rw [h3]; exact hj), g1.trans h4, g2.trans h5,
    fun p hp => g3 p (by rw [h6]; exact hp), fun j hj => by rw [← h3]; exact g4 j hj⟩
  rcases fetchCompleted_sh s k ok with h | h <;> rw [h, h1]
  · exact .same
  · exact .failed k

theorem handleFetch_states (s : Sys D) (k j : Nat) (h : s.fe.states j ≠ none) : (handleFetch s k).1.fe.states j ≠ none := by
  unfold handleFetch
  split
  · exact h
  · split
    · exact h
    · by_cases hj : j = k
      · subst hj; simp
      · simpa [upd_ne _ _ hj] using h

theorem handleFetch_msgs (s : Sys D) (k : Nat) : (handleFetch s k).1.msgs = s.msgs := by
  unfold handleFetch
  split
  · rfl
  · split <;> rfl

theorem startFetch_fstep {s s' : Sys D} {ls : List (Lab D)} {b : Bool} (h : startFetch c s b = some (s', ls)) : FStep s s' := by
  unfold startFetch at h
  split at h
  · rename_i k q bu free hq hf
    simp only at h
    split at h
    · simp only [Option.some.injEq, Prod.mk.injEq] at h
      obtain ⟨rfl, -⟩ := h
      refine ⟨.same, rfl, fun j hj => Or.inl ?_, rfl, rfl, fun _ h => h, fun j hj => Or.inl ?_⟩
      · by_cases hjk : j = k
        · subst hjk; simp
        · simpa [upd_ne _ _ hjk] using hj
      · by_cases hjk : j = k
        · subst hjk; simp at hj
        · simpa [upd_ne _ _ hjk] using hj
    · simp only [Option.some.injEq, Prod.mk.injEq] at h
      obtain ⟨rfl, -⟩ := h
      exact .fetchCompleted rfl rfl rfl rfl rfl rfl
  · simp at h

theorem sourceDone_fstep {s s' : Sys D} {ls : List (Lab D)} {k : Nat} {ok b : Bool} {g : Nat → D}
    (h : sourceDone c s k ok b g = some (s', ls)) : FStep s s' := by
  unfold sourceDone at h
  split at h
  · simp only at h
    split at h
    · simp only [Option.some.injEq, Prod.mk.injEq] at h
      obtain ⟨rfl, -⟩ := h
      exact ⟨.same, rfl, fun j hj => Or.inl hj, rfl, rfl, fun _ h => h, fun _ h => Or.inl h⟩
    · split at h
      · split at h
        · simp only [Option.some.injEq, Prod.mk.injEq] at h
          obtain ⟨rfl, -⟩ := h
          exact ⟨.same, rfl, fun j hj => Or.inl hj, rfl, rfl, fun _ h => h, fun _ h => Or.inl h⟩
        · simp only [Option.some.injEq] at h
          rw [show s' = (s', ls).1 from rfl, ← h]
          exact .fetchCompleted rfl rfl rfl rfl rfl rfl
      · simp only [Option.some.injEq] at h
        rw [show s' = (s', ls).1 from rfl, ← h]
        exact .fetchCompleted rfl rfl rfl rfl rfl rfl
  · simp at h

theorem targetDone_fstep {s : Sys D} {k : Nat} {ok b : Bool} : FStep s (targetDone s k ok b).1 := by
  unfold targetDone
  simp only
  split
  · split
    · split
      · refine ⟨.same, rfl, fun j hj => Or.inl ?_, rfl, rfl, fun _ h => h, fun j hj => Or.inl ?_⟩
        · by_cases hjk : j = k
          · subst hjk; simp
          · simpa [upd_ne _ _ hjk] using hj
        · by_cases hjk : j = k
          · subst hjk; simp at hj
          · simpa [upd_ne _ _ hjk] using hj
      · exact .fetchCompleted rfl rfl rfl rfl rfl rfl
    · exact .fetchCompleted rfl rfl rfl rfl rfl rfl
    · exact ⟨.same, rfl, fun j hj => Or.inl hj, rfl, rfl, fun _ h => h, fun _ h => Or.inl h⟩
  · exact .fetchCompleted rfl rfl rfl rfl rfl rfl

theorem metaDone_sh (s : Sys D) (k : Nat) (ok b : Bool) : ShStep s.sh (metaDone s k ok b).sh := by
  unfold metaDone
  simp only
  split
  · exact .same
  · split
    · split
      · split <;> exact .same
      · exact .header _ _
    · exact .same

/-! ### Messages sent by guest steps -/

theorem startFetches_grow (sh : Shared) (ks : List Nat) (req : Nat → Bool) (ms : List Msg) {m : Msg} (h : m ∈ ms) :
    m ∈ (startFetches sh ks req ms).2 := by
  induction ks generalizing req ms with
  | nil => exact h
  | cons k ks ih =>
    unfold startFetches
    split
    · exact ih _ _ (List.mem_append_left _ h)
    · exact ih _ _ h

theorem startFetches_req (sh : Shared) (ks : List Nat) (req : Nat → Bool) (ms : List Msg) (j : Nat)
    (h : (startFetches sh ks req ms).1 j = true) : req j = true ∨ .fetch j ∈ (startFetches sh ks req ms).2 := by
  induction ks generalizing req ms with
  | nil => exact Or.inl h
  | cons k ks ih =>
    unfold startFetches at h ⊢
    split
    · rename_i hc
      rw [if_pos hc] at h
      rcases ih _ _ h with h1 | h1
      · by_cases hj : j = k
        · subst hj
          exact Or.inr (startFetches_grow _ _ _ _ (by simp))
        · rw [upd_ne _ _ hj] at h1; exact Or.inl h1
      · exact Or.inr h1
    · rename_i hc
      rw [if_neg hc] at h
      exact ih _ _ h

theorem startFetches_sent (sh : Shared) (ks : List Nat) (req : Nat → Bool) (ms : List Msg) {j : Nat} (hj : j ∈ ks) :
    sh.isLocal j = true ∨ req j = true ∨ .fetch j ∈ (startFetches sh ks req ms).2 := by
  induction ks generalizing req ms with
  | nil => simp at hj
  | cons k ks ih =>
    unfold startFetches
    rcases List.mem_cons.mp hj with rfl | hj
    · split
      · exact Or.inr (Or.inr (startFetches_grow _ _ _ _ (by simp)))
      · rename_i hc
        simp only [Bool.and_eq_true, Bool.not_eq_true', not_and, Bool.not_eq_false] at hc
        cases hl : sh.isLocal j with
        | true => exact Or.inl rfl
        | false => exact Or.inr (Or.inl (hc hl))
    · split
      · rcases ih (upd req k true) (ms ++ [.fetch k]) hj with h1 | h1 | h1
        · exact Or.inl h1
        · by_cases hjk : j = k
          · subst hjk; exact Or.inr (Or.inr (startFetches_grow _ _ _ _ (by simp)))
          · rw [upd_ne _ _ hjk] at h1; exact Or.inr (Or.inl h1)
        · exact Or.inr (Or.inr h1)
      · exact ih req ms hj

/-! ### The invariants -/

/-- Stripe `k` needs no fetch any more, or is on its way. -/
def LiveK (s : Sys D) (k : Nat) : Prop := s.sh.fs k ≠ .notFetched ∨ Msg.fetch k ∈ s.msgs ∨ s.fe.states k ≠ none

/-- An update of the header of `k` with `mask` is in flight. -/
def updIn (s : Sys D) (k : Nat) (mask : UInt8) : Prop := ∃ u, s.fl.updates k = some u ∧ u.mask = mask

/-- The mark WRITTEN of stripe `k` is set or on its way. -/
def WLiveK (s : Sys D) (k : Nat) : Prop :=
  s.sh.ws k = true ∨ Msg.setWritten k ∈ s.msgs ∨ (k, WRITTEN) ∈ s.fl.queue ∨ updIn s k WRITTEN

/-- The mark FETCHED of a copied stripe is on its way. -/
def tokK (s : Sys D) (k : Nat) : Prop := (k, true) ∈ s.fe.finished ∨ (k, FETCHED) ∈ s.fl.queue ∨ updIn s k FETCHED

structure LiveInv (c : Cfg D) (s : Sys D) : Prop where
  fetched : ∀ k, s.fe.states k = some .fetched → s.sh.fs k ≠ .notFetched ∨ tokK s k
  hdrF : ∀ k, k < c.n → flag (s.fl.hdrs.getD k 0) FETCHED = true → s.sh.fs k ≠ .notFetched ∨ updIn s k FETCHED
  hdrW : ∀ k, k < c.n → flag (s.fl.hdrs.getD k 0) WRITTEN = true → s.sh.ws k = true ∨ updIn s k WRITTEN
  busy : ∀ x, s.fl.busy x = true → ∃ k u, s.fl.updates k = some u ∧ u.sector = x
  req : ∀ q k, (s.ch q).requested k = true → LiveK s k
  queue : ∀ q r, r ∈ (s.ch q).queue → ∀ k ∈ stripes c r, LiveK s k
  wqueue : c.track = true → ∀ q r, r ∈ (s.ch q).queue → r.out.isSome = true → ∀ k ∈ stripes c r, WLiveK s k

/-! ### Guest steps -/

/-- Nothing new waits on any queue. -/
def ChSub (s s' : Sys D) : Prop :=
  ∀ q, (∀ r, r ∈ (s'.ch q).queue → r ∈ (s.ch q).queue) ∧ ∀ k, (s'.ch q).requested k = true → (s.ch q).requested k = true

theorem ChSub.of_eq {s s' : Sys D} (h : s'.ch = s.ch) : ChSub s s' := fun q => by rw [h]; exact ⟨fun _ h => h, fun _ h => h⟩

theorem ChSub.setCh {s s1 : Sys D} {q : Nat} {f : Chan D → Chan D} (h1 : s1.ch = s.ch)
    (hq : ∀ ch : Chan D, ch = s.ch q → ∀ r, r ∈ (f ch).queue → r ∈ ch.queue)
    (hr : ∀ ch : Chan D, ch = s.ch q → ∀ k, (f ch).requested k = true → ch.requested k = true) : ChSub s (s1.setCh q f) := by
  intro q'
  rw [setCh_ch]
  split
  · rename_i h; subst h; rw [h1]; exact ⟨hq _ rfl, hr _ rfl⟩
  · rw [h1]; exact ⟨fun _ h => h, fun _ h => h⟩

theorem ChSub.trans {s s' s'' : Sys D} (h : ChSub s s') (h' : ChSub s' s'') : ChSub s s'' :=
  fun q => ⟨fun r hr => (h q).1 r ((h' q).1 r hr), fun k hk => (h q).2 k ((h' q).2 k hk)⟩

/-- The invariant after a step that leaves the worker alone and adds no waiting request. -/
theorem LiveInv.guest {s s' : Sys D} (h : LiveInv c s) (hfe : s'.fe = s.fe) (hsh : s'.sh = s.sh) (hfl : s'.fl = s.fl)
    (hm : ∀ m, m ∈ s.msgs → m ∈ s'.msgs) (hch : ChSub s s') : LiveInv c s' := by
  have hl : ∀ k, LiveK s k → LiveK s' k := by
    intro k hk
    unfold LiveK at *
    rw [hfe, hsh]
    rcases hk with hk | hk | hk
    · exact Or.inl hk
    · exact Or.inr (Or.inl (hm _ hk))
    · exact Or.inr (Or.inr hk)
  have hw : ∀ k, WLiveK s k → WLiveK s' k := by
    intro k hk
    unfold WLiveK updIn at *
    rw [hfl, hsh]
    rcases hk with hk | hk | hk
    · exact Or.inl hk
    · exact Or.inr (Or.inl (hm _ hk))
    · exact Or.inr (Or.inr hk)
  refine ⟨?_, ?_, ?_, ?_, fun q k hk => hl k (h.req q k ((hch q).2 k hk)), fun q r hr k hk => hl k (h.queue q r ((hch q).1 r hr) k hk),
    fun ht q r hr ho k hk => hw k (h.wqueue ht q r ((hch q).1 r hr) ho k hk)⟩
  · unfold tokK updIn; rw [hfe, hsh, hfl]; exact h.fetched
  · unfold updIn; rw [hsh, hfl]; exact h.hdrF
  · unfold updIn; rw [hsh, hfl]; exact h.hdrW
  · rw [hfl]; exact h.busy

theorem finishFalse_sub {s s1 : Sys D} {q id : Nat} (h : ChSub s s1) : ChSub s (finishFalse s1 q id) :=
  h.trans (ChSub.setCh rfl (fun _ _ _ h => h) (fun _ _ _ h => h))

theorem enqueueReq_live {s : Sys D} {q : Nat} {r : QReq D} {b : Bool} (h : LiveInv c s) : LiveInv c (enqueueReq c s q r b).1 := by
  unfold enqueueReq
  split
  · simp only
    generalize hM : (if (c.track && r.out.isSome) = true then
      (startFetches s.sh (stripes c r) (s.ch q).requested []).2 ++ startWritten s.sh (stripes c r)
      else (startFetches s.sh (stripes c r) (s.ch q).requested []).2) = M
    have hF : ∀ m, m ∈ (startFetches s.sh (stripes c r) (s.ch q).requested []).2 → m ∈ M := by
      intro m hm
      rw [← hM]
      split
      · exact List.mem_append_left _ hm
      · exact hm
    have hW : c.track = true → r.out.isSome = true → ∀ k ∈ stripes c r, s.sh.ws k = false → Msg.setWritten k ∈ M := by
      intro ht ho k hk hws
      rw [← hM]
      simp only [ht, ho, Bool.and_self, if_true]
      refine List.mem_append_right _ ?_
      unfold startWritten
      simp only [List.mem_map, List.mem_filter]
      exact ⟨k, ⟨hk, by simp [hws]⟩, rfl⟩
    have key : ∀ s' : Sys D, s'.sh = s.sh → s'.fe = s.fe → s'.fl = s.fl → s'.msgs = s.msgs ++ M →
        s'.ch = upd s.ch q { s.ch q with
          requested := (startFetches s.sh (stripes c r) (s.ch q).requested []).1, queue := (s.ch q).queue ++ [r] } → LiveInv c s' := by
      intro s' h1 h2 h3 h4 h5
      have hl : ∀ k, LiveK s k → LiveK s' k := by
        intro k hk
        unfold LiveK at *
        rw [h1, h2, h4]
        rcases hk with hk | hk | hk
        · exact Or.inl hk
        · exact Or.inr (Or.inl (List.mem_append_left _ hk))
        · exact Or.inr (Or.inr hk)
      have hl' : ∀ k, Msg.fetch k ∈ (startFetches s.sh (stripes c r) (s.ch q).requested []).2 → LiveK s' k := by
        intro k hk
        refine Or.inr (Or.inl ?_)
        rw [h4]; exact List.mem_append_right _ (hF _ hk)
      have hw : ∀ k, WLiveK s k → WLiveK s' k := by
        intro k hk
        unfold WLiveK updIn at *
        rw [h1, h3, h4]
        rcases hk with hk | hk | hk
        · exact Or.inl hk
        · exact Or.inr (Or.inl (List.mem_append_left _ hk))
        · exact Or.inr (Or.inr hk)
      refine ⟨?_, ?_, ?_, ?_, ?_, ?_, ?_⟩
      · unfold tokK updIn; rw [h1, h2, h3]; exact h.fetched
      · unfold updIn; rw [h1, h3]; exact h.hdrF
      · unfold updIn; rw [h1, h3]; exact h.hdrW
      · rw [h3]; exact h.busy
      · intro q' k hk
        by_cases hq : q' = q
        · subst hq
          rw [h5, upd_same] at hk
          rcases startFetches_req _ _ _ _ _ hk with h6 | h6
          · exact hl k (h.req _ k h6)
          · exact hl' k h6
        · rw [h5, upd_ne _ _ hq] at hk
          exact hl k (h.req _ k hk)
      · intro q' r' hr k hk
        by_cases hq : q' = q
        · subst hq
          rw [h5, upd_same] at hr
          simp only [List.mem_append, List.mem_singleton] at hr
          rcases hr with hr | rfl
          · exact hl k (h.queue _ r' hr k hk)
          · rcases startFetches_sent s.sh (stripes c r') (s.ch q').requested [] hk with h6 | h6 | h6
            · left
              rw [h1]
              intro h7
              simp [Shared.isLocal, h7] at h6
            · exact hl k (h.req _ k h6)
            · exact hl' k h6
        · rw [h5, upd_ne _ _ hq] at hr
          exact hl k (h.queue _ r' hr k hk)
      · intro ht q' r' hr ho k hk
        by_cases hq : q' = q
        · subst hq
          rw [h5, upd_same] at hr
          simp only [List.mem_append, List.mem_singleton] at hr
          rcases hr with hr | rfl
          · exact hw k (h.wqueue ht _ r' hr ho k hk)
          · cases hws : s.sh.ws k with
            | true => left; rw [h1]; exact hws
            | false =>
              refine Or.inr (Or.inl ?_)
              rw [h4]
              exact List.mem_append_right _ (hW ht ho k hk hws)
        · rw [h5, upd_ne _ _ hq] at hr
          exact hw k (h.wqueue ht _ r' hr ho k hk)
    exact key _ rfl rfl rfl rfl rfl
  · exact h.guest rfl rfl rfl (fun _ h => h) (finishFalse_sub (.of_eq rfl))

theorem toBase_live {s : Sys D} {q : Nat} {r : QReq D} (h : LiveInv c s) : LiveInv c (toBase s q r) := by
  obtain ⟨h1, h2, h3, h4, h5, h6⟩ := @toBase_frame D s q r
  exact h.guest h1 h3 h5 (fun m hm => by rw [h2]; exact hm) (.of_eq h6)

theorem guest_live {s s' : Sys D} {a : Act D} {ls : List (Lab D)} (hi : LiveInv c s) (h : Step c s a ls s')
    (hg : a.isGuest = true) : LiveInv c s' := by
  cases h with
  | read q id off cnt sendOk hv _ hid =>
    unfold addRead
    simp only
    split
    · dsimp only; exact toBase_live hi
    · exact hi.guest rfl rfl rfl (fun _ h => h) (finishFalse_sub (.of_eq rfl))
    · split
      · refine hi.guest rfl rfl rfl (fun _ h => h) ?_
        dsimp only
        exact ChSub.setCh rfl (fun _ _ _ h => h) (fun _ _ _ h => h)
      · exact enqueueReq_live hi
  | write q id off cnt data sendOk hv hid =>
    unfold addWrite
    simp only
    split
    · exact hi.guest rfl rfl rfl (fun _ h => h) (finishFalse_sub (.of_eq rfl))
    · split
      · dsimp only; exact toBase_live hi
      · exact enqueueReq_live hi
    · exact enqueueReq_live hi
  | flush q id hid => exact hi.guest rfl rfl rfl (fun _ h => h) (.of_eq rfl)
  | processQueue q submitOk _ _ h =>
    unfold processQueue at h
    split at h
    · simp at h
    · rename_i r rest hq
      have hsub : ∀ r', r' ∈ rest → r' ∈ (s.ch q).queue := fun r' h => by rw [hq]; exact List.mem_cons_of_mem _ h
      split at h
      · simp at h
      · simp only [Option.some.injEq, Prod.mk.injEq] at h
        obtain ⟨rfl, -⟩ := h
        exact hi.guest rfl rfl rfl (fun _ h => h) (finishFalse_sub (ChSub.setCh rfl (fun ch he r' h => by rw [he]; exact hsub r' h) (fun _ _ _ h => h)))
      · split at h
        · simp at h
        · simp only at h
          have hs1 : ChSub s (s.setCh q fun ch => { ch with queue := rest, requested := fun k => ch.requested k && !(stripes c r).contains k }) :=
            ChSub.setCh rfl (fun ch he r' h => by rw [he]; exact hsub r' h) (fun ch he k h => by
              simp only [Bool.and_eq_true] at h; exact h.1)
          split at h
          · simp only [Option.some.injEq, Prod.mk.injEq] at h
            obtain ⟨rfl, -⟩ := h
            exact toBase_live (hi.guest rfl rfl rfl (fun _ h => h) hs1)
          · simp only [Option.some.injEq, Prod.mk.injEq] at h
            obtain ⟨rfl, -⟩ := h
            exact hi.guest rfl rfl rfl (fun _ h => h) (finishFalse_sub hs1)
  | reportFinished q id ok rest h =>
    exact hi.guest rfl rfl rfl (fun _ h => h) (ChSub.setCh rfl (fun _ _ _ h => h) (fun _ _ _ h => h))
  | baseDone q id ok h => exact hi.guest rfl rfl rfl (fun _ h => h) (.of_eq rfl)
  | imageDone q id ok off cnt h =>
    exact hi.guest rfl rfl rfl (fun _ h => h) (ChSub.setCh rfl (fun _ _ _ h => h) (fun _ _ _ h => h))
  | _ => simp [Act.isGuest] at hg

/-! ### Steps of the worker -/

/-- Assembling the invariant after a step of the worker. -/
theorem LiveInv.worker {s s' : Sys D} (h : LiveInv c s) (hch : s'.ch = s.ch) (hl : ∀ k, LiveK s k → LiveK s' k)
    (hw : ∀ k, WLiveK s k → WLiveK s' k)
    (h1 : ∀ k, s'.fe.states k = some .fetched → s'.sh.fs k ≠ .notFetched ∨ tokK s' k)
    (h2 : ∀ k, k < c.n → flag (s'.fl.hdrs.getD k 0) FETCHED = true → s'.sh.fs k ≠ .notFetched ∨ updIn s' k FETCHED)
    (h3 : ∀ k, k < c.n → flag (s'.fl.hdrs.getD k 0) WRITTEN = true → s'.sh.ws k = true ∨ updIn s' k WRITTEN)
    (h4 : ∀ x, s'.fl.busy x = true → ∃ k u, s'.fl.updates k = some u ∧ u.sector = x) : LiveInv c s' :=
  ⟨h1, h2, h3, h4, fun q k hk => hl k (h.req q k (by rw [← hch]; exact hk)),
    fun q r hr k hk => hl k (h.queue q r (by rw [← hch]; exact hr) k hk),
    fun ht q r hr ho k hk => hw k (h.wqueue ht q r (by rw [← hch]; exact hr) ho k hk)⟩

theorem ShStep.ws {sh sh' : Shared} (h : ShStep sh sh') {k : Nat} (hk : sh.ws k = true) : sh'.ws k = true := by
  cases h with
  | same => exact hk
  | failed j => exact hk
  | header j h =>
    unfold Shared.setHeader
    simp only
    split
    · by_cases hj : k = j
      · subst hj; simp
      · simpa [upd_ne _ _ hj] using hk
    · exact hk

theorem FStep.live {s s' : Sys D} (hi : LiveInv c s) (h : FStep s s') : LiveInv c s' := by
  refine hi.worker h.ch ?_ ?_ ?_ ?_ ?_ ?_
  · rintro k (hk | hk | hk)
    · exact Or.inl fun h1 => hk (h.sh.fs h1)
    · exact Or.inr (Or.inl (by rw [h.msgs]; exact hk))
    · rcases h.st k hk with h1 | h1
      · exact Or.inr (Or.inr h1)
      · left; rw [h1]; simp
  · intro k hk
    unfold WLiveK updIn at *
    rw [h.fl, h.msgs]
    exact hk.imp (fun h1 => h.sh.ws h1) fun h => h
  · intro k hk
    rcases h.new k hk with h1 | h1
    · rcases hi.fetched k h1 with h2 | h2 | h2
      · exact Or.inl fun h3 => h2 (h.sh.fs h3)
      · exact Or.inr (Or.inl (h.fin _ h2))
      · right; right; unfold updIn at *; rw [h.fl]; exact h2
    · exact Or.inr (Or.inl h1)
  · intro k hk hf
    unfold updIn
    rw [h.fl] at hf ⊢
    exact (hi.hdrF k hk hf).imp (fun h1 h2 => h1 (h.sh.fs h2)) fun h => h
  · intro k hk hf
    unfold updIn
    rw [h.fl] at hf ⊢
    exact (hi.hdrW k hk hf).imp (fun h1 => h.sh.ws h1) fun h => h
  · rw [h.fl]; exact hi.busy

theorem handleFetch_rest (s : Sys D) (k : Nat) : (handleFetch s k).1.fe.finished = s.fe.finished ∧ (handleFetch s k).1.fl = s.fl ∧
    (handleFetch s k).1.ch = s.ch ∧
    ∀ j, (handleFetch s k).1.fe.states j = some .fetched → s.fe.states j = some .fetched := by
  unfold handleFetch
  split
  · exact ⟨rfl, rfl, rfl, fun _ h => h⟩
  · split
    · exact ⟨rfl, rfl, rfl, fun _ h => h⟩
    · refine ⟨rfl, rfl, rfl, fun j hj => ?_⟩
      by_cases hjk : j = k
      · subst hjk; simp at hj
      · simpa [upd_ne _ _ hjk] using hj

/-- `handle_fetch_request` leaves a stripe local or with a fetch state. -/
theorem handleFetch_done (s : Sys D) (k : Nat) : (handleFetch s k).1.sh.fs k ≠ .notFetched ∨ (handleFetch s k).1.fe.states k ≠ none := by
  unfold handleFetch
  split
  · rename_i h
    left; intro h1
    change s.sh.fs k = .notFetched at h1
    simp [Shared.isLocal, h1] at h
  · split
    · rename_i h; right; intro h1; simp only at h1; rw [h1] at h; simp at h
    · right; simp

/-- Taking a stripe off `msgs` or the autofetch queue. -/
theorem handleFetch_live {s s1 : Sys D} {k : Nat} (hi : LiveInv c s) (h1 : s1.sh = s.sh) (h2 : s1.fl = s.fl) (h3 : s1.ch = s.ch)
    (h4 : s1.fe.states = s.fe.states) (h5 : s1.fe.finished = s.fe.finished)
    (h6 : ∀ m, m ∈ s.msgs → m ∈ s1.msgs ∨ m = .fetch k) : LiveInv c (handleFetch s1 k).1 := by
  obtain ⟨g1, g2, g3, g4⟩ := handleFetch_rest s1 k
  have gsh := @handleFetch_sh D s1 k
  have gm := handleFetch_msgs s1 k
  refine hi.worker (g3.trans h3) ?_ ?_ ?_ ?_ ?_ ?_
  · rintro j (hj | hj | hj)
    · left; rw [gsh, h1]; exact hj
    · rcases h6 _ hj with h | h
      · right; left; rw [gm]; exact h
      · simp only [Msg.fetch.injEq] at h
        subst h
        exact (handleFetch_done s1 j).imp (fun h => h) Or.inr
    · right; right; exact handleFetch_states s1 k j (by rw [h4]; exact hj)
  · intro j hj
    unfold WLiveK updIn at *
    rw [gsh, g2, gm, h1, h2]
    rcases hj with hj | hj | hj
    · exact Or.inl hj
    · rcases h6 _ hj with h | h
      · exact Or.inr (Or.inl h)
      · simp at h
    · exact Or.inr (Or.inr hj)
  · intro j hj
    have := hi.fetched j (by rw [← h4]; exact g4 j hj)
    unfold tokK updIn at *
    rw [gsh, g1, g2, h1, h2, h5]
    exact this
  · unfold updIn; rw [gsh, g2, h1, h2]; exact hi.hdrF
  · unfold updIn; rw [gsh, g2, h1, h2]; exact hi.hdrW
  · rw [g2, h2]; exact hi.busy

theorem free_sector {s : Sys D} {mv : Nat → Bytes} (hm : MetaInv c mv s) {k : Nat} (hb : ¬ s.fl.busy (stripeIdToSector k) = true) :
    s.fl.updates k = none := by
  cases hu : s.fl.updates k with
  | none => rfl
  | some u =>
    exfalso
    have := hm.upd k u hu
    apply hb
    rw [← this.sector]; exact this.busy

theorem startMeta_live {s s' : Sys D} {mv : Nat → Bytes} (hm : MetaInv c mv s) (hi : LiveInv c s)
    (h : startMeta s true = some s') : LiveInv c s' := by
  obtain ⟨f1, f2, f3, f4, f5⟩ := startMeta_frame h
  unfold startMeta at h
  split at h
  · simp at h
  · rename_i k mask q hq
    obtain ⟨hkn, hmask⟩ := hm.queue k mask (by rw [hq]; simp)
    have hlen : k < s.fl.hdrs.length := by rw [hm.len]; exact hkn
    split at h
    · simp at h
    · split at h
      · simp at h
      · rename_i hbusy
        have hnone := free_sector hm hbusy
        have nou : ∀ m, ¬ updIn s k m := fun m ⟨u, hu, _⟩ => by rw [hnone] at hu; simp at hu
        have hl : ∀ j, LiveK s j → LiveK s' j := by
          intro j hj; unfold LiveK at *; rw [f1, f4, f5]; exact hj
        split at h
        · rename_i hset
          simp only [Option.some.injEq] at h; subst h
          refine hi.worker rfl hl ?_ ?_ hi.hdrF hi.hdrW hi.busy
          · rintro j (hj | hj | hj | hj)
            · exact Or.inl hj
            · exact Or.inr (Or.inl hj)
            · rw [hq] at hj
              rcases List.mem_cons.mp hj with hj | hj
              · simp only [Prod.mk.injEq] at hj
                obtain ⟨rfl, rfl⟩ := hj
                exact (hi.hdrW j hkn hset).imp (fun h => h) fun h => absurd h (nou _)
              · exact Or.inr (Or.inr (Or.inl hj))
            · exact Or.inr (Or.inr (Or.inr hj))
          · intro j hj
            rcases hi.fetched j hj with h1 | h1 | h1 | h1
            · exact Or.inl h1
            · exact Or.inr (Or.inl h1)
            · rw [hq] at h1
              rcases List.mem_cons.mp h1 with h1 | h1
              · simp only [Prod.mk.injEq] at h1
                obtain ⟨rfl, rfl⟩ := h1
                exact (hi.hdrF j hkn hset).imp (fun h => h) fun h => absurd h (nou _)
              · exact Or.inr (Or.inr (Or.inl h1))
            · exact Or.inr (Or.inr (Or.inr h1))
        · rename_i hset
          simp only [if_true, Option.some.injEq] at h
          have hupd : s'.fl.updates = upd s.fl.updates k (some { stage := .writing, header := s.fl.hdrs.getD k 0 ||| mask, mask := mask, sector := stripeIdToSector k }) := by
            rw [← h]
          have hhd : s'.fl.hdrs = s.fl.hdrs.set k (s.fl.hdrs.getD k 0 ||| mask) := by rw [← h]
          have hqq : s'.fl.queue = q := by rw [← h]
          have hbz : s'.fl.busy = upd s.fl.busy (stripeIdToSector k) true := by rw [← h]
          have hnew : updIn s' k mask := ⟨_, by rw [hupd, upd_same], rfl⟩
          have hold : ∀ j m, updIn s j m → updIn s' j m := by
            rintro j m ⟨u, hu, hu'⟩
            have : j ≠ k := by rintro rfl; exact nou m ⟨u, hu, hu'⟩
            exact ⟨u, by rw [hupd, upd_ne _ _ this]; exact hu, hu'⟩
          refine hi.worker f3 hl ?_ ?_ ?_ ?_ ?_
          · rintro j (hj | hj | hj | hj)
            · left; rw [f5]; exact hj
            · right; left; rw [f4]; exact hj
            · rw [hq] at hj
              rcases List.mem_cons.mp hj with hj | hj
              · simp only [Prod.mk.injEq] at hj
                obtain ⟨rfl, rfl⟩ := hj
                exact Or.inr (Or.inr (Or.inr hnew))
              · right; right; left; rw [hqq]; exact hj
            · exact Or.inr (Or.inr (Or.inr (hold _ _ hj)))
          · intro j hj
            rw [f1] at hj
            rcases hi.fetched j hj with h1 | h1 | h1 | h1
            · left; rw [f5]; exact h1
            · right; left; rw [f1]; exact h1
            · rw [hq] at h1
              rcases List.mem_cons.mp h1 with h1 | h1
              · simp only [Prod.mk.injEq] at h1
                obtain ⟨rfl, rfl⟩ := h1
                exact Or.inr (Or.inr (Or.inr hnew))
              · right; right; left; rw [hqq]; exact h1
            · exact Or.inr (Or.inr (Or.inr (hold _ _ h1)))
          · intro j hj hf
            rw [hhd, getD_set _ _ _ _ hlen] at hf
            split at hf
            · rename_i he
              subst he
              rcases hmask with ⟨h1, -⟩ | h1
              · subst h1; exact Or.inr hnew
              · subst h1
                rw [flag_or, flag_WF, Bool.or_false] at hf
                rw [f5]
                exact (hi.hdrF j hj hf).imp (fun h => h) (hold _ _)
            · rw [f5]
              exact (hi.hdrF j hj hf).imp (fun h => h) (hold _ _)
          · intro j hj hf
            rw [hhd, getD_set _ _ _ _ hlen] at hf
            split at hf
            · rename_i he
              subst he
              rcases hmask with ⟨h1, -⟩ | h1
              · subst h1
                rw [flag_or, flag_FW, Bool.or_false] at hf
                rw [f5]
                exact (hi.hdrW j hj hf).imp (fun h => h) (hold _ _)
              · subst h1; exact Or.inr hnew
            · rw [f5]
              exact (hi.hdrW j hj hf).imp (fun h => h) (hold _ _)
          · intro x hx
            rw [hbz] at hx
            by_cases he : x = stripeIdToSector k
            · exact ⟨k, _, by rw [hupd, upd_same], he.symm⟩
            · rw [upd_ne _ _ he] at hx
              obtain ⟨j, u, h1, h2⟩ := hi.busy x hx
              have : j ≠ k := by rintro rfl; rw [hnone] at h1; simp at h1
              exact ⟨j, u, by rw [hupd, upd_ne _ _ this]; exact h1, h2⟩

theorem metaDone_live {s : Sys D} {k : Nat} {mv : Nat → Bytes} (hm : MetaInv c mv s) (hi : LiveInv c s) :
    LiveInv c (metaDone s k true true) := by
  have hsh := metaDone_sh s k true true
  cases hu : s.fl.updates k with
  | none =>
    unfold metaDone
    simp only [hu]
    exact hi.guest rfl rfl rfl (fun _ h => h) (.of_eq rfl)
  | some u =>
    have huk := hm.upd k u hu
    unfold metaDone at hsh ⊢
    simp only [hu, if_true] at hsh ⊢
    cases hst : u.stage with
    | writing =>
      simp only
      generalize hs' : ({ s with
            fl := { s.fl with updates := upd s.fl.updates k (some { u with stage := .flushing }), free := s.fl.free + 1 }
            m := (s.m.complete k true).issueFlush k } : Sys D) = s'
      have e1 : s'.fe = s.fe := by rw [← hs']
      have e2 : s'.sh = s.sh := by rw [← hs']
      have e3 : s'.msgs = s.msgs := by rw [← hs']
      have e4 : s'.ch = s.ch := by rw [← hs']
      have e5 : s'.fl.queue = s.fl.queue := by rw [← hs']
      have e6 : s'.fl.hdrs = s.fl.hdrs := by rw [← hs']
      have e7 : s'.fl.busy = s.fl.busy := by rw [← hs']
      have e8 : s'.fl.updates = upd s.fl.updates k (some { u with stage := .flushing }) := by rw [← hs']
      have hold : ∀ j m, updIn s j m → updIn s' j m := by
        rintro j m ⟨v, hv, hv'⟩
        by_cases he : j = k
        · subst he
          rw [hu] at hv; simp only [Option.some.injEq] at hv; subst hv
          exact ⟨{ u with stage := .flushing }, by rw [e8, upd_same], hv'⟩
        · exact ⟨v, by rw [e8, upd_ne _ _ he]; exact hv, hv'⟩
      refine hi.worker e4 ?_ ?_ ?_ ?_ ?_ ?_
      · intro j hj; unfold LiveK at *; rw [e1, e2, e3]; exact hj
      · intro j hj
        unfold WLiveK at *
        rw [e2, e3, e5]
        exact hj.imp (fun h => h) (Or.imp (fun h => h) (Or.imp (fun h => h) (hold _ _)))
      · intro j hj
        rw [e1] at hj
        unfold tokK
        rw [e1, e2, e5]
        exact (hi.fetched j hj).imp (fun h => h) (Or.imp (fun h => h) (Or.imp (fun h => h) (hold _ _)))
      · intro j hj hf
        rw [e6] at hf; rw [e2]
        exact (hi.hdrF j hj hf).imp (fun h => h) (hold _ _)
      · intro j hj hf
        rw [e6] at hf; rw [e2]
        exact (hi.hdrW j hj hf).imp (fun h => h) (hold _ _)
      · intro x hx
        rw [e7] at hx
        obtain ⟨j, v, h1, h2⟩ := hi.busy x hx
        by_cases he : j = k
        · subst he
          rw [hu] at h1; simp only [Option.some.injEq] at h1; subst h1
          exact ⟨j, { u with stage := .flushing }, by rw [e8, upd_same], h2⟩
        · exact ⟨j, v, by rw [e8, upd_ne _ _ he]; exact h1, h2⟩
    | flushing =>
      simp only [hst] at hsh ⊢
      generalize hs' : ({ s with
          fl := { s.fl with busy := upd s.fl.busy u.sector false, updates := upd s.fl.updates k none }
          sh := s.sh.setHeader k u.header
          m := s.m.complete k true } : Sys D) = s'
      have e1 : s'.fe = s.fe := by rw [← hs']
      have e2 : s'.sh = s.sh.setHeader k u.header := by rw [← hs']
      have e3 : s'.msgs = s.msgs := by rw [← hs']
      have e4 : s'.ch = s.ch := by rw [← hs']
      have e5 : s'.fl.queue = s.fl.queue := by rw [← hs']
      have e6 : s'.fl.hdrs = s.fl.hdrs := by rw [← hs']
      have e7 : s'.fl.busy = upd s.fl.busy u.sector false := by rw [← hs']
      have e8 : s'.fl.updates = upd s.fl.updates k none := by rw [← hs']
      rw [← e2] at hsh
      have hF : ∀ j, updIn s j FETCHED → s'.sh.fs j ≠ .notFetched ∨ updIn s' j FETCHED := by
        rintro j ⟨v, hv, hv'⟩
        by_cases he : j = k
        · subst he
          rw [hu] at hv; simp only [Option.some.injEq] at hv; subst hv
          left
          have := huk.set
          rw [hv'] at this
          rw [e2]; simp [Shared.setHeader, this]
        · exact Or.inr ⟨v, by rw [e8, upd_ne _ _ he]; exact hv, hv'⟩
      have hW : ∀ j, updIn s j WRITTEN → s'.sh.ws j = true ∨ updIn s' j WRITTEN := by
        rintro j ⟨v, hv, hv'⟩
        by_cases he : j = k
        · subst he
          rw [hu] at hv; simp only [Option.some.injEq] at hv; subst hv
          left
          have := huk.set
          rw [hv'] at this
          rw [e2]; simp [Shared.setHeader, this]
        · exact Or.inr ⟨v, by rw [e8, upd_ne _ _ he]; exact hv, hv'⟩
      refine hi.worker e4 ?_ ?_ ?_ ?_ ?_ ?_
      · rintro j (hj | hj | hj)
        · exact Or.inl fun h => hj (hsh.fs h)
        · right; left; rw [e3]; exact hj
        · right; right; rw [e1]; exact hj
      · rintro j (hj | hj | hj | hj)
        · exact Or.inl (hsh.ws hj)
        · right; left; rw [e3]; exact hj
        · right; right; left; rw [e5]; exact hj
        · exact (hW j hj).imp (fun h => h) fun h => Or.inr (Or.inr h)
      · intro j hj
        rw [e1] at hj
        rcases hi.fetched j hj with h1 | h1 | h1 | h1
        · exact Or.inl fun h => h1 (hsh.fs h)
        · right; left; rw [e1]; exact h1
        · right; right; left; rw [e5]; exact h1
        · exact (hF j h1).imp (fun h => h) fun h => Or.inr (Or.inr h)
      · intro j hj hf
        rw [e6] at hf
        rcases hi.hdrF j hj hf with h1 | h1
        · exact Or.inl fun h => h1 (hsh.fs h)
        · exact hF j h1
      · intro j hj hf
        rw [e6] at hf
        rcases hi.hdrW j hj hf with h1 | h1
        · exact Or.inl (hsh.ws h1)
        · exact hW j h1
      · intro x hx
        rw [e7] at hx
        by_cases he : x = u.sector
        · subst he; simp at hx
        · rw [upd_ne _ _ he] at hx
          obtain ⟨j, v, h1, h2⟩ := hi.busy x hx
          have : j ≠ k := by
            rintro rfl
            rw [hu] at h1; simp only [Option.some.injEq] at h1; subst h1
            exact he h2.symm
          exact ⟨j, v, by rw [e8, upd_ne _ _ this]; exact h1, h2⟩

theorem step_live {s s' : Sys D} {a : Act D} {ls : List (Lab D)} (hs : Sound c s) (hi : LiveInv c s) (h : Step c s a ls s')
    (ha : a.losesUpdate = false) : LiveInv c s' := by
  by_cases hg : a.isGuest = true
  · exact guest_live hi h hg
  obtain ⟨gg, ab, hsim⟩ := hs.sim
  obtain ⟨⟨⟨hdrs, mv, hb, hm⟩, hf⟩, -⟩ := hs
  cases h with
  | execData | execMeta => exact hi.guest rfl rfl rfl (fun _ h => h) (.of_eq rfl)
  | receiveFetch k ms hms =>
    refine handleFetch_live hi rfl rfl rfl rfl rfl fun m hm => ?_
    rw [hms] at hm
    exact (List.mem_cons.mp hm).symm
  | receiveWritten k ms hms =>
    refine hi.worker rfl ?_ ?_ ?_ hi.hdrF hi.hdrW hi.busy
    · rintro j (hj | hj | hj)
      · exact Or.inl hj
      · rw [hms] at hj
        rcases List.mem_cons.mp hj with hj | hj
        · simp at hj
        · exact Or.inr (Or.inl hj)
      · exact Or.inr (Or.inr hj)
    · rintro j (hj | hj | hj | hj)
      · exact Or.inl hj
      · rw [hms] at hj
        rcases List.mem_cons.mp hj with hj | hj
        · simp only [Msg.setWritten.injEq] at hj
          subst hj
          right; right; left; simp
        · exact Or.inr (Or.inl hj)
      · exact Or.inr (Or.inr (Or.inl (List.mem_append_left _ hj)))
      · exact Or.inr (Or.inr (Or.inr hj))
    · intro j hj
      rcases hi.fetched j hj with h1 | h1 | h1 | h1
      · exact Or.inl h1
      · exact Or.inr (Or.inl h1)
      · exact Or.inr (Or.inr (Or.inl (List.mem_append_left _ h1)))
      · exact Or.inr (Or.inr (Or.inr h1))
  | autofetch k ks ha hq h => exact handleFetch_live hi rfl rfl rfl rfl rfl fun m hm => Or.inl hm
  | startFetch submitOk _ _ h => exact (startFetch_fstep h).live hi
  | sourceDone k ok submitOk garbage _ _ h => exact (sourceDone_fstep h).live hi
  | targetDone k ok submitOk h => exact targetDone_fstep.live hi
  | takeFinished k ok rest h =>
    have hold : ∀ j m, (j, m) ∈ s.fl.queue → (j, m) ∈ (if ok then { s.fl with queue := s.fl.queue ++ [(k, FETCHED)] } else s.fl).queue := by
      intro j m hj
      split
      · exact List.mem_append_left _ hj
      · exact hj
    have e : ∀ {α} (f : Flusher → α), (∀ q, f { s.fl with queue := q } = f s.fl) →
        f (if ok then { s.fl with queue := s.fl.queue ++ [(k, FETCHED)] } else s.fl) = f s.fl := by
      intro α f hf
      split
      · exact hf _
      · rfl
    have e1 := e Flusher.updates fun _ => rfl
    have e2 := e Flusher.hdrs fun _ => rfl
    have e3 := e Flusher.busy fun _ => rfl
    refine hi.worker rfl (fun _ h => h) ?_ ?_ ?_ ?_ ?_
    · rintro j (hj | hj | hj | hj)
      · exact Or.inl hj
      · exact Or.inr (Or.inl hj)
      · exact Or.inr (Or.inr (Or.inl (hold _ _ hj)))
      · right; right; right; unfold updIn at *; simp only [e1]; exact hj
    · intro j hj
      rcases hi.fetched j hj with h1 | h1 | h1 | h1
      · exact Or.inl h1
      · rw [h] at h1
        rcases List.mem_cons.mp h1 with h1 | h1
        · simp only [Prod.mk.injEq] at h1
          obtain ⟨rfl, rfl⟩ := h1
          right; right; left
          simp
        · exact Or.inr (Or.inl h1)
      · exact Or.inr (Or.inr (Or.inl (hold _ _ h1)))
      · right; right; right; unfold updIn at *; simp only [e1]; exact h1
    · unfold updIn; simp only [e1, e2]; exact hi.hdrF
    · unfold updIn; simp only [e1, e2]; exact hi.hdrW
    · simp only [e1, e3]; exact hi.busy
  | startMeta submitOk _ h =>
    simp only [Act.losesUpdate, Bool.not_eq_false'] at ha
    subst ha
    exact startMeta_live hm hi h
  | metaDone k ok submitOk h =>
    simp only [Act.losesUpdate, Bool.not_eq_false', Bool.and_eq_true] at ha
    obtain ⟨rfl, rfl⟩ := ha
    exact metaDone_live hm hi
  | disconnect hd hb hc => exact hi.worker rfl (fun _ h => h) (fun _ h => h) hi.fetched hi.hdrF hi.hdrW hi.busy
  | _ => simp [Act.isGuest] at hg

theorem LiveInv.boot {hdrs : Bytes} {tv : Nat → D} {mv : Nat → Bytes} {b0 : Nat → Nat → D} : LiveInv c (Sys.boot c hdrs tv mv b0) := by
  refine ⟨fun k h => by simp [Sys.boot] at h, ?_, ?_, fun x h => by simp [Sys.boot] at h, fun q k h => by simp [Sys.boot] at h,
    fun q r h => by simp [Sys.boot] at h, fun _ q r h => by simp [Sys.boot] at h⟩
  · intro k _ hf
    left
    simp only [Sys.boot, Shared.load, loadFs] at hf ⊢
    simp only [hf, if_true]
    split <;> simp
  · intro k _ hf
    exact Or.inl hf

end Verif.Lazy
