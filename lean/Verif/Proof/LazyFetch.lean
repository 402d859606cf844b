import Verif.Model.Lazy
import Verif.Proof.Dev

/-! Invariant of the fetcher: what each `FetchState` means. -/

namespace Verif.Lazy
open Verif Verif.Metadata Verif.Disk

variable {D : Type}

/-- Meaning of the fetch state of one stripe; arguments: state, "is queued", buffer, source request in flight,
request at the data device, "is local". -/
def StripeOkC (c : Cfg D) (k : Nat) (st : Option FetchState) (inq : Prop) (al : Option Nat) (si : Bool)
    (kd : Option Kind) (loc : Bool) : Prop :=
  match st with
  | none => ¬ inq ∧ al = none ∧ si = false ∧ kd = none
  | some .fetched => ¬ inq ∧ al = none ∧ si = false ∧ kd = none
  | some .queued => inq ∧ al = none ∧ si = false ∧ kd = none ∧ loc = false
  | some .fetching => ¬ inq ∧ al ≠ none ∧ loc = false ∧
      ((si = true ∧ kd = none) ∨ (si = false ∧ kd = some (.write (k * c.ss) (stripeLen c k))))
  | some .flushing => ¬ inq ∧ al ≠ none ∧ loc = false ∧ si = false ∧ kd = some .flush

def StripeOk (c : Cfg D) (s : Sys D) (k : Nat) : Prop :=
  StripeOkC c k (s.fe.states k) (k ∈ s.fe.queue) (s.fe.alloc k) (s.fe.srcIn k) (s.t.kinds (.fetch k)) (s.sh.isLocal k)

structure FetchInv (c : Cfg D) (s : Sys D) : Prop where
  ok : ∀ k, StripeOk c s k
  nodup : s.fe.queue.Nodup
  fin : ∀ k, (k, true) ∈ s.fe.finished → s.fe.states k = some .fetched
  bound : ∀ k, s.fe.states k ≠ none → k < c.n
  mbound : ∀ k, Msg.fetch k ∈ s.msgs → k < c.n
  wbound : ∀ k, Msg.setWritten k ∈ s.msgs → k < c.n
  abound : ∀ k, k ∈ s.fe.autoq → k < c.n

theorem StripeOk.congr {c : Cfg D} {s s' : Sys D} {k : Nat} (h : StripeOk c s k)
    (h1 : s'.fe.states k = s.fe.states k) (h2 : k ∈ s'.fe.queue ↔ k ∈ s.fe.queue)
    (h3 : s'.fe.alloc k = s.fe.alloc k) (h4 : s'.fe.srcIn k = s.fe.srcIn k)
    (h5 : s'.t.kinds (.fetch k) = s.t.kinds (.fetch k)) (h6 : s'.sh.isLocal k = s.sh.isLocal k) :
    StripeOk c s' k := by
  unfold StripeOk at *
  rw [h1, h3, h4, h5, h6, propext h2]
  exact h

/-- A stripe that is local is not being fetched. -/
theorem StripeOk.local {c : Cfg D} {s : Sys D} {k : Nat} (h : StripeOk c s k) (hl : s.sh.isLocal k = true) :
    (s.fe.states k = none ∨ s.fe.states k = some .fetched) := by
  unfold StripeOk StripeOkC at h
  cases hs : s.fe.states k with
  | none => simp
  | some st => cases st <;> simp_all

theorem StripeOk.busy {c : Cfg D} {s : Sys D} {k : Nat} (h : StripeOk c s k) (hk : s.t.kinds (.fetch k) ≠ none) :
    s.sh.isLocal k = false ∧ s.fe.alloc k ≠ none ∧ k ∉ s.fe.queue ∧ s.fe.srcIn k = false ∧
    ((s.fe.states k = some .fetching ∧ s.t.kinds (.fetch k) = some (.write (k * c.ss) (stripeLen c k))) ∨
     (s.fe.states k = some .flushing ∧ s.t.kinds (.fetch k) = some .flush)) := by
  unfold StripeOk StripeOkC at h
  cases hs : s.fe.states k with
  | none => simp_all
  | some st => cases st <;> simp_all

theorem StripeOk.src {c : Cfg D} {s : Sys D} {k : Nat} (h : StripeOk c s k) (hk : s.fe.srcIn k = true) :
    s.sh.isLocal k = false ∧ s.fe.alloc k ≠ none ∧ k ∉ s.fe.queue ∧ s.t.kinds (.fetch k) = none ∧
    s.fe.states k = some .fetching := by
  unfold StripeOk StripeOkC at h
  cases hs : s.fe.states k with
  | none => simp_all
  | some st => cases st <;> simp_all

theorem StripeOk.queued {c : Cfg D} {s : Sys D} {k : Nat} (h : StripeOk c s k) (hk : k ∈ s.fe.queue) :
    s.sh.isLocal k = false ∧ s.fe.alloc k = none ∧ s.fe.srcIn k = false ∧ s.t.kinds (.fetch k) = none ∧
    s.fe.states k = some .queued := by
  unfold StripeOk StripeOkC at h
  cases hs : s.fe.states k with
  | none => simp_all
  | some st => cases st <;> simp_all

theorem isLocal_setFailed (sh : Shared) (k k' : Nat) (h : sh.isLocal k = false) :
    (sh.setFailed k).isLocal k' = sh.isLocal k' := by
  by_cases hk : k' = k
  · subst hk; rw [h]; simp [Shared.isLocal, Shared.setFailed]
  · simp [Shared.isLocal, Shared.setFailed, upd_ne _ _ hk]

theorem isLocal_setHeader (sh : Shared) (k k' : Nat) (h : UInt8) :
    (sh.setHeader k h).isLocal k' = (sh.isLocal k' || (decide (k' = k) && flag h FETCHED)) := by
  unfold Shared.setHeader Shared.isLocal
  simp only
  split
  · rename_i hf
    by_cases hk : k' = k
    · subst hk; simp [hf]
    · simp [upd_ne _ _ hk, hk]
  · rename_i hf
    simp at hf
    simp [hf]

/-! ### Building blocks -/

@[simp] theorem release_queue (fe : Fetcher D) (k : Nat) : (fe.release k).queue = fe.queue := by
  unfold Fetcher.release; split <;> rfl
@[simp] theorem release_states (fe : Fetcher D) (k : Nat) : (fe.release k).states = fe.states := by
  unfold Fetcher.release; split <;> rfl
@[simp] theorem release_srcIn (fe : Fetcher D) (k : Nat) : (fe.release k).srcIn = fe.srcIn := by
  unfold Fetcher.release; split <;> rfl
@[simp] theorem release_finished (fe : Fetcher D) (k : Nat) : (fe.release k).finished = fe.finished := by
  unfold Fetcher.release; split <;> rfl
@[simp] theorem release_autoq (fe : Fetcher D) (k : Nat) : (fe.release k).autoq = fe.autoq := by
  unfold Fetcher.release; split <;> rfl
@[simp] theorem release_retries (fe : Fetcher D) (k : Nat) : (fe.release k).retries = fe.retries := by
  unfold Fetcher.release; split <;> rfl
@[simp] theorem release_bufs (fe : Fetcher D) (k : Nat) : (fe.release k).bufs = fe.bufs := by
  unfold Fetcher.release; split <;> rfl
@[simp] theorem release_disconnected (fe : Fetcher D) (k : Nat) : (fe.release k).disconnected = fe.disconnected := by
  unfold Fetcher.release; split <;> rfl
@[simp] theorem release_alloc_same (fe : Fetcher D) (k : Nat) : (fe.release k).alloc k = none := by
  unfold Fetcher.release; split
  · simp
  · assumption
theorem release_alloc_ne (fe : Fetcher D) {k k' : Nat} (h : k' ≠ k) : (fe.release k).alloc k' = fe.alloc k' := by
  unfold Fetcher.release; split
  · simp [upd_ne _ _ h]
  · rfl

/-- State in which the fetch of `k` is about to end. -/
structure Ending (c : Cfg D) (s : Sys D) (k : Nat) : Prop where
  ok : ∀ k', k' ≠ k → StripeOk c s k'
  nodup : s.fe.queue.Nodup
  fin : ∀ k', k' ≠ k → (k', true) ∈ s.fe.finished → s.fe.states k' = some .fetched
  nofin : (k, true) ∉ s.fe.finished
  bound : ∀ k, s.fe.states k ≠ none → k < c.n
  mbound : ∀ k, Msg.fetch k ∈ s.msgs → k < c.n
  wbound : ∀ k, Msg.setWritten k ∈ s.msgs → k < c.n
  abound : ∀ k, k ∈ s.fe.autoq → k < c.n
  inq : k ∉ s.fe.queue
  src : s.fe.srcIn k = false
  kind : s.t.kinds (.fetch k) = none
  remote : s.sh.isLocal k = false
  kn : k < c.n

theorem fetchCompleted_inv {c : Cfg D} {s : Sys D} {k : Nat} (h : Ending c s k) (ok : Bool) :
    FetchInv c (fetchCompleted s k ok).1 := by
  unfold fetchCompleted
  simp only
  split
  · refine ⟨?_, ?_, ?_, ?_, h.mbound, h.wbound, ?_⟩
    · intro k'
      by_cases hk : k' = k
      · subst hk
        simp [StripeOk, StripeOkC, h.inq, h.src, h.kind]
      · refine (h.ok k' hk).congr ?_ ?_ ?_ ?_ rfl rfl
        · simp [upd_ne _ _ hk]
        · simp
        · simp [release_alloc_ne _ hk]
        · simp
    · simpa using h.nodup
    · intro k' hf
      simp only [release_finished, List.mem_append, List.mem_singleton, Prod.mk.injEq, and_true] at hf
      by_cases hk : k' = k
      · subst hk; simp
      · simp only [upd_ne _ _ hk, release_states]
        rcases hf with hf | hf
        · exact h.fin k' hk hf
        · exact absurd hf hk
    · intro k' hs
      by_cases hk : k' = k
      · subst hk; exact h.kn
      · simp only [upd_ne _ _ hk, release_states] at hs
        exact h.bound k' hs
    · simpa using h.abound
  · split
    · refine ⟨?_, ?_, ?_, ?_, h.mbound, h.wbound, ?_⟩
      · intro k'
        by_cases hk : k' = k
        · subst hk
          simp [StripeOk, StripeOkC, h.src, h.kind, h.remote]
        · refine (h.ok k' hk).congr ?_ ?_ ?_ ?_ rfl rfl
          · simp [upd_ne _ _ hk]
          · simp [hk]
          · simp [release_alloc_ne _ hk]
          · simp
      · simp only [release_queue]
        rw [List.nodup_append]
        refine ⟨h.nodup, by simp, ?_⟩
        intro a ha b hb
        simp at hb
        subst hb
        intro hab
        exact h.inq (hab ▸ ha)
      · intro k' hf
        simp only [release_finished] at hf
        by_cases hk : k' = k
        · subst hk; exact absurd hf h.nofin
        · simp only [upd_ne _ _ hk, release_states]
          exact h.fin k' hk hf
      · intro k' hs
        by_cases hk : k' = k
        · subst hk; exact h.kn
        · simp only [upd_ne _ _ hk, release_states] at hs
          exact h.bound k' hs
      · simpa using h.abound
    · refine ⟨?_, ?_, ?_, ?_, h.mbound, h.wbound, ?_⟩
      · intro k'
        by_cases hk : k' = k
        · subst hk
          simp [StripeOk, StripeOkC, h.inq, h.src, h.kind]
        · refine (h.ok k' hk).congr ?_ ?_ ?_ ?_ rfl ?_
          · simp [upd_ne _ _ hk]
          · simp
          · simp [release_alloc_ne _ hk]
          · simp
          · exact isLocal_setFailed s.sh k k' h.remote
      · simpa using h.nodup
      · intro k' hf
        simp only [release_finished, List.mem_append, List.mem_singleton, Prod.mk.injEq, Bool.true_eq_false,
          and_false, or_false] at hf
        by_cases hk : k' = k
        · subst hk; exact absurd hf h.nofin
        · simp only [upd_ne _ _ hk, release_states]
          exact h.fin k' hk hf
      · intro k' hs
        by_cases hk : k' = k
        · subst hk; simp at hs
        · simp only [upd_ne _ _ hk, release_states] at hs
          exact h.bound k' hs
      · simpa using h.abound

theorem handleFetch_inv {c : Cfg D} {s : Sys D} {k : Nat} (h : FetchInv c s) (hk : k < c.n) :
    FetchInv c (handleFetch s k).1 := by
  unfold handleFetch
  split
  · exact h
  · rename_i hl
    split
    · exact h
    · rename_i hs
      simp only [Bool.not_eq_true, Option.isSome_eq_false_iff, Option.isNone_iff_eq_none] at hs
      simp only [Bool.not_eq_true] at hl
      have hk0 := h.ok k
      simp only [StripeOk, StripeOkC, hs] at hk0
      refine ⟨?_, ?_, ?_, ?_, h.mbound, h.wbound, h.abound⟩
      · intro k'
        by_cases hkk : k' = k
        · subst hkk
          simp [StripeOk, StripeOkC, hk0, hl]
        · refine (h.ok k').congr ?_ ?_ rfl rfl rfl rfl
          · simp [upd_ne _ _ hkk]
          · simp [hkk]
      · simp only
        rw [List.nodup_append]
        refine ⟨h.nodup, by simp, ?_⟩
        intro a ha b hb
        simp at hb
        subst hb
        intro hab
        exact hk0.1 (hab ▸ ha)
      · intro k' hf
        by_cases hkk : k' = k
        · subst hkk; rw [h.fin k' hf] at hs; simp at hs
        · simp only [upd_ne _ _ hkk]; exact h.fin k' hf
      · intro k' hs'
        by_cases hkk : k' = k
        · subst hkk; exact hk
        · simp only [upd_ne _ _ hkk] at hs'
          exact h.bound k' hs'

/-- Steps that leave the fetcher alone, apart from requests of the guest. -/
theorem FetchInv.frame {c : Cfg D} {s s' : Sys D} (h : FetchInv c s) (hfe : s'.fe = s.fe)
    (hm : ∀ m ∈ s'.msgs, m ∈ s.msgs ∨ ∃ k, k < c.n ∧ (m = .fetch k ∨ m = .setWritten k))
    (hk : ∀ k, s'.t.kinds (.fetch k) = s.t.kinds (.fetch k)) (hl : ∀ k, s'.sh.isLocal k = s.sh.isLocal k) :
    FetchInv c s' := by
  refine ⟨fun k => ?_, ?_, ?_, ?_, ?_, ?_, ?_⟩
  · exact (h.ok k).congr (by rw [hfe]) (by rw [hfe]) (by rw [hfe]) (by rw [hfe]) (hk k) (hl k)
  · rw [hfe]; exact h.nodup
  · rw [hfe]; exact h.fin
  · rw [hfe]; exact h.bound
  · intro k hmm
    rcases hm _ hmm with h1 | ⟨k', h1, h2⟩
    · exact h.mbound k h1
    · rcases h2 with h2 | h2 <;> simp at h2
      subst h2; exact h1
  · intro k hmm
    rcases hm _ hmm with h1 | ⟨k', h1, h2⟩
    · exact h.wbound k h1
    · rcases h2 with h2 | h2 <;> simp at h2
      subst h2; exact h1
  · rw [hfe]; exact h.abound

end Verif.Lazy
