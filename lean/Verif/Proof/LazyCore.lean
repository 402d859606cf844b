import Verif.Proof.LazyRun

/-! The fetcher seen as a small machine of its own: buffers, attempts and retries (for C11 and C12). -/

set_option maxRecDepth 8000

namespace Verif.Lazy
open Verif Verif.Metadata Verif.Disk

variable {D : Type} {c : Cfg D}

theorem upd_upd {α β} [DecidableEq α] (f : α → β) (a : α) (b b' : β) : upd (upd f a b) a b' = upd f a b' := by
  funext x
  unfold upd
  split <;> simp_all

structure Core where
  free : List Nat
  alloc : Nat → Option Nat
  states : Nat → Option FetchState
  retries : Nat → Nat

def Sys.core (s : Sys D) : Core := ⟨s.fe.free, s.fe.alloc, s.fe.states, s.fe.retries⟩

inductive FLab where
  | enq (k : Nat) | read (k : Nat) | failed (k : Nat)
deriving DecidableEq

def Lab.fetch? : Lab D → Option FLab
  | .enqueue k => some (.enq k)
  | .sourceRead k => some (.read k)
  | .fetchFailed k => some (.failed k)
  | _ => none

/-- What happens to the attempts in a history. -/
def fetchLabs (ls : List (Lab D)) : List FLab := ls.filterMap Lab.fetch?

theorem fetchLabs_append (a b : List (Lab D)) : fetchLabs (a ++ b) = fetchLabs a ++ fetchLabs b := by
  simp [fetchLabs]

inductive CStep : Core → List FLab → Core → Prop where
  | enq (C : Core) (k : Nat) (h : C.states k = none) :
      CStep C [.enq k] { C with states := upd C.states k (some .queued) }
  | start (C : Core) (k b : Nat) (f : List Nat) (h : C.states k = some .queued) (ha : C.alloc k = none) (hf : C.free = b :: f) :
      CStep C [.read k] { C with free := f, alloc := upd C.alloc k (some b), states := upd C.states k (some .fetching) }
  | flush (C : Core) (k : Nat) (h : C.states k = some .fetching) :
      CStep C [] { C with states := upd C.states k (some .flushing) }
  | done (C : Core) (k b : Nat) (h : C.states k = some .flushing) (ha : C.alloc k = some b) :
      CStep C [] ⟨C.free ++ [b], upd C.alloc k none, upd C.states k (some .fetched), upd C.retries k 0⟩
  | retry (C : Core) (k b : Nat) (h : C.states k = some .fetching ∨ C.states k = some .flushing) (ha : C.alloc k = some b)
      (hr : C.retries k < 3) :
      CStep C [] ⟨C.free ++ [b], upd C.alloc k none, upd C.states k (some .queued), upd C.retries k (C.retries k + 1)⟩
  | fail (C : Core) (k b : Nat) (h : C.states k = some .fetching ∨ C.states k = some .flushing) (ha : C.alloc k = some b)
      (hr : ¬ C.retries k < 3) :
      CStep C [.failed k] ⟨C.free ++ [b], upd C.alloc k none, upd C.states k none, upd C.retries k 0⟩

inductive CRun : Core → List FLab → Core → Prop where
  | nil (C : Core) : CRun C [] C
  | step {C C' C'' : Core} {l l' : List FLab} : CRun C l C' → CStep C' l' C'' → CRun C (l ++ l') C''

theorem CRun.one {C C' : Core} {l : List FLab} (h : CStep C l C') : CRun C l C' := by
  have := CRun.step (.nil C) h; simpa using this

theorem CRun.trans {C C' C'' : Core} {l l' : List FLab} (h : CRun C l C') (h' : CRun C' l' C'') : CRun C (l ++ l') C'' := by
  induction h' with
  | nil => simpa using h
  | step _ hs ih => rw [← List.append_assoc]; exact .step ih hs

theorem CRun.same {C C' : Core} (h : C' = C) : CRun C [] C' := by rw [h]; exact .nil _

theorem handleFetch_core {s : Sys D} {k : Nat} :
    CRun s.core (fetchLabs (handleFetch s k).2) (handleFetch s k).1.core := by
  unfold handleFetch
  split
  · exact .nil _
  · split
    · exact .nil _
    · rename_i h
      exact .one (.enq s.core k (by show s.fe.states k = none; simpa using h))

/-- The end of an attempt, for a stripe whose core state is `fetching` or `flushing` once `st` is put in. -/
theorem fetchCompleted_core {s : Sys D} {k b : Nat} {ok : Bool} {st : Nat → Option FetchState}
    (ha : s.fe.alloc k = some b) (hst : st k = some .fetching ∨ st k = some .flushing)
    (hok : ok = true → st k = some .flushing) (hsame : ∀ x, upd st k x = upd s.fe.states k x) :
    CRun ⟨s.fe.free, s.fe.alloc, st, s.fe.retries⟩ (fetchLabs (fetchCompleted s k ok).2) (fetchCompleted s k ok).1.core := by
  have hrel : s.fe.release k = { s.fe with alloc := upd s.fe.alloc k none, free := s.fe.free ++ [b] } := by
    unfold Fetcher.release; rw [ha]
  unfold fetchCompleted
  simp only [hrel]
  cases ok with
  | true =>
    simp only [if_true]
    have := CStep.done ⟨s.fe.free, s.fe.alloc, st, s.fe.retries⟩ k b (hok rfl) ha
    simp only [hsame] at this
    exact .one this
  | false =>
    simp only [Bool.false_eq_true, if_false]
    by_cases hr : s.fe.retries k < 3
    · simp only [maxRetries, hr, if_true]
      have := CStep.retry ⟨s.fe.free, s.fe.alloc, st, s.fe.retries⟩ k b hst ha hr
      simp only [hsame] at this
      exact .one this
    · simp only [maxRetries, hr, if_false]
      have := CStep.fail ⟨s.fe.free, s.fe.alloc, st, s.fe.retries⟩ k b hst ha hr
      simp only [hsame] at this
      exact .one this

theorem fetchLabs_enqueueReq {s : Sys D} {q : Nat} {r : QReq D} {b : Bool} : fetchLabs (enqueueReq c s q r b).2 = [] := by
  rw [enqueueReq_labs]; cases b <;> rfl

theorem fetchLabs_addRead {s : Sys D} {q id off cnt : Nat} {b : Bool} : fetchLabs (addRead c s q id off cnt b).2 = [] := by
  unfold addRead
  simp only
  split
  · rfl
  · rfl
  · split
    · rfl
    · exact fetchLabs_enqueueReq

theorem fetchLabs_addWrite {s : Sys D} {q id off cnt : Nat} {data : Nat → D} {b : Bool} :
    fetchLabs (addWrite c s q id off cnt data b).2 = [] := by
  unfold addWrite
  simp only
  split
  · rfl
  · split
    · rfl
    · exact fetchLabs_enqueueReq
  · exact fetchLabs_enqueueReq

theorem fetchLabs_processQueue {s s' : Sys D} {q : Nat} {b : Bool} {ls : List (Lab D)}
    (h : processQueue c s q b = some (s', ls)) : fetchLabs ls = [] := by
  unfold processQueue at h
  split at h
  · simp at h
  · split at h
    · simp at h
    · simp only [Option.some.injEq, Prod.mk.injEq] at h
      obtain ⟨-, rfl⟩ := h
      rfl
    · split at h
      · simp at h
      · simp only at h
        split at h <;>
          (simp only [Option.some.injEq, Prod.mk.injEq] at h
           obtain ⟨-, rfl⟩ := h
           rfl)

theorem step_core {s s' : Sys D} {a : Act D} {ls : List (Lab D)} (hs : Sound c s) (h : Step c s a ls s') :
    CRun s.core (fetchLabs ls) s'.core := by
  have hf := hs.1.fetch
  by_cases hg : a.isGuest = true
  · have hc : s'.core = s.core := by
      unfold Sys.core; rw [(guest_frame h hg).fe]
    have hl : fetchLabs ls = [] := by
      cases h with
      | read q id off cnt sendOk hv hg hid => exact fetchLabs_addRead
      | write q id off cnt data sendOk hv hid => exact fetchLabs_addWrite
      | processQueue q submitOk _ _ h => exact fetchLabs_processQueue h
      | flush | reportFinished | baseDone | imageDone => rfl
      | _ => simp [Act.isGuest] at hg
    rw [hl]; exact .same hc
  cases h with
  | receiveFetch k ms hms => exact handleFetch_core (s := { s with msgs := ms })
  | autofetch k ks ha hq h => exact handleFetch_core (s := { s with fe := { s.fe with autoq := ks } })
  | startFetch submitOk _ _ h =>
    unfold startFetch at h
    split at h
    · rename_i k q b free hq hfr
      have hk0 := (hf.ok k).queued (by rw [hq]; simp)
      have h1 := CStep.start s.core k b free hk0.2.2.2.2 hk0.2.1 hfr
      simp only at h
      split at h
      · simp only [Option.some.injEq, Prod.mk.injEq] at h
        obtain ⟨rfl, rfl⟩ := h
        exact .one h1
      · simp only [Option.some.injEq, Prod.mk.injEq] at h
        obtain ⟨rfl, rfl⟩ := h
        have h2 := fetchCompleted_core (s := { s with fe := { s.fe with queue := q, free := free, alloc := upd s.fe.alloc k (some b) } })
          (k := k) (b := b) (ok := false) (st := upd s.fe.states k (some .fetching)) (by simp) (by simp) (by simp)
          (fun x => upd_upd _ _ _ _)
        exact (CRun.one h1).trans h2
    · simp at h
  | sourceDone k ok submitOk garbage _ _ h =>
    unfold sourceDone at h
    split at h
    · rename_i hsi
      have hk0 := (hf.ok k).src hsi
      simp only at h
      split at h
      · rename_i hal; exact absurd hal hk0.2.1
      · rename_i bu hal
        split at h
        · split at h
          · simp only [Option.some.injEq, Prod.mk.injEq] at h
            obtain ⟨rfl, rfl⟩ := h
            exact .same rfl
          · simp only [Option.some.injEq] at h
            obtain ⟨h1, h2⟩ := Prod.ext_iff.mp h
            simp only at h1 h2
            rw [← h1, ← h2]
            exact fetchCompleted_core (s := { s with fe := { s.fe with srcIn := upd s.fe.srcIn k false, bufs := upd s.fe.bufs bu (sentBuf c k (fillBuf c k (s.fe.bufs bu))) } })
              hal (Or.inl hk0.2.2.2.2) (by simp) (fun _ => rfl)
        · simp only [Option.some.injEq] at h
          obtain ⟨h1, h2⟩ := Prod.ext_iff.mp h
          simp only at h1 h2
          rw [← h1, ← h2]
          exact fetchCompleted_core (s := { s with fe := { s.fe with srcIn := upd s.fe.srcIn k false, bufs := upd s.fe.bufs bu garbage } })
            hal (Or.inl hk0.2.2.2.2) (by simp) (fun _ => rfl)
    · simp at h
  | targetDone k ok submitOk h =>
    obtain ⟨op, hop, -⟩ := h
    have hk0 := (hf.ok k).busy (by rw [kinds_of_ops hop]; simp)
    have hst : s.fe.states k = some .fetching ∨ s.fe.states k = some .flushing := by
      rcases hk0.2.2.2.2 with ⟨h1, -⟩ | ⟨h1, -⟩ <;> simp [h1]
    obtain ⟨b, hal⟩ := Option.ne_none_iff_exists'.mp hk0.2.1
    have h2 := fun ok' (hok : ok' = true → s.fe.states k = some .flushing) =>
      fetchCompleted_core (s := { s with t := s.t.complete (.fetch k) ok }) (ok := ok') hal hst hok (fun _ => rfl)
    unfold targetDone
    simp only
    split
    · split
      · rename_i h3
        split
        · exact .one (.flush s.core k h3)
        · exact h2 false (by simp)
      · rename_i h3
        exact h2 true (fun _ => h3)
      · exact .same rfl
    · exact h2 false (by simp)
  | startMeta submitOk _ h =>
    obtain ⟨h1, -⟩ := startMeta_frame h
    exact .same (by unfold Sys.core; rw [h1])
  | metaDone k ok submitOk h => exact .same (by unfold Sys.core; rw [metaDone_fe])
  | execData | execMeta | receiveWritten | takeFinished | disconnect => exact .same rfl
  | _ => simp [Act.isGuest] at hg

/-! ### Buffers -/

structure PoolInv (C : Core) : Prop where
  nodup : C.free.Nodup
  bound : ∀ b ∈ C.free, b < maxFetches
  abound : ∀ k b, C.alloc k = some b → b < maxFetches ∧ b ∉ C.free
  inj : ∀ k k' b, C.alloc k = some b → C.alloc k' = some b → k = k'
  cover : ∀ b, b < maxFetches → b ∈ C.free ∨ ∃ k, C.alloc k = some b
  busy : ∀ k, C.alloc k ≠ none ↔ (C.states k = some .fetching ∨ C.states k = some .flushing)

theorem PoolInv.release {C : Core} {k b : Nat} (h : PoolInv C) (ha : C.alloc k = some b) (x : Option FetchState) (y : Nat)
    (hx : x ≠ some .fetching ∧ x ≠ some .flushing) :
    PoolInv ⟨C.free ++ [b], upd C.alloc k none, upd C.states k x, upd C.retries k y⟩ := by
  obtain ⟨hb, hbf⟩ := h.abound k b ha
  refine ⟨?_, ?_, ?_, ?_, ?_, ?_⟩
  · rw [List.nodup_append]
    refine ⟨h.nodup, by simp, ?_⟩
    intro a h1 b' h2
    simp only [List.mem_singleton] at h2
    subst h2
    rintro rfl
    exact hbf h1
  · intro b' hb'
    rcases List.mem_append.mp hb' with h1 | h1
    · exact h.bound b' h1
    · simp only [List.mem_singleton] at h1; subst h1; exact hb
  · intro k' b' h'
    by_cases hk : k' = k
    · subst hk; simp at h'
    · simp only [upd_ne _ _ hk] at h'
      refine ⟨(h.abound k' b' h').1, ?_⟩
      simp only [List.mem_append, List.mem_singleton, not_or]
      exact ⟨(h.abound k' b' h').2, fun he => hk (h.inj k' k b' h' (by rw [he]; exact ha))⟩
  · intro k1 k2 b' h1 h2
    by_cases hk1 : k1 = k
    · subst hk1; simp at h1
    · by_cases hk2 : k2 = k
      · subst hk2; simp at h2
      · simp only [upd_ne _ _ hk1] at h1
        simp only [upd_ne _ _ hk2] at h2
        exact h.inj k1 k2 b' h1 h2
  · intro b' hb'
    rcases h.cover b' hb' with h1 | ⟨k', h1⟩
    · left; simp [h1]
    · by_cases hk : k' = k
      · subst hk; rw [ha] at h1; simp only [Option.some.injEq] at h1; left; simp [h1]
      · right; exact ⟨k', by simp only [upd_ne _ _ hk]; exact h1⟩
  · intro k'
    by_cases hk : k' = k
    · subst hk; simp [hx.1, hx.2]
    · simp only [upd_ne _ _ hk]; exact h.busy k'

theorem PoolInv.step {C C' : Core} {l : List FLab} (h : PoolInv C) (hs : CStep C l C') : PoolInv C' := by
  cases hs with
  | enq k hk =>
    refine ⟨h.nodup, h.bound, h.abound, h.inj, h.cover, fun k' => ?_⟩
    by_cases he : k' = k
    · subst he
      have := h.busy k'
      rw [hk] at this
      simp only [upd_same]
      simpa using this
    · simp only [upd_ne _ _ he]; exact h.busy k'
  | start k b f hk ha hf =>
    have hn := h.nodup
    rw [hf, List.nodup_cons] at hn
    have hbb : b < maxFetches := h.bound b (by rw [hf]; simp)
    refine ⟨hn.2, fun b' hb' => h.bound b' (by rw [hf]; exact List.mem_cons_of_mem _ hb'), ?_, ?_, ?_, ?_⟩
    · intro k' b' h'
      by_cases he : k' = k
      · subst he
        simp only [upd_same, Option.some.injEq] at h'
        subst h'
        exact ⟨hbb, hn.1⟩
      · simp only [upd_ne _ _ he] at h'
        refine ⟨(h.abound k' b' h').1, fun h1 => (h.abound k' b' h').2 (by rw [hf]; exact List.mem_cons_of_mem _ h1)⟩
    · intro k1 k2 b' h1 h2
      have hfree : ∀ k', C.alloc k' ≠ some b := fun k' h' => (h.abound k' b h').2 (by rw [hf]; simp)
      by_cases hk1 : k1 = k
      · by_cases hk2 : k2 = k
        · rw [hk1, hk2]
        · subst hk1
          simp only [upd_same, Option.some.injEq] at h1
          subst h1
          simp only [upd_ne _ _ hk2] at h2
          exact absurd h2 (hfree k2)
      · simp only [upd_ne _ _ hk1] at h1
        by_cases hk2 : k2 = k
        · subst hk2
          simp only [upd_same, Option.some.injEq] at h2
          subst h2
          exact absurd h1 (hfree k1)
        · simp only [upd_ne _ _ hk2] at h2
          exact h.inj k1 k2 b' h1 h2
    · intro b' hb'
      rcases h.cover b' hb' with h1 | ⟨k', h1⟩
      · rw [hf] at h1
        rcases List.mem_cons.mp h1 with rfl | h1
        · right; exact ⟨k, by simp⟩
        · exact Or.inl h1
      · right
        have : k' ≠ k := by rintro rfl; rw [ha] at h1; simp at h1
        exact ⟨k', by simp only [upd_ne _ _ this]; exact h1⟩
    · intro k'
      by_cases he : k' = k
      · subst he; simp
      · simp only [upd_ne _ _ he]; exact h.busy k'
  | flush k hk =>
    refine ⟨h.nodup, h.bound, h.abound, h.inj, h.cover, fun k' => ?_⟩
    by_cases he : k' = k
    · subst he
      have := h.busy k'
      rw [hk] at this
      simp only [upd_same]
      simpa using this
    · simp only [upd_ne _ _ he]; exact h.busy k'
  | done k b hk ha => exact h.release ha _ _ (by simp)
  | retry k b hk ha hr => exact h.release ha _ _ (by simp)
  | fail k b hk ha hr => exact h.release ha _ _ (by simp)

theorem PoolInv.run {C C' : Core} {l : List FLab} (h : PoolInv C) (hs : CRun C l C') : PoolInv C' := by
  induction hs with
  | nil => exact h
  | step _ h2 ih => exact ih.step h2

theorem PoolInv.boot {hdrs : Bytes} {tv : Nat → D} {mv : Nat → Bytes} {b0 : Nat → Nat → D} :
    PoolInv (Sys.boot c hdrs tv mv b0).core := by
  refine ⟨List.nodup_range, ?_, ?_, ?_, ?_, ?_⟩
  · intro b hb; exact List.mem_range.mp hb
  · intro k b h; simp [Sys.core, Sys.boot] at h
  · intro k k' b h; simp [Sys.core, Sys.boot] at h
  · intro b hb; left; exact List.mem_range.mpr hb
  · intro k; simp [Sys.core, Sys.boot]

theorem Run.pool {s0 s : Sys D} {ls : List (Lab D)} (h : Run c s0 ls s) (hs : Sound c s0) (h0 : PoolInv s0.core) :
    PoolInv s.core :=
  h.preserve (P := fun s => PoolInv s.core) hs (fun _ _ _ _ h1 h2 h3 => h2.run (step_core h1 h3))
    (fun _ _ _ _ _ _ _ _ _ _ => .boot) h0

theorem nodup_bound : ∀ (n : Nat) (l : List Nat), l.Nodup → (∀ x ∈ l, x < n) → l.length ≤ n
  | 0, l, _, h => by
    cases l with
    | nil => simp
    | cons a l => exact absurd (h a (by simp)) (by omega)
  | n + 1, l, hn, h => by
    have h1 := nodup_bound n (l.erase n) (hn.erase _) (fun x hx => by
      have h2 := h x (List.mem_of_mem_erase hx)
      have h3 : x ≠ n := by rintro rfl; exact (List.Nodup.not_mem_erase hn) hx
      omega)
    by_cases hm : n ∈ l
    · rw [List.length_erase_of_mem hm] at h1
      omega
    · rw [List.erase_of_not_mem hm] at h1
      omega

/-- Distinct stripes with buffers, together with the free buffers, number at most sixteen. -/
theorem PoolInv.count {C : Core} (h : PoolInv C) (ks : List Nat) (hn : ks.Nodup) (hk : ∀ k ∈ ks, C.alloc k ≠ none) :
    ks.length + C.free.length ≤ maxFetches := by
  have h1 : ((ks.map fun k => (C.alloc k).getD 0) ++ C.free).Nodup := by
    rw [List.nodup_append]
    refine ⟨?_, h.nodup, ?_⟩
    · rw [List.Nodup, List.pairwise_map]
      refine List.Pairwise.imp_of_mem ?_ hn
      intro a b ha hb hab he
      obtain ⟨x, hx⟩ := Option.ne_none_iff_exists'.mp (hk a ha)
      obtain ⟨y, hy⟩ := Option.ne_none_iff_exists'.mp (hk b hb)
      rw [hx, hy] at he
      simp only [Option.getD_some] at he
      subst he
      exact hab (h.inj a b x hx hy)
    · intro a ha b hb
      obtain ⟨k, hk', rfl⟩ := List.mem_map.mp ha
      obtain ⟨x, hx⟩ := Option.ne_none_iff_exists'.mp (hk k hk')
      rw [hx]
      rintro rfl
      exact (h.abound k x hx).2 hb
  have := nodup_bound maxFetches _ h1 (by
    intro x hx
    rcases List.mem_append.mp hx with hx | hx
    · obtain ⟨k, hk', rfl⟩ := List.mem_map.mp hx
      obtain ⟨y, hy⟩ := Option.ne_none_iff_exists'.mp (hk k hk')
      rw [hy]; exact (h.abound k y hy).1
    · exact h.bound x hx)
  simpa using this

/-! ### Attempts -/

/-- Reads, enqueues and failures of a stripe against its state and retry counter. -/
def RetC (st : Option FetchState) (ret R E F : Nat) : Prop :=
  match st with
  | none => ret = 0 ∧ R = 4 * F ∧ E = F
  | some .queued => ret ≤ 3 ∧ R = 4 * F + ret ∧ E = F + 1
  | some .fetching | some .flushing => ret ≤ 3 ∧ R = 4 * F + ret + 1 ∧ E = F + 1
  | some .fetched => ret = 0 ∧ 4 * F + 1 ≤ R ∧ R ≤ 4 * F + 4 ∧ E = F + 1

/-- Counts since some earlier point. -/
def RetInv (C : Core) (k R E F : Nat) : Prop := RetC (C.states k) (C.retries k) R E F

theorem RetInv.step {C C' : Core} {l : List FLab} {k R E F : Nat} (h : RetInv C k R E F) (hs : CStep C l C') :
    RetInv C' k (R + l.count (.read k)) (E + l.count (.enq k)) (F + l.count (.failed k)) := by
  unfold RetInv at *
  cases hs with
  | enq k' hk =>
    by_cases he : k' = k
    · subst he
      rw [hk] at h
      simp only [upd_same, RetC] at h ⊢
      simp [h.1]
      omega
    · simp [upd_ne _ _ (Ne.symm he), he]
      exact h
  | start k' b f hk ha hf =>
    by_cases he : k' = k
    · subst he
      rw [hk] at h
      simp only [upd_same, RetC] at h ⊢
      simp
      omega
    · simp [upd_ne _ _ (Ne.symm he), he]
      exact h
  | flush k' hk =>
    by_cases he : k' = k
    · subst he
      rw [hk] at h
      simp only [upd_same, RetC] at h ⊢
      exact h
    · simp only [upd_ne _ _ (Ne.symm he)]
      exact h
  | done k' b hk ha =>
    by_cases he : k' = k
    · subst he
      rw [hk] at h
      simp only [upd_same, RetC] at h ⊢
      simp
      omega
    · simp only [upd_ne _ _ (Ne.symm he)]
      exact h
  | retry k' b hk ha hr =>
    by_cases he : k' = k
    · subst he
      have h' : C.retries k' ≤ 3 ∧ R = 4 * F + C.retries k' + 1 ∧ E = F + 1 := by
        rcases hk with hk | hk <;> (rw [hk] at h; exact h)
      simp only [upd_same, RetC]
      simp
      omega
    · simp only [upd_ne _ _ (Ne.symm he)]
      exact h
  | fail k' b hk ha hr =>
    by_cases he : k' = k
    · subst he
      have h' : C.retries k' ≤ 3 ∧ R = 4 * F + C.retries k' + 1 ∧ E = F + 1 := by
        rcases hk with hk | hk <;> (rw [hk] at h; exact h)
      simp only [upd_same, RetC]
      simp
      omega
    · simp [upd_ne _ _ (Ne.symm he), he]
      exact h

theorem RetInv.run {C C' : Core} {l : List FLab} {k R E F : Nat} (h : RetInv C k R E F) (hs : CRun C l C') :
    RetInv C' k (R + l.count (.read k)) (E + l.count (.enq k)) (F + l.count (.failed k)) := by
  induction hs with
  | nil => simpa using h
  | step _ h2 ih =>
    have := ih.step h2
    simp only [List.count_append, ← Nat.add_assoc]
    exact this

theorem RetInv.bound {C : Core} {k R E F : Nat} (h : RetInv C k R E F) : R ≤ 4 * E ∧ F ≤ E := by
  unfold RetInv RetC at h
  split at h <;> omega

theorem RetInv.boot {hdrs : Bytes} {tv : Nat → D} {mv : Nat → Bytes} {b0 : Nat → Nat → D} (k : Nat) :
    RetInv (Sys.boot c hdrs tv mv b0).core k 0 0 0 := ⟨rfl, rfl, rfl⟩

theorem Run.attempts {hdrs : Bytes} {tv : Nat → D} {mv : Nat → Bytes} {b0 : Nat → Nat → D} {s0 s : Sys D} {ls : List (Lab D)}
    (h : Run c s0 ls s) (hb : Bootable c hdrs mv) (h0 : s0 = Sys.boot c hdrs tv mv b0) (k : Nat) :
    ∃ R0 E0 F0 R E F, R0 ≤ 4 * E0 ∧ F0 ≤ E0 ∧ (Lab.ev .crash ∉ ls → R0 = 0 ∧ E0 = 0 ∧ F0 = 0) ∧
      (fetchLabs ls).count (.read k) = R0 + R ∧ (fetchLabs ls).count (.enq k) = E0 + E ∧
      (fetchLabs ls).count (.failed k) = F0 + F ∧ RetInv s.core k R E F := by
  induction h with
  | nil => subst h0; exact ⟨0, 0, 0, 0, 0, 0, by omega, by omega, fun _ => ⟨rfl, rfl, rfl⟩, rfl, rfl, rfl, .boot k⟩
  | @step _ _ ls ls' _ h hst ih =>
    have hs : Sound c _ := (h0 ▸ Sound.boot hb : Sound c _).run h
    obtain ⟨R0, E0, F0, R, E, F, h1, h2, h3, h4, h5, h6, h7⟩ := ih
    refine ⟨R0, E0, F0, _, _, _, h1, h2, fun hn => h3 (fun hm => hn (by simp [hm])), ?_, ?_, ?_, h7.run (step_core hs hst)⟩ <;>
      rw [fetchLabs_append, List.count_append] <;> omega
  | @crash _ ls _ _ _ b0' h ht hm hl ih =>
    obtain ⟨R0, E0, F0, R, E, F, h1, h2, h3, h4, h5, h6, h7⟩ := ih
    obtain ⟨h8, h9⟩ := h7.bound
    refine ⟨R0 + R, E0 + E, F0 + F, 0, 0, 0, by omega, by omega, fun hn => absurd (by simp) hn, ?_, ?_, ?_, .boot k⟩ <;>
      · rw [fetchLabs_append, List.count_append]
        have : fetchLabs [(Lab.ev .crash : Lab D)] = [] := rfl
        rw [this]
        simp only [List.count_nil]
        omega

end Verif.Lazy
