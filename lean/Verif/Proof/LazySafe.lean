import Verif.Proof.LazyCore
import Verif.Proof.LazyCount
import Verif.Proof.LazyWritten
import Verif.Proof.DiskTrace

/-! Last lemmas for C09–C15. -/

set_option maxRecDepth 8000

namespace Verif.Disk
variable {D : Type}

theorem Disk.Step.pend {d d' : Disk D} {es : List (Ev D)} (h : Disk.Step d es d') {q id : Nat} (ho : d'.ops (q, id) ≠ none) :
    (∃ r, es = [.issue q id r]) ∨ (d.ops (q, id) ≠ none ∧ unanswered (q, id) es) := by
  cases h with
  | issue c i r hn =>
    by_cases he : (q, id) = (c, i)
    · simp only [Prod.mk.injEq] at he
      obtain ⟨rfl, rfl⟩ := he
      exact Or.inl ⟨r, rfl⟩
    · refine Or.inr ⟨?_, fun e he' => ?_⟩
      · intro h0; apply ho
        cases r <;> simp [Disk.issue, Dev.issueRead, Dev.issueWrite, Dev.issueFlush, upd_ne _ _ he, h0]
      · simp only [List.mem_singleton] at he'; subst he'
        exact ⟨by simp [Ev.isResp], by simp⟩
  | exec o x =>
    refine Or.inr ⟨fun h0 => ho ?_, fun e he => by simp at he⟩
    unfold Dev.exec
    split
    · rename_i off cnt got hop
      split
      · by_cases he : (q, id) = o
        · subst he; rw [h0] at hop; simp at hop
        · simp [upd_ne _ _ he, h0]
      · exact h0
    · rename_i off cnt data done hop
      split
      · by_cases he : (q, id) = o
        · subst he; rw [h0] at hop; simp at hop
        · simp [upd_ne _ _ he, h0]
      · exact h0
    · exact h0
  | respond c i ok hm =>
    by_cases he : (q, id) = (c, i)
    · rw [he] at ho; simp [Dev.complete] at ho
    · refine Or.inr ⟨fun h0 => ho (by simp [Dev.complete, upd_ne _ _ he, h0]), fun e he' => ?_⟩
      simp only [List.mem_singleton] at he'; subst he'
      exact ⟨by simp only [Ev.isResp]; exact fun h => he h.symm, by simp⟩
  | crash v hv => simp [Dev.fresh] at ho

/-- A request still in flight was issued and nothing ended it since. -/
theorem Disk.Run.open {d d' : Disk D} {es : List (Ev D)} {v0 : Nat → D} (h : Disk.Run d es d') (h0 : d = Dev.fresh v0)
    {q id : Nat} (ho : d'.ops (q, id) ≠ none) : ∃ a b r, es = a ++ Ev.issue q id r :: b ∧ unanswered (q, id) b := by
  induction h with
  | nil => subst h0; simp [Dev.fresh] at ho
  | @snoc d1 d2 es es' hr hs ih =>
    rcases hs.pend ho with ⟨r, rfl⟩ | ⟨h1, h2⟩
    · exact ⟨es, [], r, rfl, fun e he => by simp at he⟩
    · obtain ⟨a, b, r, rfl, hb⟩ := ih h1
      refine ⟨a, b ++ es', r, by simp, fun e he => ?_⟩
      rcases List.mem_append.mp he with he | he
      · exact hb e he
      · exact h2 e he

theorem Disk.Run.answered {d d' : Disk D} {es : List (Ev D)} {v0 : Nat → D} (h : Disk.Run d es d') (h0 : d = Dev.fresh v0)
    {q id : Nat} {ok : Bool} {out : List (Option D)} {a b : List (Ev D)} (he : es = a ++ Ev.resp q id ok out :: b) :
    ∃ a1 a2 r, a = a1 ++ Ev.issue q id r :: a2 ∧ unanswered (q, id) a2 := by
  obtain ⟨m, h1, h2⟩ := h.split a _ he
  obtain ⟨m1, m2, hq, hs, -⟩ := h2.event
  obtain ⟨⟨op, hm, -⟩, -, -⟩ := resp_inv hs
  exact (by simpa using h1.trans hq : Disk.Run d a m1).open h0 (by rw [hm]; simp)

/-- Number of times request id `(q, id)` was issued / answered. -/
def issues (q id : Nat) (es : List (Ev D)) : Nat :=
  es.countP fun | .issue q' id' _ => q' == q && id' == id | _ => false
def answers (q id : Nat) (es : List (Ev D)) : Nat :=
  es.countP fun | .resp q' id' _ _ => q' == q && id' == id | _ => false

theorem answers_le {d d' : Disk D} {es : List (Ev D)} {v0 : Nat → D} (h : Disk.Run d es d') (h0 : d = Dev.fresh v0) (q id : Nat) :
    answers q id es ≤ issues q id es ∧ (d'.ops (q, id) ≠ none → answers q id es + 1 ≤ issues q id es) := by
  induction h with
  | nil => subst h0; exact ⟨Nat.le_refl _, fun h => absurd rfl h⟩
  | @snoc d1 d2 es es' hr hs ih =>
    obtain ⟨i1, i2⟩ := ih
    have e1 : answers q id (es ++ es') = answers q id es + answers q id es' := by simp [answers]
    have e2 : issues q id (es ++ es') = issues q id es + issues q id es' := by simp [issues]
    rw [e1, e2]
    have key : answers q id es' ≤ 1 ∧ (answers q id es' = 1 → d1.ops (q, id) ≠ none ∧ d2.ops (q, id) = none) := by
      cases hs with
      | issue c i r hn => exact ⟨by simp [answers], by simp [answers]⟩
      | exec o x => exact ⟨by simp [answers], by simp [answers]⟩
      | crash v hv => exact ⟨by simp [answers], by simp [answers]⟩
      | respond c i ok hm =>
        refine ⟨by simp only [answers]; exact List.countP_le_length, fun h => ?_⟩
        obtain ⟨op, hop, -⟩ := hm
        by_cases he : c = q ∧ i = id
        · obtain ⟨rfl, rfl⟩ := he
          exact ⟨by rw [hop]; simp, by simp [Dev.complete]⟩
        · simp [answers, List.countP_cons] at h
          exact absurd h he
    refine ⟨?_, fun ho => ?_⟩
    · by_cases h1 : answers q id es' = 1
      · have := i2 (key.2 h1).1; omega
      · omega
    · have ha : answers q id es' = 0 := by
        by_cases h1 : answers q id es' = 1
        · exact absurd (key.2 h1).2 ho
        · omega
      rcases hs.pend ho with ⟨r, rfl⟩ | ⟨h1, h2⟩
      · have : issues q id [Ev.issue q id r] = 1 := by simp [issues]
        omega
      · have := i2 h1; omega

end Verif.Disk

namespace Verif.Lazy
open Verif Verif.Metadata Verif.Disk

variable {D : Type} {c : Cfg D}

/-- Labels that touch the source or copy data of stripe `k`. -/
def Lab.copies (k : Nat) : Lab D → Prop
  | .enqueue k' | .sourceRead k' | .fetchWrite k' => k' = k
  | _ => False

theorem step_copies {s s' : Sys D} {a : Act D} {ls : List (Lab D)} (hs : Sound c s) (h : Step c s a ls s') {k : Nat}
    (hl : s.sh.isLocal k = true) : ∀ l ∈ ls, ¬ l.copies k := by
  intro l hm hc
  have := step_labOk hs h l hm
  cases l <;> simp only [Lab.copies] at hc <;> subst hc <;> simp only [LabOk] at this <;> rw [this.1] at hl <;> simp at hl

theorem Run.copies {s s' : Sys D} {ls : List (Lab D)} (h : Run c s ls s') (hs : Sound c s) {k : Nat}
    (hl : s.sh.isLocal k = true) : ∀ l ∈ ls, ¬ l.copies k := by
  induction h with
  | nil => simp
  | step h hst ih =>
    intro l hm
    rcases List.mem_append.mp hm with hm | hm
    · exact ih l hm
    · exact step_copies (hs.run h) hst (h.local hs k hl) l hm
  | crash _ h _ _ _ ih =>
    intro l hm
    rcases List.mem_append.mp hm with hm | hm
    · exact ih l hm
    · simp only [List.mem_singleton] at hm; subst hm; simp [Lab.copies]

/-- Nothing of stripe `k` is queued or in flight once it is local. -/
theorem Sound.idle {s : Sys D} (hs : Sound c s) {k : Nat} (hl : s.sh.isLocal k = true) :
    k ∉ s.fe.queue ∧ s.fe.alloc k = none ∧ s.fe.srcIn k = false ∧ s.t.ops (.fetch k) = none := by
  have h := hs.1.fetch.ok k
  unfold StripeOk at h
  rw [hl] at h
  rw [← kinds_none]
  unfold StripeOkC at h
  split at h
  · exact h
  · exact h
  · exact absurd h.2.2.2.2 (by simp)
  · exact absurd h.2.2.1 (by simp)
  · exact absurd h.2.2.1 (by simp)

/-- A stripe is being copied: a request of it is at the source or at the data device. -/
def copying (s : Sys D) (k : Nat) : Prop := s.fe.srcIn k = true ∨ s.t.ops (.fetch k) ≠ none

theorem Sound.copying {s : Sys D} (hs : Sound c s) (k : Nat) : copying s k ↔ s.fe.alloc k ≠ none := by
  have h := hs.1.fetch.ok k
  unfold Lazy.copying
  rw [Ne, ← kinds_none]
  unfold StripeOk StripeOkC at h
  split at h
  · simp [h]
  · simp [h]
  · simp [h]
  · obtain ⟨-, h2, -, ⟨h3, -⟩ | ⟨-, h3⟩⟩ := h <;> simp [h2, h3]
  · simp [h]

/-- How often stripe `k` was read from the source / put on the fetch queue / given up. -/
def sourceReads (k : Nat) (ls : List (Lab D)) : Nat := ls.countP fun | .sourceRead k' => k' == k | _ => false
def enqueues (k : Nat) (ls : List (Lab D)) : Nat := ls.countP fun | .enqueue k' => k' == k | _ => false
def givenUp (k : Nat) (ls : List (Lab D)) : Nat := ls.countP fun | .fetchFailed k' => k' == k | _ => false

theorem fetchLabs_counts (k : Nat) (ls : List (Lab D)) : (fetchLabs ls).count (.read k) = sourceReads k ls ∧
    (fetchLabs ls).count (.enq k) = enqueues k ls ∧ (fetchLabs ls).count (.failed k) = givenUp k ls := by
  induction ls with
  | nil => exact ⟨rfl, rfl, rfl⟩
  | cons l ls ih =>
    obtain ⟨i1, i2, i3⟩ := ih
    have e : fetchLabs (l :: ls) = (Lab.fetch? l).toList ++ fetchLabs ls := by
      unfold fetchLabs; cases h : Lab.fetch? l <;> simp [h]
    rw [e]
    simp only [List.count_append, i1, i2, i3]
    unfold sourceReads enqueues givenUp
    simp only [List.countP_cons]
    cases l <;> simp [Lab.fetch?, List.count_cons] <;> omega

/-- The first stripe of a request that is not local decides. -/
theorem fetchStatus_failed {sh : Shared} {pre post : List Nat} {k : Nat} (h1 : ∀ j ∈ pre, sh.isLocal j = true) (h2 : sh.fs k = .failed) :
    fetchStatus sh (pre ++ k :: post) = .failed := by
  induction pre with
  | nil => simp [fetchStatus, h2]
  | cons j pre ih =>
    have hj := h1 j (by simp)
    have := ih (fun x hx => h1 x (by simp [hx]))
    simp only [Shared.isLocal, Bool.or_eq_true, decide_eq_true_eq] at hj
    simp only [List.cons_append, fetchStatus]
    rcases hj with hj | hj <;> rw [hj] <;> exact this

theorem fetchStatus_local {sh : Shared} {ks : List Nat} (h1 : ∀ j ∈ ks, sh.isLocal j = true) : fetchStatus sh ks = .complete := by
  induction ks with
  | nil => rfl
  | cons j ks ih =>
    have hj := h1 j (by simp)
    simp only [Shared.isLocal, Bool.or_eq_true, decide_eq_true_eq] at hj
    simp only [fetchStatus]
    rcases hj with hj | hj <;> rw [hj] <;> exact ih (fun x hx => h1 x (by simp [hx]))

/-- All stripes with a source are local. -/
def AllLocal (c : Cfg D) (s : Sys D) : Prop := ∀ k, k < c.n → c.hs k = true → s.sh.isLocal k = true

theorem AllLocal.all {s : Sys D} (h : AllLocal c s) (hs : Sound c s) {k : Nat} (hk : k < c.n) : s.sh.isLocal k = true := by
  obtain ⟨gg, a, hsim⟩ := hs.sim
  cases hh : c.hs k with
  | true => exact h k hk hh
  | false => exact (hsim.nosrc k).2 hh

theorem AllLocal.no_copies {s s' : Sys D} {ls : List (Lab D)} (h : AllLocal c s) (hs : Sound c s) (hr : Run c s ls s') :
    AllLocal c s' ∧ ∀ k, ∀ l ∈ ls, ¬ l.copies k := by
  refine ⟨fun k h1 h2 => hr.local hs k (h k h1 h2), ?_⟩
  intro k l hl hc
  by_cases hk : k < c.n
  · exact hr.copies hs (h.all hs hk) l hl hc
  · -- labels only name stripes of the volume
    induction hr with
    | nil => simp at hl
    | step h' hst ih =>
      rcases List.mem_append.mp hl with hl | hl
      · exact ih hl
      · have hf := (hs.run h').1.fetch
        have hlo := step_labOk (hs.run h') hst l hl
        cases l <;> simp only [Lab.copies] at hc <;> subst hc <;> simp only [LabOk] at hlo
        · exact hk hlo.2.2
        · have := hf.ok
          refine hk (hf.bound _ ?_)
          intro h0
          have := this ‹Nat›
          unfold StripeOk StripeOkC at this
          rw [h0] at this
          exact this.1 hlo.2
        · refine hk (hf.bound _ ?_)
          intro h0
          have := hf.ok ‹Nat›
          unfold StripeOk StripeOkC at this
          rw [h0] at this
          rw [this.2.2.1] at hlo
          simp at hlo
    | crash _ h _ _ _ ih =>
      rcases List.mem_append.mp hl with hl | hl
      · exact ih hl
      · simp only [List.mem_singleton] at hl; subst hl; simp [Lab.copies] at hc

end Verif.Lazy
