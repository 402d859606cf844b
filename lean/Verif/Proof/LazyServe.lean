import Verif.Proof.LazyDrain

/-! Progress of the lazily fetched disk: once the worker is done, every waiting request is served. -/

namespace Verif.Lazy
open Verif Verif.Metadata Verif.Disk

variable {D : Type} {c : Cfg D}

theorem fetchStatus_ready {sh : Shared} {ks : List Nat} (h : ∀ k ∈ ks, sh.fs k ≠ .notFetched) : fetchStatus sh ks ≠ .pending := by
  induction ks with
  | nil => simp [fetchStatus]
  | cons k ks ih =>
    have h1 := h k (by simp)
    have h2 := ih fun j hj => h j (by simp [hj])
    unfold fetchStatus
    split <;> simp_all

/-- When the worker is done, whatever a request waits for has happened. -/
theorem Drained.ready {s : Sys D} (hr : Ready c s) (hd : Drained c s) {q : Nat} {r : QReq D} (h : r ∈ (s.ch q).queue) :
    (∀ k ∈ stripes c r, s.sh.fs k ≠ .notFetched) ∧
    (c.track = true → r.out.isSome = true → ∀ k ∈ stripes c r, s.sh.ws k = true) := by
  have hno : ∀ k mask, ¬ updIn s k mask := by
    rintro k mask ⟨u, hu, -⟩
    rw [hd.upd k] at hu; simp at hu
  constructor
  · intro k hk
    rcases hr.live.queue q r h k hk with h1 | h1 | h1
    · exact h1
    · rw [hd.msgs] at h1; simp at h1
    · rcases hd.st k with h2 | h2
      · exact absurd h2 h1
      · rcases hr.live.fetched k h2 with h3 | h3 | h3 | h3
        · exact h3
        · rw [hd.fin] at h3; simp at h3
        · rw [hd.queue] at h3; simp at h3
        · exact absurd h3 (hno _ _)
  · intro ht ho k hk
    rcases hr.live.wqueue ht q r h ho k hk with h1 | h1 | h1 | h1
    · exact h1
    · rw [hd.msgs] at h1; simp at h1
    · rw [hd.queue] at h1; simp at h1
    · exact absurd h1 (hno _ _)

/-- The request leaves the waiting queue. -/
theorem serve {s : Sys D} (hr : Ready c s) (hd : Drained c s) {q id : Nat} {r : QReq D} (h : r ∈ (s.ch q).queue) (hid : r.id = id) :
    ∃ l s', Steady c s l s' ∧ visible l = [] ∧ Ready c s' ∧
      (s'.t.ops (.guest q id) ≠ none ∨ ∃ ok, (id, ok) ∈ (s'.ch q).finished) := by
  generalize hq : (s.ch q).queue = qs at h
  induction qs generalizing s with
  | nil => simp at h
  | cons r0 rest ih =>
    obtain ⟨hf, hw⟩ := hd.ready hr (q := q) (r := r0) (by rw [hq]; simp)
    have hnp := fetchStatus_ready hf
    have hp : ∃ s1 l1, processQueue c s q true = some (s1, l1) ∧ visible l1 = [] ∧ (s1.ch q).queue = rest ∧
        s1.msgs = s.msgs ∧ s1.fl = s.fl ∧ s1.fe = s.fe ∧
        (s1.t.ops (.guest q r0.id) ≠ none ∨ ∃ ok, (r0.id, ok) ∈ (s1.ch q).finished) := by
      unfold processQueue
      rw [hq]
      simp only
      cases hst : fetchStatus s.sh (stripes c r0) with
      | pending => exact absurd hst hnp
      | failed =>
        refine ⟨_, _, rfl, rfl, ?_, rfl, rfl, rfl, Or.inr ⟨false, ?_⟩⟩
        · simp [finishFalse, setCh_ch]
        · simp [finishFalse, setCh_ch]
      | complete =>
        have hgo : (c.track && r0.out.isSome && !(stripes c r0).all s.sh.ws) = false := by
          cases ht : c.track with
          | false => rfl
          | true =>
            cases ho : r0.out.isSome with
            | false => rfl
            | true =>
              have := hw ht ho
              have e : (stripes c r0).all s.sh.ws = true := List.all_eq_true.mpr this
              rw [e]; rfl
        simp only [hgo, if_true]
        refine ⟨_, _, rfl, rfl, ?_⟩
        unfold toBase
        cases r0.out with
        | none => exact ⟨by simp [setCh_ch], rfl, rfl, rfl, Or.inl (by simp [Dev.issueRead])⟩
        | some data => exact ⟨by simp [setCh_ch], rfl, rfl, rfl, Or.inl (by simp [Dev.issueWrite])⟩
    obtain ⟨s1, l1, h0, h1, h2, h3, h4, h5, h6⟩ := hp
    have hstep : Step c s (.processQueue q true) l1 s1 := .processQueue s q true s1 l1 h0
    have hr1 := hr.step hstep rfl
    rcases List.mem_cons.mp h with rfl | hin
    · exact ⟨l1, s1, .one hstep rfl, h1, hr1, by rw [← hid]; exact h6⟩
    · have hd1 : Drained c s1 := ⟨h3.trans hd.msgs, by rw [h4]; exact hd.queue, by rw [h5]; exact hd.fin, by rw [h4]; exact hd.upd, by rw [h5]; exact hd.st⟩
      obtain ⟨l2, s2, g1, g2, g3, g4⟩ := ih hr1 hd1 h2 hin
      exact ⟨l1 ++ l2, s2, (Steady.one hstep rfl).trans g1, by rw [visible_append, h1, g2]; rfl, g3, g4⟩

theorem noIssue_nil : noIssue ([] : List (Ev D)) := fun _ _ _ h => by simp at h

theorem noIssue.append {a b : List (Ev D)} (ha : noIssue a) (hb : noIssue b) : noIssue (a ++ b) := fun q id r h => by
  rcases List.mem_append.mp h with h | h
  · exact ha q id r h
  · exact hb q id r h

theorem noIssue_resp (q id : Nat) (ok : Bool) (x : List (Option D)) : noIssue [Ev.resp q id ok x] := fun _ _ _ h => by simp at h

theorem answer_finished {s : Sys D} {q id : Nat} {ok : Bool} (h : (id, ok) ∈ (s.ch q).finished) :
    ∃ l s', Steady c s l s' ∧ answeredIn q id (visible l) ∧ noIssue (visible l) := by
  generalize hq : (s.ch q).finished = fs at h
  induction fs generalizing s with
  | nil => simp at h
  | cons p rest ih =>
    obtain ⟨i, o⟩ := p
    have hstep := Step.reportFinished (c := c) s q i o rest hq
    rcases List.mem_cons.mp h with he | hin
    · obtain ⟨rfl, rfl⟩ := Prod.mk.injEq .. ▸ he
      exact ⟨_, _, .one hstep rfl, ⟨ok, [], by simp [visible]⟩, noIssue_resp _ _ _ _⟩
    · obtain ⟨l, s', g1, ⟨o', x, g2⟩, g3⟩ := ih (s := s.setCh q fun ch => { ch with finished := rest }) (by simp [setCh_ch]) hin
      refine ⟨_, s', (Steady.one hstep rfl).trans g1, ⟨o', x, ?_⟩, ?_⟩
      · rw [visible_append]; exact List.mem_append_right _ g2
      · rw [visible_append]; exact (noIssue_resp _ _ _ _).append g3

theorem answer_base {s : Sys D} {q id : Nat} (h : s.t.ops (.guest q id) ≠ none) :
    ∃ l s', Steady c s l s' ∧ answeredIn q id (visible l) ∧ noIssue (visible l) := by
  obtain ⟨xs, hxs⟩ := execs_finish s.t (.guest q id) h
  obtain ⟨l, h1, h2, -⟩ := Works.execData (c := c) s (.guest q id) xs
  have hstep := Step.baseDone (c := c) { s with t := xs.foldl (fun d x => d.exec (.guest q id) x) s.t } q id true hxs
  refine ⟨_, _, h1.trans (.one hstep rfl), ⟨true, (xs.foldl (fun d x => d.exec (.guest q id) x) s.t).result (.guest q id) true, ?_⟩, ?_⟩
  · rw [visible_append, h2]; simp [visible]
  · rw [visible_append, h2]; exact noIssue_nil.append (noIssue_resp _ _ _ _)

theorem answer_img {s : Sys D} {q id : Nat} (h : (s.ch q).img id ≠ none) :
    ∃ l s', Steady c s l s' ∧ answeredIn q id (visible l) ∧ noIssue (visible l) := by
  cases hi : (s.ch q).img id with
  | none => exact absurd hi h
  | some p =>
    obtain ⟨off, cnt⟩ := p
    have hstep := Step.imageDone (c := c) s q id true off cnt hi
    exact ⟨_, _, .one hstep rfl, ⟨true, (List.range cnt).map fun i => c.src (off + i), by simp [visible]⟩, noIssue_resp _ _ _ _⟩

/-- Whatever holds a request can let go of it. -/
theorem answer {s : Sys D} (hr : Ready c s) {q id : Nat} (h : ¬ s.idFree q id) :
    ∃ l s', Steady c s l s' ∧ answeredIn q id (visible l) ∧ noIssue (visible l) := by
  unfold Sys.idFree at h
  by_cases h1 : s.t.ops (.guest q id) = none
  · by_cases h2 : (s.ch q).img id = none
    · by_cases h3 : ∀ r ∈ (s.ch q).queue, r.id ≠ id
      · have h4 : ¬ ∀ p ∈ (s.ch q).finished, p.1 ≠ id := fun h4 => h ⟨h1, h2, h3, h4⟩
        have : ∃ p ∈ (s.ch q).finished, p.1 = id := Classical.byContradiction fun hn => h4 fun p hp he => hn ⟨p, hp, he⟩
        obtain ⟨⟨i, ok⟩, hp, rfl⟩ := this
        exact answer_finished hp
      · have : ∃ r ∈ (s.ch q).queue, r.id = id := Classical.byContradiction fun hn => h3 fun p hp he => hn ⟨p, hp, he⟩
        obtain ⟨r, hrq, hid⟩ := this
        obtain ⟨s1, ⟨l1, g1, g2, g3⟩, hr1, hd1⟩ := drain hr
        obtain ⟨l2, s2, k1, k2, k3, k4⟩ := serve hr1 hd1 (q := q) (r := r) (by rw [g3]; exact hrq) hid
        have : ∃ l s', Steady c s2 l s' ∧ answeredIn q id (visible l) ∧ noIssue (visible l) := by
          rcases k4 with k4 | ⟨ok, k4⟩
          · exact answer_base k4
          · exact answer_finished k4
        obtain ⟨l3, s3, m1, ⟨ok, x, m2⟩, m3⟩ := this
        refine ⟨_, s3, (g1.trans k1).trans m1, ⟨ok, x, ?_⟩, ?_⟩
        · rw [visible_append]; exact List.mem_append_right _ m2
        · rw [visible_append, visible_append, g2, k2]; exact (noIssue_nil.append noIssue_nil).append m3
    · exact answer_img h2
  · exact answer_base h1

/-! ### The history says who waits -/

theorem Disk.Step.keep {d d' : Disk D} {es : List (Ev D)} (h : Disk.Step d es d') {o : Nat × Nat} (ho : d.ops o ≠ none)
    (hu : unanswered o es) : d'.ops o ≠ none := by
  cases h with
  | issue q id r hn =>
    have hne : o ≠ (q, id) := by rintro rfl; exact ho hn
    cases r <;> simpa [Disk.issue, Dev.issueRead, Dev.issueWrite, Dev.issueFlush, upd_ne _ _ hne] using ho
  | exec o' x =>
    have : Dev.kinds d o ≠ none := fun e => ho (kinds_none.mp e)
    intro e
    exact this (by rw [← kinds_exec d o' o x]; exact kinds_none.mpr e)
  | respond q id ok hmc =>
    have hne : o ≠ (q, id) := by
      rintro rfl
      exact (hu (Ev.resp q id ok _) (by simp; rfl)).1 rfl
    simpa [Dev.complete, upd_ne _ _ hne] using ho
  | crash v hv => exact absurd rfl (hu _ (by simp)).2

theorem Disk.Run.keep {d d' : Disk D} {es : List (Ev D)} (h : Disk.Run d es d') {o : Nat × Nat} (ho : d.ops o ≠ none)
    (hu : unanswered o es) : d'.ops o ≠ none := by
  induction h with
  | nil => exact ho
  | snoc _ hs ih =>
    exact Disk.Step.keep hs (ih fun e he => hu e (List.mem_append_left _ he)) fun e he => hu e (List.mem_append_right _ he)

theorem waiting_ops {d d' : Disk D} {es : List (Ev D)} (h : Disk.Run d es d') {q id : Nat} (hw : waiting q id es) :
    d'.ops (q, id) ≠ none := by
  obtain ⟨a, b, r, rfl, hu⟩ := hw
  obtain ⟨m, h1, h2⟩ := h.split a _ rfl
  obtain ⟨m1, m2, -, hs, h3⟩ := h2.event
  obtain ⟨-, rfl⟩ := issue_inv hs
  refine Disk.Run.keep h3 ?_ hu
  cases r <;> simp [Disk.issue, Dev.issueRead, Dev.issueWrite, Dev.issueFlush]

theorem Steady.visible_waiting {q id : Nat} {l1 l2 : List (Lab D)} (h : waiting q id (visible l2)) : waiting q id (visible (l1 ++ l2)) := by
  obtain ⟨a, b, r, h1, h2⟩ := h
  exact ⟨visible l1 ++ a, b, r, by rw [visible_append, h1]; simp, h2⟩

end Verif.Lazy
