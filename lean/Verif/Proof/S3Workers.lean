import Verif.Spec.S3Workers

/-! # The worker threads of the S3 store: proofs -/

namespace Verif.S3W
open Verif Verif.Disk Verif.S3

variable {pfx : Option (List Char)} {c : Nat} {b0 : List Char → Option Bytes}

theorem count_pos (n : Nat) : 1 ≤ workerCount n ∧ workerCount n ≤ 128 := by
  unfold workerCount
  dsimp only
  split <;> split <;> omega

/-! ## One worker changes -/

theorem set_jobs {ws : List Wk} {i : Nat} {w0 : Wk} (h : ws[i]? = some w0) (w : Wk) :
    ((ws.set i w).flatMap Wk.job ++ w0.job).Perm (ws.flatMap Wk.job ++ w.job) := by
  induction ws generalizing i with
  | nil => simp at h
  | cons x ws ih =>
    cases i with
    | zero =>
      simp only [List.getElem?_cons_zero, Option.some.injEq] at h
      subst h
      simp only [List.set_cons_zero, List.flatMap_cons, List.append_assoc]
      exact (List.Perm.append_left _ List.perm_append_comm).trans (by
        rw [← List.append_assoc, ← List.append_assoc]
        exact (List.perm_append_comm.append_right _).trans (by
          rw [List.append_assoc, List.append_assoc]
          exact List.Perm.append_left _ List.perm_append_comm))
    | succ i =>
      simp only [List.getElem?_cons_succ] at h
      simp only [List.set_cons_succ, List.flatMap_cons, List.append_assoc]
      exact (ih h).append_left _

theorem set_alive {ws : List Wk} {i : Nat} {w0 w : Wk} (h : ws[i]? = some w0) (hw : w.alive = true) : (ws.set i w).any Wk.alive = true := by
  rw [List.any_eq_true]
  exact ⟨w, List.mem_of_getElem? (i := i) (by
    obtain ⟨hi, _⟩ := List.getElem?_eq_some_iff.mp h
    simp [hi]), hw⟩

theorem setWorker_alive {s : St} {i : Nat} {w0 w : Wk} (h : s.workers[i]? = some w0) (hw : w.alive = true) :
    s.setWorker i w = { s with workers := s.workers.set i w } := by
  unfold St.setWorker St.served
  dsimp only
  rw [if_pos (set_alive h hw)]

theorem served_of {s : St} {i : Nat} {w : Wk} (h : s.workers[i]? = some w) (hw : w.alive = true) : s.served = true := by
  unfold St.served
  rw [List.any_eq_true]
  exact ⟨w, List.mem_of_getElem? h, hw⟩

/-! ## Sequences of actions -/

theorem queuedJobs_snoc (as : List Act) (a : Act) : queuedJobs (as ++ [a]) = queuedJobs as ++ queuedJobs [a] := List.filterMap_append
theorem begun_snoc (as : List Act) (a : Act) : begun (as ++ [a]) = begun as ++ begun [a] := List.filterMap_append
theorem carriedOut_snoc (as : List Act) (a : Act) : carriedOut (as ++ [a]) = carriedOut as ++ carriedOut [a] := List.filterMap_append

theorem seen_append (as bs : List Act) : seen (as ++ bs) = seen as ++ seen bs := by
  induction as with
  | nil => rfl
  | cons a as ih => cases a <;> simp [seen, ih]

/-! ## The invariant -/

structure Inv (c : Nat) (as : List Act) (s : St) : Prop where
  len : s.workers.length = workerCount c
  fifo : begun as ++ (s.discarded ++ s.queue) = queuedJobs as
  carried : (begun as).Perm (carriedOut as ++ s.inProgress)
  kept : s.served = true → s.discarded = []
  none_queued : s.served = false → s.queue = []
  /-- a worker that started is there, or the store is being dropped and nothing is queued -/
  booted : (∃ i, Act.boot i true ∈ as) → s.discarded = [] ∧
    ((∃ (i : Nat) (w : Wk), s.workers[i]? = some w ∧ w.alive = true ∧ w ≠ .starting) ∨ s.closed = true ∧ s.queue = [])

theorem replicate_job (n : Nat) : (List.replicate n Wk.starting).flatMap Wk.job = [] := by
  induction n with
  | zero => rfl
  | succ n ih => rw [List.replicate_succ, List.flatMap_cons, ih]; rfl

theorem inv_nil : Inv c [] (St.new c b0) where
  len := by simp [St.new]
  fifo := rfl
  carried := by
    show List.Perm [] ([] ++ (List.replicate (workerCount c) Wk.starting).flatMap Wk.job)
    rw [replicate_job]
    exact List.Perm.refl _
  kept := fun _ => rfl
  none_queued := fun _ => rfl
  booted := by rintro ⟨i, h⟩; cases h

theorem boot_mem {as : List Act} {a : Act} (h : ∃ i, Act.boot i true ∈ as ++ [a]) : (∃ i, Act.boot i true ∈ as) ∨ ∃ i, a = .boot i true := by
  obtain ⟨i, h⟩ := h
  rcases List.mem_append.mp h with h | h
  · exact Or.inl ⟨i, h⟩
  · exact Or.inr ⟨i, (List.mem_singleton.mp h).symm⟩

/-- A worker that is not starting stays where it is when another changes. -/
theorem keep_worker {ws : List Wk} {i k : Nat} {w0 w x : Wk} (h : ws[i]? = some w0) (hk : ws[k]? = some x) (hx : x.alive = true ∧ x ≠ .starting)
    (hw : w.alive = true ∧ w ≠ .starting ∨ w0 = .starting) :
    ∃ (k : Nat) (x : Wk), (ws.set i w)[k]? = some x ∧ x.alive = true ∧ x ≠ .starting := by
  by_cases hik : i = k
  · subst hik
    rw [h] at hk
    cases hk
    rcases hw with hw | hw
    · obtain ⟨hi, _⟩ := List.getElem?_eq_some_iff.mp h
      exact ⟨i, w, by simp [hi], hw.1, hw.2⟩
    · exact absurd hw hx.2
  · exact ⟨k, x, by rw [List.getElem?_set_ne hik]; exact hk, hx.1, hx.2⟩

theorem inert_fifo {as : List Act} {a : Act} {s : St} (h : Inv c as s) (h1 : begun [a] = []) (h2 : queuedJobs [a] = []) :
    begun (as ++ [a]) ++ (s.discarded ++ s.queue) = queuedJobs (as ++ [a]) := by
  rw [begun_snoc, queuedJobs_snoc, h1, h2, List.append_nil, List.append_nil]
  exact h.fifo

theorem inert_carried {as : List Act} {a : Act} {s : St} (h : Inv c as s) (h1 : begun [a] = []) (h2 : carriedOut [a] = []) :
    (begun (as ++ [a])).Perm (carriedOut (as ++ [a]) ++ s.inProgress) := by
  rw [begun_snoc, carriedOut_snoc, h1, h2, List.append_nil, List.append_nil]
  exact h.carried

theorem inv_step {as : List Act} {a : Act} {s s' : St} (h : Inv c as s) (st : Step pfx s a s') : Inv c (as ++ [a]) s' := by
  have nb : ∀ {a : Act}, (∀ i, a ≠ .boot i true) → (∃ i, Act.boot i true ∈ as ++ [a]) → ∃ i, Act.boot i true ∈ as := by
    intro a ha hm
    rcases boot_mem hm with h | ⟨i, h⟩
    · exact h
    · exact absurd h (ha i)
  cases st with
  | queued n d hc hs =>
    refine ⟨h.len, ?_, ?_, h.kept, fun hx => ?_, fun hb => ?_⟩
    · rw [begun_snoc, queuedJobs_snoc, ← h.fifo, show begun [Act.queued (jobOf pfx n d)] = [] from rfl, List.append_nil]
      simp only [List.append_assoc]
      rfl
    · rw [begun_snoc, carriedOut_snoc]
      simpa [begun, carriedOut, St.inProgress] using h.carried
    · exact absurd (hs.symm.trans hx) (by simp)
    · have := h.booted (nb (by simp) hb)
      refine ⟨this.1, ?_⟩
      rcases this.2 with h | h
      · exact Or.inl h
      · rw [hc] at h; cases h.1
  | refused n d hc hs =>
    have e : s.refuse (jobOf pfx n d) = { s with puts := (s.refuse (jobOf pfx n d)).puts, gets := (s.refuse (jobOf pfx n d)).gets } := by
      cases d <;> rfl
    rw [e]
    refine ⟨h.len, ?_, ?_, h.kept, h.none_queued, fun hb => h.booted (nb (by simp) hb)⟩
    · rw [begun_snoc, queuedJobs_snoc, ← h.fifo]; simp [begun, queuedJobs]
    · rw [begun_snoc, carriedOut_snoc]
      simpa [begun, carriedOut, St.inProgress] using h.carried
  | boot i ok hi =>
    have hsv := served_of hi rfl
    have hbq : begun (as ++ [Act.boot i ok]) = begun as ∧ queuedJobs (as ++ [Act.boot i ok]) = queuedJobs as ∧
        carriedOut (as ++ [Act.boot i ok]) = carriedOut as := by
      rw [begun_snoc, queuedJobs_snoc, carriedOut_snoc]; simp [begun, queuedJobs, carriedOut]
    have hj : ∀ w : Wk, w.job = [] → ((s.workers.set i w).flatMap Wk.job).Perm (s.workers.flatMap Wk.job) := by
      intro w hw
      have := set_jobs hi w
      rw [hw, List.append_nil] at this
      simpa [Wk.job] using this
    cases ok with
    | true =>
      rw [if_pos rfl, setWorker_alive hi rfl]
      refine ⟨by simpa using h.len, by rw [hbq.1, hbq.2.1]; exact h.fifo, ?_, fun _ => h.kept hsv, fun hx => ?_, fun _ => ⟨h.kept hsv, ?_⟩⟩
      · rw [hbq.1, hbq.2.2]
        exact h.carried.trans ((hj _ rfl).symm.append_left _)
      · rw [show St.served _ = (s.workers.set i Wk.idle).any Wk.alive from rfl, set_alive hi rfl] at hx; cases hx
      · obtain ⟨hl, _⟩ := List.getElem?_eq_some_iff.mp hi
        exact Or.inl ⟨i, .idle, by simp [hl], rfl, fun h => by cases h⟩
    | false =>
      rw [if_neg (by simp)]
      unfold St.setWorker
      dsimp only
      have hd := h.kept hsv
      split
      · rename_i hs'
        refine ⟨by simpa using h.len, by rw [hbq.1, hbq.2.1]; exact h.fifo, ?_, fun _ => hd, fun hx => ?_, fun hb => ⟨hd, ?_⟩⟩
        · rw [hbq.1, hbq.2.2]
          exact h.carried.trans ((hj _ rfl).symm.append_left _)
        · exact absurd (hx.symm.trans hs') (by simp)
        · rcases (h.booted (nb (by simp) hb)).2 with ⟨k, x, hk, hx⟩ | hx
          · exact Or.inl (keep_worker hi hk hx (Or.inr rfl))
          · exact Or.inr hx
      · rename_i hs'
        refine ⟨by simpa using h.len, ?_, ?_, fun hx => absurd hx hs', fun _ => rfl, fun hb => ?_⟩
        · rw [hbq.1, hbq.2.1, ← h.fifo]
          show begun as ++ ((s.discarded ++ s.queue) ++ []) = _
          rw [List.append_nil]
        · rw [hbq.1, hbq.2.2]
          exact h.carried.trans ((hj _ rfl).symm.append_left _)
        · rcases (h.booted (nb (by simp) hb)).2 with ⟨k, x, hk, hx⟩ | hx
          · obtain ⟨k', x', hk', hx'⟩ := keep_worker (w := Wk.gone) hi hk hx (Or.inr rfl)
            exact absurd (show (s.workers.set i Wk.gone).any Wk.alive = true by
              rw [List.any_eq_true]; exact ⟨x', List.mem_of_getElem? hk', hx'.1⟩) hs'
          · refine ⟨?_, Or.inr ⟨hx.1, rfl⟩⟩
            show s.discarded ++ s.queue = []
            rw [hd, hx.2]; rfl
  | take i j q hi hq =>
    have hsv := served_of hi rfl
    have hi' : ({ s with queue := q } : St).workers[i]? = some .idle := hi
    rw [setWorker_alive hi' rfl]
    have hd := h.kept hsv
    refine ⟨by simpa using h.len, ?_, ?_, fun _ => hd, fun hx => ?_, fun hb => ⟨hd, ?_⟩⟩
    · rw [begun_snoc, queuedJobs_snoc, ← h.fifo, hq]
      show (begun as ++ [j]) ++ (s.discarded ++ q) = (begun as ++ (s.discarded ++ j :: q)) ++ []
      rw [hd]; simp
    · rw [begun_snoc, carriedOut_snoc]
      show (begun as ++ [j]).Perm ((carriedOut as ++ []) ++ (s.workers.set i (.working j)).flatMap Wk.job)
      have := set_jobs hi (.working j)
      simp only [Wk.job, List.append_nil] at this
      rw [List.append_nil]
      exact (h.carried.append_right [j]).trans (by rw [List.append_assoc]; exact this.symm.append_left _)
    · rw [show St.served _ = (s.workers.set i (Wk.working j)).any Wk.alive from rfl, set_alive hi rfl] at hx; cases hx
    · obtain ⟨hl, _⟩ := List.getElem?_eq_some_iff.mp hi
      exact Or.inl ⟨i, .working j, by simp [hl], rfl, fun h => by cases h⟩
  | finish i j r b hi ho =>
    have hsv := served_of hi rfl
    have hi' : ({ s with results := s.results ++ [r], bucket := b } : St).workers[i]? = some (.working j) := hi
    rw [setWorker_alive hi' rfl]
    have hd := h.kept hsv
    refine ⟨by simpa using h.len, ?_, ?_, fun _ => hd, fun hx => ?_, fun hb => ⟨hd, ?_⟩⟩
    · rw [begun_snoc, queuedJobs_snoc, ← h.fifo]; simp [begun, queuedJobs]
    · rw [begun_snoc, carriedOut_snoc]
      show (begun as ++ []).Perm ((carriedOut as ++ [j]) ++ (s.workers.set i .idle).flatMap Wk.job)
      have := set_jobs hi .idle
      simp only [Wk.job, List.append_nil] at this
      rw [List.append_nil, List.append_assoc]
      exact h.carried.trans ((this.symm.trans List.perm_append_comm).append_left _)
    · rw [show St.served _ = (s.workers.set i Wk.idle).any Wk.alive from rfl, set_alive hi rfl] at hx; cases hx
    · obtain ⟨hl, _⟩ := List.getElem?_eq_some_iff.mp hi
      exact Or.inl ⟨i, .idle, by simp [hl], rfl, fun h => by cases h⟩
  | pollPuts hc =>
    refine ⟨h.len, ?_, ?_, h.kept, h.none_queued, fun hb => h.booted (nb (by simp) hb)⟩
    · exact inert_fifo (s := s) h rfl rfl
    · exact inert_carried (s := s) h rfl rfl
  | pollGets hc =>
    refine ⟨h.len, ?_, ?_, h.kept, h.none_queued, fun hb => h.booted (nb (by simp) hb)⟩
    · exact inert_fifo (s := s) h rfl rfl
    · exact inert_carried (s := s) h rfl rfl
  | close hc =>
    refine ⟨h.len, ?_, ?_, h.kept, h.none_queued, fun hb => ?_⟩
    · exact inert_fifo (s := s) h rfl rfl
    · exact inert_carried (s := s) h rfl rfl
    · have := h.booted (nb (by simp) hb)
      refine ⟨this.1, ?_⟩
      rcases this.2 with h | h
      · exact Or.inl h
      · rw [hc] at h; cases h.1
  | exit i hc hq hi =>
    have hsv := served_of hi rfl
    have hd := h.kept hsv
    have hj : ((s.workers.set i Wk.gone).flatMap Wk.job).Perm (s.workers.flatMap Wk.job) := by
      have := set_jobs hi Wk.gone
      simpa [Wk.job] using this
    have e : s.setWorker i .gone = { s with workers := s.workers.set i .gone } := by
      unfold St.setWorker
      dsimp only
      split
      · rfl
      · rw [hq, List.append_nil]
    rw [e]
    refine ⟨by simpa using h.len, ?_, ?_, fun _ => hd, fun _ => hq, fun _ => ⟨hd, Or.inr ⟨hc, hq⟩⟩⟩
    · rw [begun_snoc, queuedJobs_snoc, ← h.fifo]; simp [begun, queuedJobs]
    · rw [begun_snoc, carriedOut_snoc]
      show (begun as ++ []).Perm ((carriedOut as ++ []) ++ (s.workers.set i .gone).flatMap Wk.job)
      rw [List.append_nil, List.append_nil]
      exact h.carried.trans (hj.symm.append_left _)
  | dropped hc hs =>
    refine ⟨h.len, ?_, ?_, h.kept, h.none_queued, fun hb => h.booted (nb (by simp) hb)⟩
    · exact inert_fifo (s := s) h rfl rfl
    · exact inert_carried (s := s) h rfl rfl
  | foreign k v hk =>
    refine ⟨h.len, ?_, ?_, h.kept, h.none_queued, fun hb => h.booted (nb (by simp) hb)⟩
    · exact inert_fifo (s := s) h rfl rfl
    · exact inert_carried (s := s) h rfl rfl

theorem run_inv {as : List Act} {s : St} (h : Run pfx c b0 as s) : Inv c as s := by
  induction h with
  | nil => exact inv_nil
  | snoc _ st ih => exact inv_step ih st

/-! ## The store of `Model/S3` -/

/-- The workers take all that is queued. -/
theorem takeAll {es : List Ev} (q : List Job) {t : S3.St} (h : S3.Run pfx b0 es t) (hq : t.queue = q) :
    S3.Run pfx b0 es { t with queue := [], busy := t.busy ++ q } := by
  induction q generalizing t with
  | nil =>
    have : ({ t with queue := [], busy := t.busy ++ [] } : S3.St) = t := by
      cases t; simp only [List.append_nil] at hq ⊢; simp_all
    rw [this]; exact h
  | cons j q ih =>
    have r := S3.Run.snoc h (.take t j q hq)
    rw [List.append_nil] at r
    have := ih r rfl
    simpa [List.append_assoc] using this

/-- Results are polled one after another. -/
theorem reportAll {es : List Ev} (out rest : List Res) {t : S3.St} (h : S3.Run pfx b0 es t) (hp : t.done.Perm (out ++ rest)) :
    ∃ d, S3.Run pfx b0 (es ++ out.map .report) { t with done := d } ∧ d.Perm rest := by
  induction out generalizing t es with
  | nil => exact ⟨t.done, by simpa using h, hp⟩
  | cons r out ih =>
    have hm : r ∈ t.done := hp.symm.subset (by simp)
    obtain ⟨pre, post, e⟩ := List.append_of_mem hm
    have st := S3.Run.snoc h (.report t pre post r e)
    have hp' : (pre ++ post).Perm (out ++ rest) := by
      have h1 : (r :: (pre ++ post)).Perm (r :: (out ++ rest)) :=
        List.perm_middle.symm.trans (by rw [← e]; exact hp)
      exact h1.cons_inv
    obtain ⟨d, h2, h3⟩ := ih st hp'
    exact ⟨d, by simpa using h2, h3⟩

theorem split_perm (l : List Res) : (l.filter isPut ++ l.filter (fun r => !isPut r)).Perm l := by
  induction l with
  | nil => exact List.Perm.refl _
  | cons r l ih =>
    cases h : isPut r
    · simp only [List.filter_cons, h]
      exact List.perm_middle.trans (ih.cons r)
    · simp only [List.filter_cons, h]
      exact ih.cons r

/-- The store of `Model/S3` that has done the same. -/
structure Rel (pfx : Option (List Char)) (b0 : List Char → Option Bytes) (as : List Act) (s : St) (t : S3.St) : Prop where
  run : S3.Run pfx b0 (seen as) t
  bucket : t.bucket = s.bucket
  queue : t.queue = s.queue
  busy : t.busy.Perm (s.inProgress ++ s.discarded)
  done : t.done.Perm (s.puts ++ s.gets ++ s.results)

theorem rel_mk {as : List Act} {s : St} {t : S3.St} {es : List Ev} (r : S3.Run pfx b0 es t) (e : seen as = es) (h1 : t.bucket = s.bucket)
    (h2 : t.queue = s.queue) (h3 : t.busy.Perm (s.inProgress ++ s.discarded)) (h4 : t.done.Perm (s.puts ++ s.gets ++ s.results)) :
    ∃ t, Rel pfx b0 as s t := ⟨t, e ▸ r, h1, h2, h3, h4⟩

theorem start_step (t : S3.St) (n : List Char) (d : Option Bytes) :
    S3.Step pfx t [started (jobOf pfx n d)] { t with queue := t.queue ++ [jobOf pfx n d] } := by
  cases d with
  | none => exact .startGet t n
  | some d => exact .startPut t n d

/-- A request that workers hold ends. -/
theorem outcome_step {es : List Ev} {t : S3.St} {j : Job} {r : Res} {b b' : List Char → Option Bytes} (h : S3.Run pfx b0 es t) (hb : t.bucket = b)
    (ho : Outcome b j r b') (hj : j ∈ t.busy) :
    ∃ busy, S3.Run pfx b0 es { t with busy := busy, done := t.done ++ [r], bucket := b' } ∧ t.busy.Perm (j :: busy) := by
  obtain ⟨pre, post, e⟩ := List.append_of_mem hj
  subst hb
  refine ⟨pre ++ post, ?_, by rw [e]; exact List.perm_middle⟩
  cases ho with
  | putOk n k d => have := S3.Run.snoc h (.putOk t pre post n k d e); rwa [List.append_nil] at this
  | putErr n k d happened => have := S3.Run.snoc h (.putErr t pre post n k d happened e); rwa [List.append_nil] at this
  | getOk n k => have := S3.Run.snoc h (.getOk t pre post n k e); rwa [List.append_nil] at this
  | getErr n k => have := S3.Run.snoc h (.getErr t pre post n k e); rwa [List.append_nil] at this

theorem perm_swap_tail (a b c : List Res) : (a ++ b ++ c).Perm (a ++ c ++ b) := by
  rw [List.append_assoc, List.append_assoc]; exact List.Perm.append_left _ List.perm_append_comm

theorem rel_step {as : List Act} {a : Act} {s s' : St} {t : S3.St} (hi : Inv c as s) (h : Rel pfx b0 as s t) (st : Step pfx s a s') :
    ∃ t', Rel pfx b0 (as ++ [a]) s' t' := by
  cases st with
  | queued n d hc hs =>
    exact rel_mk (S3.Run.snoc h.run (start_step t n d)) (by rw [seen_append]; rfl) h.bucket (by simp [h.queue]) h.busy h.done
  | refused n d hc hs =>
    have r1 := S3.Run.snoc h.run (start_step t n d)
    have hq : t.queue = [] := by rw [h.queue, hi.none_queued hs]
    have r2 := takeAll [jobOf pfx n d] r1 (by simp [hq])
    have ho : Outcome t.bucket (jobOf pfx n d) (refusal (jobOf pfx n d)) t.bucket := by
      cases d with
      | none => exact .getErr _ _
      | some d => have := Outcome.putErr (b := t.bucket) n (key pfx n) d false; simpa [jobOf, refusal] using this
    obtain ⟨busy, r3, hb⟩ := outcome_step r2 rfl ho (by simp)
    refine rel_mk r3 (by rw [seen_append]; rfl) ?_ ?_ ?_ ?_
    · cases d <;> exact h.bucket
    · cases d <;> exact (hi.none_queued hs).symm
    · have : busy.Perm t.busy := by
        have h1 : (jobOf pfx n d :: busy).Perm (jobOf pfx n d :: t.busy) :=
          hb.symm.trans (List.perm_append_comm (l₁ := t.busy) (l₂ := [jobOf pfx n d]))
        exact h1.cons_inv
      cases d <;> exact this.trans h.busy
    · cases d with
      | none =>
        show (t.done ++ [Res.get n none]).Perm (s.puts ++ (s.gets ++ [Res.get n none]) ++ s.results)
        refine (h.done.append_right _).trans ?_
        rw [← List.append_assoc s.puts]
        exact perm_swap_tail _ _ _
      | some d =>
        show (t.done ++ [Res.put n false]).Perm ((s.puts ++ [Res.put n false]) ++ s.gets ++ s.results)
        refine (h.done.append_right _).trans ?_
        rw [List.append_assoc s.puts s.gets, List.append_assoc (s.puts ++ [_]) s.gets]
        exact perm_swap_tail _ _ _
  | boot i ok hw =>
    have es : seen (as ++ [Act.boot i ok]) = seen as := by rw [seen_append]; simp [seen]
    have hj : ∀ w : Wk, w.job = [] → ((s.workers.set i w).flatMap Wk.job).Perm (s.workers.flatMap Wk.job) := by
      intro w hw'
      have := set_jobs hw w
      rw [hw', List.append_nil] at this
      simpa [Wk.job] using this
    cases ok with
    | true =>
      rw [if_pos rfl, setWorker_alive hw rfl]
      exact ⟨t, by rw [es]; exact h.run, h.bucket, h.queue, h.busy.trans ((hj _ rfl).symm.append_right _), h.done⟩
    | false =>
      rw [if_neg (by simp)]
      unfold St.setWorker
      dsimp only
      split
      · exact ⟨t, by rw [es]; exact h.run, h.bucket, h.queue, h.busy.trans ((hj _ rfl).symm.append_right _), h.done⟩
      · refine rel_mk (takeAll _ h.run rfl) es h.bucket rfl ?_ h.done
        show (t.busy ++ t.queue).Perm ((s.workers.set i Wk.gone).flatMap Wk.job ++ (s.discarded ++ s.queue))
        rw [h.queue, ← List.append_assoc]
        exact (h.busy.trans ((hj _ rfl).symm.append_right _)).append_right _
  | take i j q hw hq =>
    have hw' : ({ s with queue := q } : St).workers[i]? = some .idle := hw
    rw [setWorker_alive hw' rfl]
    have r := S3.Run.snoc h.run (.take t j q (by rw [h.queue, hq]))
    refine rel_mk r (by rw [seen_append]; rfl) h.bucket rfl ?_ h.done
    show (t.busy ++ [j]).Perm ((s.workers.set i (.working j)).flatMap Wk.job ++ s.discarded)
    have := set_jobs hw (.working j)
    simp only [Wk.job, List.append_nil] at this
    refine ((h.busy.append_right [j]).trans ?_).trans (this.symm.append_right _)
    rw [List.append_assoc, List.append_assoc]
    exact List.Perm.append_left _ List.perm_append_comm
  | finish i j r b hw ho =>
    have hw' : ({ s with results := s.results ++ [r], bucket := b } : St).workers[i]? = some (.working j) := hw
    rw [setWorker_alive hw' rfl]
    have hs := set_jobs hw .idle
    simp only [Wk.job, List.append_nil] at hs
    have hm : j ∈ t.busy := h.busy.symm.subset (List.mem_append_left _ (hs.subset (by simp)))
    obtain ⟨busy, r3, hb⟩ := outcome_step h.run h.bucket ho hm
    refine rel_mk r3 (by rw [seen_append]; simp [seen]) rfl h.queue ?_ ?_
    · show busy.Perm ((s.workers.set i .idle).flatMap Wk.job ++ s.discarded)
      have h1 : (j :: busy).Perm (j :: ((s.workers.set i .idle).flatMap Wk.job ++ s.discarded)) := by
        refine hb.symm.trans (h.busy.trans ?_)
        refine (List.Perm.append_right _ hs.symm).trans ?_
        rw [List.append_assoc]
        exact List.perm_middle
      exact h1.cons_inv
    · show (t.done ++ [r]).Perm (s.puts ++ s.gets ++ (s.results ++ [r]))
      rw [← List.append_assoc]
      exact h.done.append_right _
  | pollPuts hc =>
    have hp : t.done.Perm (s.drain.puts ++ s.drain.gets) := by
      refine h.done.trans ?_
      show (s.puts ++ s.gets ++ s.results).Perm ((s.puts ++ s.results.filter isPut) ++ (s.gets ++ s.results.filter (fun r => !isPut r)))
      refine (List.Perm.append_left _ (split_perm s.results).symm).trans ?_
      simp only [List.append_assoc]
      refine List.Perm.append_left _ ?_
      rw [← List.append_assoc, ← List.append_assoc]
      exact List.perm_append_comm.append_right _
    obtain ⟨d, r, hd⟩ := reportAll _ _ h.run hp
    refine rel_mk r (by rw [seen_append]; simp [seen]) h.bucket h.queue h.busy ?_
    show d.Perm ([] ++ s.drain.gets ++ [])
    simpa using hd
  | pollGets hc =>
    have hp : t.done.Perm (s.drain.gets ++ s.drain.puts) := by
      refine h.done.trans ?_
      show (s.puts ++ s.gets ++ s.results).Perm ((s.gets ++ s.results.filter (fun r => !isPut r)) ++ (s.puts ++ s.results.filter isPut))
      refine (List.Perm.append_left _ (split_perm s.results).symm).trans ?_
      refine List.Perm.trans ?_ List.perm_append_comm
      simp only [List.append_assoc]
      refine List.Perm.append_left _ ?_
      rw [← List.append_assoc, ← List.append_assoc]
      exact List.perm_append_comm.append_right _
    obtain ⟨d, r, hd⟩ := reportAll _ _ h.run hp
    refine rel_mk r (by rw [seen_append]; simp [seen]) h.bucket h.queue h.busy ?_
    show d.Perm (s.drain.puts ++ [] ++ [])
    simpa using hd
  | close hc => exact ⟨t, by rw [seen_append]; simpa [seen] using h.run, h.bucket, h.queue, h.busy, h.done⟩
  | exit i hc hq hw =>
    have hj : ((s.workers.set i Wk.gone).flatMap Wk.job).Perm (s.workers.flatMap Wk.job) := by
      have := set_jobs hw Wk.gone
      simpa [Wk.job] using this
    have e : s.setWorker i .gone = { s with workers := s.workers.set i .gone } := by
      unfold St.setWorker
      dsimp only
      split
      · rfl
      · rw [hq, List.append_nil]
    rw [e]
    exact ⟨t, by rw [seen_append]; simpa [seen] using h.run, h.bucket, h.queue, h.busy.trans (hj.symm.append_right _), h.done⟩
  | dropped hc hs =>
    refine ⟨t, by rw [seen_append]; simpa [seen] using h.run, h.bucket, h.queue, h.busy, h.done.trans ?_⟩
    show (s.puts ++ s.gets ++ s.results).Perm ((s.puts ++ s.results.filter isPut) ++ (s.gets ++ s.results.filter (fun r => !isPut r)) ++ [])
    rw [List.append_nil]
    refine (List.Perm.append_left _ (split_perm s.results).symm).trans ?_
    simp only [List.append_assoc]
    refine List.Perm.append_left _ ?_
    rw [← List.append_assoc, ← List.append_assoc]
    exact List.perm_append_comm.append_right _
  | foreign k v hk =>
    have r := S3.Run.snoc h.run (.foreign t k v hk)
    exact rel_mk r (by rw [seen_append]; rfl) (by show upd t.bucket k v = upd s.bucket k v; rw [h.bucket]) h.queue h.busy h.done

theorem run_rel {as : List Act} {s : St} (h : Run pfx c b0 as s) : ∃ t, Rel pfx b0 as s t := by
  induction h with
  | nil =>
    refine ⟨_, .nil, rfl, rfl, ?_, List.Perm.refl _⟩
    show List.Perm [] ((List.replicate (workerCount c) Wk.starting).flatMap Wk.job ++ [])
    rw [replicate_job]
    exact List.Perm.refl _
  | snoc h st ih =>
    obtain ⟨t, ht⟩ := ih
    exact rel_step (run_inv h) ht st

/-! ## Workers end -/

theorem run_steps {as bs : List Act} {s s' : St} (h : Run pfx c b0 as s) (h' : Steps pfx s bs s') : Run pfx c b0 (as ++ bs) s' := by
  induction h' with
  | nil => simpa using h
  | snoc _ st ih => rw [← List.append_assoc]; exact .snoc (ih h) st

theorem steps_cons {a : Act} {bs : List Act} {s s' s'' : St} (st : Step pfx s a s') (h : Steps pfx s' bs s'') : Steps pfx s (a :: bs) s'' := by
  induction h with
  | nil => exact .snoc (.nil s) st
  | snoc _ st' ih => exact .snoc (ih st) st'

theorem all_gone {s : St} (h : s.served = false) : s.inProgress = [] := by
  unfold St.served at h
  unfold St.inProgress
  rw [List.flatMap_eq_nil_iff]
  intro w hw
  have := (List.any_eq_false.mp h) w hw
  cases w with
  | gone => rfl
  | _ => exact absurd rfl this

theorem jobs_le (ws : List Wk) : (ws.flatMap Wk.job).length ≤ ws.length := by
  induction ws with
  | nil => exact Nat.le_refl _
  | cons w ws ih =>
    rw [List.flatMap_cons, List.length_append, List.length_cons]
    have : w.job.length ≤ 1 := by cases w <;> simp [Wk.job]
    omega

/-- Steps a worker still has before it. -/
def Wk.load : Wk → Nat
  | .starting => 3
  | .working _ => 2
  | .idle => 1
  | .gone => 0

def St.load (s : St) : Nat := 2 * s.queue.length + (s.workers.map Wk.load).sum

theorem set_load {ws : List Wk} {i : Nat} {w0 : Wk} (h : ws[i]? = some w0) (w : Wk) :
    ((ws.set i w).map Wk.load).sum + w0.load = (ws.map Wk.load).sum + w.load := by
  induction ws generalizing i with
  | nil => simp at h
  | cons x ws ih =>
    cases i with
    | zero =>
      simp only [List.getElem?_cons_zero, Option.some.injEq] at h
      subst h
      simp only [List.set_cons_zero, List.map_cons, List.sum_cons]
      omega
    | succ i =>
      simp only [List.getElem?_cons_succ] at h
      have := ih h
      simp only [List.set_cons_succ, List.map_cons, List.sum_cons]
      omega

theorem setWorker_load {s : St} {i : Nat} {w0 : Wk} (h : s.workers[i]? = some w0) (w : Wk) : (s.setWorker i w).load + w0.load ≤ s.load + w.load := by
  have := set_load h w
  unfold St.setWorker
  dsimp only
  split
  · show 2 * s.queue.length + ((s.workers.set i w).map Wk.load).sum + w0.load ≤ _
    unfold St.load
    omega
  · show 2 * 0 + ((s.workers.set i w).map Wk.load).sum + w0.load ≤ _
    unfold St.load
    omega

theorem load_step {s s' : St} {a : Act} (st : Step pfx s a s') (ha : byWorker a = true) : s'.load < s.load := by
  cases st with
  | boot i ok hi =>
    have := setWorker_load hi (if ok then .idle else .gone)
    cases ok <;> simp [Wk.load] at this <;> simp <;> omega
  | take i j q hi hq =>
    have hi' : ({ s with queue := q } : St).workers[i]? = some .idle := hi
    have := setWorker_load hi' (.working j)
    have e : ({ s with queue := q } : St).load + 2 = s.load := by
      unfold St.load
      rw [hq]
      simp only [List.length_cons]
      omega
    simp only [Wk.load] at this
    omega
  | finish i j r b hi ho =>
    have hi' : ({ s with results := s.results ++ [r], bucket := b } : St).workers[i]? = some (.working j) := hi
    have := setWorker_load hi' .idle
    have e : ({ s with results := s.results ++ [r], bucket := b } : St).load = s.load := rfl
    simp only [Wk.load] at this
    omega
  | exit i hc hq hi =>
    have := setWorker_load hi .gone
    simp only [Wk.load] at this
    omega
  | _ => cases ha

theorem some_outcome (b : List Char → Option Bytes) (j : Job) : ∃ r b', Outcome b j r b' := by
  cases j with
  | put n k d => exact ⟨_, _, .putOk n k d⟩
  | get n k => exact ⟨_, _, .getOk n k⟩

/-- While the store is being dropped a worker that is left can go on. -/
theorem can_go {s : St} (hc : s.closed = true) (hs : s.served = true) : ∃ a s', Step pfx s a s' ∧ byWorker a = true ∧ s'.closed = true := by
  unfold St.served at hs
  rw [List.any_eq_true] at hs
  obtain ⟨w, hm, hw⟩ := hs
  obtain ⟨i, hi⟩ := List.mem_iff_getElem?.mp hm
  have hcl : ∀ (s : St) i w, (s.setWorker i w).closed = s.closed := by
    intro s i w
    unfold St.setWorker
    dsimp only
    split <;> rfl
  cases w with
  | gone => cases hw
  | starting => exact ⟨_, _, .boot s i true hi, rfl, by rw [hcl]; exact hc⟩
  | working j =>
    obtain ⟨r, b', ho⟩ := some_outcome s.bucket j
    exact ⟨_, _, .finish s i j r b' hi ho, rfl, by rw [hcl]; exact hc⟩
  | idle =>
    cases hq : s.queue with
    | nil => exact ⟨_, _, .exit s i hc hq hi, rfl, by rw [hcl]; exact hc⟩
    | cons j q => exact ⟨_, _, .take s i j q hi hq, rfl, by rw [hcl]; exact hc⟩

theorem drop_ends {s : St} (hc : s.closed = true) : ∃ bs s', Steps pfx s bs s' ∧ bs.all byWorker = true ∧ s'.served = false ∧ s'.closed = true := by
  have key : ∀ m, ∀ s : St, s.load = m → s.closed = true →
      ∃ bs s', Steps pfx s bs s' ∧ bs.all byWorker = true ∧ s'.served = false ∧ s'.closed = true := by
    intro m
    induction m using Nat.strongRecOn with
    | ind m ih =>
      intro s hm hc
      cases hs : s.served with
      | false => exact ⟨[], s, .nil s, rfl, hs, hc⟩
      | true =>
        obtain ⟨a, s', st, ha, hc'⟩ := can_go (pfx := pfx) hc hs
        obtain ⟨bs, s'', h1, h2, h3⟩ := ih s'.load (hm ▸ load_step st ha) s' rfl hc'
        exact ⟨a :: bs, s'', steps_cons st h1, by simp [ha, h2], h3⟩
  exact key _ s rfl hc

theorem steps_load {s s' : St} {bs : List Act} (h : Steps pfx s bs s') (hb : bs.all byWorker = true) : bs.length + s'.load ≤ s.load := by
  induction h with
  | nil => simp
  | snoc _ st ih =>
    rw [List.all_append, Bool.and_eq_true] at hb
    have := ih hb.1
    have := load_step st (by simpa using hb.2)
    rw [List.length_append, List.length_singleton]
    omega

theorem load_new (n : Nat) (q : List Job) (ws : List Wk) (h : ws.length = n) : 2 * q.length + (ws.map Wk.load).sum ≤ 2 * q.length + 3 * n := by
  subst h
  induction ws with
  | nil => simp
  | cons w ws ih =>
    have : w.load ≤ 3 := by cases w <;> simp [Wk.load]
    simp only [List.map_cons, List.sum_cons, List.length_cons]
    omega

/-! ## Requests are answered -/

/-- A worker that started works off what is queued and what the workers are at. -/
theorem can_work {as : List Act} {s : St} (hi : Inv c as s) (hb : ∃ i, Act.boot i true ∈ as) (hc : s.closed = false)
    (hl : s.queue ≠ [] ∨ s.inProgress ≠ []) : ∃ a s', Step pfx s a s' ∧ byWorker a = true ∧ s'.closed = false := by
  have hcl : ∀ (s : St) i w, (s.setWorker i w).closed = s.closed := by
    intro s i w
    unfold St.setWorker
    dsimp only
    split <;> rfl
  by_cases hp : s.inProgress = []
  · rcases (hi.booted hb).2 with ⟨i, w, hw, ha, hn⟩ | ⟨h, _⟩
    · have hq : s.queue ≠ [] := by
        rcases hl with h | h
        · exact h
        · exact absurd hp h
      cases w with
      | gone => cases ha
      | starting => exact absurd rfl hn
      | working j =>
        unfold St.inProgress at hp
        rw [List.flatMap_eq_nil_iff] at hp
        exact absurd (hp _ (List.mem_of_getElem? hw)) (by simp [Wk.job])
      | idle =>
        cases hq' : s.queue with
        | nil => exact absurd hq' hq
        | cons j q => exact ⟨_, _, .take s i j q hw hq', rfl, by rw [hcl]; exact hc⟩
    · rw [hc] at h; cases h
  · obtain ⟨j, hj⟩ := List.exists_mem_of_ne_nil _ hp
    unfold St.inProgress at hj
    rw [List.mem_flatMap] at hj
    obtain ⟨w, hm, hj⟩ := hj
    obtain ⟨i, hw⟩ := List.mem_iff_getElem?.mp hm
    cases w with
    | working k =>
      obtain ⟨r, b', ho⟩ := some_outcome s.bucket k
      exact ⟨_, _, .finish s i k r b' hw ho, rfl, by rw [hcl]; exact hc⟩
    | _ => cases hj

theorem worked_off {as : List Act} {s : St} (h : Run pfx c b0 as s) (hb : ∃ i, Act.boot i true ∈ as) (hc : s.closed = false) :
    ∃ bs s', Steps pfx s bs s' ∧ bs.all byWorker = true ∧ s'.queue = [] ∧ s'.inProgress = [] ∧ s'.closed = false := by
  have key : ∀ m, ∀ (as : List Act) (s : St), Run pfx c b0 as s → (∃ i, Act.boot i true ∈ as) → s.closed = false → s.load = m →
      ∃ bs s', Steps pfx s bs s' ∧ bs.all byWorker = true ∧ s'.queue = [] ∧ s'.inProgress = [] ∧ s'.closed = false := by
    intro m
    induction m using Nat.strongRecOn with
    | ind m ih =>
      intro as s h hb hc hm
      by_cases hl : s.queue ≠ [] ∨ s.inProgress ≠ []
      · obtain ⟨a, s', st, ha, hc'⟩ := can_work (pfx := pfx) (run_inv h) hb hc hl
        obtain ⟨i, hi⟩ := hb
        obtain ⟨bs, s'', h1, h2, h3⟩ := ih s'.load (hm ▸ load_step st ha) _ s' (.snoc h st) ⟨i, List.mem_append_left _ hi⟩ hc' rfl
        exact ⟨a :: bs, s'', steps_cons st h1, by simp [ha, h2], h3⟩
      · refine ⟨[], s, .nil s, rfl, ?_, ?_, hc⟩
        · exact Classical.byContradiction fun h => hl (Or.inl h)
        · exact Classical.byContradiction fun h => hl (Or.inr h)
  exact key _ as s h hb hc rfl

end Verif.S3W
