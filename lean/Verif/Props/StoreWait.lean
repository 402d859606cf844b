import Verif.Props.S3
import Verif.Model.StoreWait

/-! # C72: waiting archive operations -/

namespace Verif.S3
open Verif Verif.Disk

variable {pfx : Option (List Char)} {b0 : List Char → Option Bytes} {cs : List Call} {es es' : List Ev} {s s' : St} {n : List Char} {d x : Bytes}

theorem Waits.run {p : Res → Prop} (hw : Waits pfx p s es' s') (h : Run pfx b0 es s) : Run pfx b0 (es ++ es') s' := by
  induction hw with
  | refl => simpa using h
  | work _ hst ih => simpa using ih.snoc hst
  | poll r _ _ hst ih => rw [← List.append_assoc]; exact ih.snoc hst

theorem Does.run {c : Call} (hd : Does pfx s c es' s') (h : Run pfx b0 es s) : Run pfx b0 (es ++ es') s' := by
  cases hd with
  | putTimeout n d h1 h2 =>
    have := h2.run (h.snoc h1); simpa using this
  | putReturn n d ok h1 h2 h3 h4 =>
    have := h4.run ((h2.run (h.snoc h1)).snoc h3); simpa using this
  | getTimeout n h1 h2 =>
    have := h2.run (h.snoc h1); simpa using this
  | getReturn n x h1 h2 h3 h4 =>
    have := h4.run ((h2.run (h.snoc h1)).snoc h3); simpa using this

theorem Hist.run (h : Hist pfx b0 cs es s) : Run pfx b0 es s := by
  induction h with
  | nil => exact .nil
  | idle _ hst ih => simpa using ih.snoc hst
  | call c _ hd ih => exact hd.run ih

/-! ### Counting -/

theorem Waits.starts {p : Res → Prop} (hw : Waits pfx p s es' s') (n : List Char) :
    es'.countP (Ev.startsPut n) = 0 ∧ es'.countP (Ev.startsGet n) = 0 := by
  induction hw with
  | refl => exact ⟨rfl, rfl⟩
  | work _ _ ih => exact ih
  | poll r _ _ _ ih =>
    simp only [List.countP_append, ih.1, ih.2]
    simp [List.countP_cons, Ev.startsPut, Ev.startsGet]

/-- Calls of `n` that ran out of time. -/
def Call.timedOutPut (n : List Char) : Call → Bool
  | .put m _ none => m = n
  | _ => false
def Call.timedOutGet (n : List Char) : Call → Bool
  | .get m none => m = n
  | _ => false

theorem Does.counts {c : Call} (hd : Does pfx s c es' s') (n : List Char) :
    (c.timedOutPut n = false → es'.countP (Ev.startsPut n) ≤ es'.countP (Ev.reportsPut n)) ∧
    (c.timedOutGet n = false → es'.countP (Ev.startsGet n) ≤ es'.countP (Ev.reportsGet n)) := by
  cases hd with
  | putTimeout m d h1 h2 =>
    obtain ⟨a, b⟩ := h2.starts n
    simp only [List.countP_cons, a, b, Ev.startsPut, Ev.startsGet, Call.timedOutPut]
    by_cases h : m = n <;> simp [h]
  | putReturn m d ok h1 h2 h3 h4 =>
    obtain ⟨a, b⟩ := h2.starts n
    obtain ⟨a', b'⟩ := h4.starts n
    simp only [List.countP_cons, List.countP_append, a, b, a', b', Ev.startsPut, Ev.startsGet, Ev.reportsPut, Ev.reportsGet]
    by_cases h : m = n
    · simp [h]; omega
    · simp [h]
  | getTimeout m h1 h2 =>
    obtain ⟨a, b⟩ := h2.starts n
    simp only [List.countP_cons, a, b, Ev.startsPut, Ev.startsGet, Call.timedOutGet]
    by_cases h : m = n <;> simp [h]
  | getReturn m x h1 h2 h3 h4 =>
    obtain ⟨a, b⟩ := h2.starts n
    obtain ⟨a', b'⟩ := h4.starts n
    simp only [List.countP_cons, List.countP_append, a, b, a', b', Ev.startsPut, Ev.startsGet, Ev.reportsPut, Ev.reportsGet]
    by_cases h : m = n
    · simp [h]; omega
    · simp [h]

theorem Hist.counts (h : Hist pfx b0 cs es s) (n : List Char) :
    ((∀ c ∈ cs, c.timedOutPut n = false) → es.countP (Ev.startsPut n) ≤ es.countP (Ev.reportsPut n)) ∧
    ((∀ c ∈ cs, c.timedOutGet n = false) → es.countP (Ev.startsGet n) ≤ es.countP (Ev.reportsGet n)) := by
  induction h with
  | nil => exact ⟨fun _ => Nat.le_refl _, fun _ => Nat.le_refl _⟩
  | idle _ _ ih => exact ih
  | call c _ hd ih =>
    obtain ⟨a, b⟩ := hd.counts n
    simp only [List.countP_append]
    refine ⟨fun hc => ?_, fun hc => ?_⟩
    · have := ih.1 (fun c hc' => hc c (List.mem_append_left _ hc'))
      have := a (hc c (by simp)); omega
    · have := ih.2 (fun c hc' => hc c (List.mem_append_left _ hc'))
      have := b (hc c (by simp)); omega

/-- No upload of `n` is under way or unreported. -/
def NoPuts (n : List Char) (s : St) : Prop :=
  (∀ k d, Job.put n k d ∉ s.queue ∧ Job.put n k d ∉ s.busy) ∧ ∀ ok, Res.put n ok ∉ s.done
/-- No download of `n` is under way or unreported. -/
def NoGets (n : List Char) (s : St) : Prop :=
  (∀ k, Job.get n k ∉ s.queue ∧ Job.get n k ∉ s.busy) ∧ ∀ r, Res.get n r ∉ s.done

theorem Hist.noPuts (h : Hist pfx b0 cs es s) (hc : ∀ c ∈ cs, c.timedOutPut n = false) : NoPuts n s := by
  have h1 := (h.counts n).1 hc
  have h2 := (S3.counts h.run n).1
  have q : s.queue.countP (Job.isPut n) = 0 := by omega
  have b : s.busy.countP (Job.isPut n) = 0 := by omega
  have e : s.done.countP (Res.isPut n) = 0 := by omega
  rw [List.countP_eq_zero] at q b e
  exact ⟨fun k d => ⟨fun hm => q _ hm (by simp [Job.isPut]), fun hm => b _ hm (by simp [Job.isPut])⟩, fun ok hm => e _ hm (by simp [Res.isPut])⟩

theorem Hist.noGets (h : Hist pfx b0 cs es s) (hc : ∀ c ∈ cs, c.timedOutGet n = false) : NoGets n s := by
  have h1 := (h.counts n).2 hc
  have h2 := (S3.counts h.run n).2
  have q : s.queue.countP (Job.isGet n) = 0 := by omega
  have b : s.busy.countP (Job.isGet n) = 0 := by omega
  have e : s.done.countP (Res.isGet n) = 0 := by omega
  rw [List.countP_eq_zero] at q b e
  exact ⟨fun k => ⟨fun hm => q _ hm (by simp [Job.isGet]), fun hm => b _ hm (by simp [Job.isGet])⟩, fun ok hm => e _ hm (by simp [Res.isGet])⟩

/-! ### What a call does to its object -/

/-- Every upload of `n` under way carries `d`; a success not yet reported has been stored. -/
structure Own (pfx : Option (List Char)) (n : List Char) (d : Bytes) (s : St) : Prop where
  jobs : ∀ k x, Job.put n k x ∈ s.queue ∨ Job.put n k x ∈ s.busy → x = d
  stored : Res.put n true ∈ s.done → s.bucket (key pfx n) = some d

theorem mem_sub {α} {l pre post : List α} {j x : α} (h : l = pre ++ j :: post) (hx : x ∈ pre ++ post) : x ∈ l := by
  rw [h]
  rcases List.mem_append.mp hx with hx | hx
  · exact List.mem_append_left _ hx
  · exact List.mem_append_right _ (List.mem_cons_of_mem _ hx)

theorem mem_moved {j x : Job} {q busy queue : List Job} (hq : queue = j :: q) (h : x ∈ q ∨ x ∈ busy ++ [j]) : x ∈ queue ∨ x ∈ busy := by
  subst hq
  simp only [List.mem_append, List.mem_singleton, List.mem_cons] at *
  rcases h with h | h | h | h
  · exact .inl (.inr h)
  · exact .inr h
  · exact .inl (.inl h)
  · cases h

/-- The object `n` changes only by an upload of `n`. -/
theorem step_bucket (hr : Run pfx b0 es s) (hst : Step pfx s es' s') (n : List Char) :
    s'.bucket (key pfx n) = s.bucket (key pfx n) ∨ ∃ k d, Job.put n k d ∈ s.busy ∧ s'.bucket (key pfx n) = some d := by
  obtain ⟨j1, -, -⟩ := jobs_inv hr
  have put : ∀ m k d, Job.put m k d ∈ s.busy → upd s.bucket k (some d) (key pfx n) = s.bucket (key pfx n) ∨
      ∃ k d, Job.put n k d ∈ s.busy ∧ upd s.bucket k (some d) (key pfx n) = some d := by
    intro m k d hm
    have hk := (j1 m k d (.inr hm)).1
    by_cases h : m = n
    · subst h; subst hk; exact .inr ⟨_, d, hm, by simp⟩
    · left
      rw [upd_ne]
      intro e; rw [hk] at e; exact h (C48_injective pfx e).symm
  cases hst with
  | putOk pre post m k d hb =>
    have hmem : Job.put m k d ∈ s.busy := by rw [hb]; simp
    have hk := (j1 m k d (.inr hmem)).1
    by_cases h : m = n
    · subst h; subst hk; exact .inr ⟨_, d, hmem, by simp⟩
    · left
      show upd s.bucket k (some d) (key pfx n) = _
      rw [upd_ne]
      intro e; rw [hk] at e; exact h (C48_injective pfx e).symm
  | putErr pre post m k d ha hb =>
    have hmem : Job.put m k d ∈ s.busy := by rw [hb]; simp
    have hk := (j1 m k d (.inr hmem)).1
    cases ha with
    | false => exact .inl rfl
    | true =>
      by_cases h : m = n
      · subst h; subst hk; exact .inr ⟨_, d, hmem, by simp⟩
      · left
        show upd s.bucket k (some d) (key pfx n) = _
        rw [upd_ne]
        intro e; rw [hk] at e; exact h (C48_injective pfx e).symm
  | foreign k v hk => left; show upd s.bucket k v (key pfx n) = _; rw [upd_ne]; exact fun e => hk n e.symm
  | _ => exact .inl rfl

/-- Jobs come only from calls. -/
theorem step_jobs (hst : Step pfx s es' s') {j : Job} (hj : j ∈ s'.queue ∨ j ∈ s'.busy) :
    (j ∈ s.queue ∨ j ∈ s.busy) ∨ (∃ n d, j = .put n (key pfx n) d ∧ es' = [.startPut n d]) ∨ ∃ n, j = .get n (key pfx n) ∧ es' = [.startGet n] := by
  cases hst with
  | startPut m d =>
    simp only [List.mem_append, List.mem_singleton] at hj
    rcases hj with (hj | hj) | hj
    · exact .inl (.inl hj)
    · exact .inr (.inl ⟨m, d, hj, rfl⟩)
    · exact .inl (.inr hj)
  | startGet m =>
    simp only [List.mem_append, List.mem_singleton] at hj
    rcases hj with (hj | hj) | hj
    · exact .inl (.inl hj)
    · exact .inr (.inr ⟨m, hj, rfl⟩)
    · exact .inl (.inr hj)
  | take j' q hq => exact .inl (mem_moved hq hj)
  | putOk pre post m k d hb => exact .inl (hj.imp_right (mem_sub hb))
  | putErr pre post m k d ha hb => exact .inl (hj.imp_right (mem_sub hb))
  | getOk pre post m k hb => exact .inl (hj.imp_right (mem_sub hb))
  | getErr pre post m k hb => exact .inl (hj.imp_right (mem_sub hb))
  | report pre post r hd => exact .inl hj
  | foreign k v hk => exact .inl hj

/-- Results come only from jobs. -/
theorem step_done (hst : Step pfx s es' s') {r : Res} (h : r ∈ s'.done) :
    r ∈ s.done ∨ (∃ n k d ok, r = .put n ok ∧ Job.put n k d ∈ s.busy ∧ (ok = true → s'.bucket k = some d)) ∨
      ∃ n k x, r = .get n x ∧ Job.get n k ∈ s.busy ∧ (x = none ∨ x = s.bucket k) := by
  cases hst with
  | putOk pre post m k d hb =>
    simp only [List.mem_append, List.mem_singleton] at h
    rcases h with h | h
    · exact .inl h
    · exact .inr (.inl ⟨m, k, d, true, h, by rw [hb]; simp, fun _ => by simp⟩)
  | putErr pre post m k d ha hb =>
    simp only [List.mem_append, List.mem_singleton] at h
    rcases h with h | h
    · exact .inl h
    · exact .inr (.inl ⟨m, k, d, false, h, by rw [hb]; simp, by simp⟩)
  | getOk pre post m k hb =>
    simp only [List.mem_append, List.mem_singleton] at h
    rcases h with h | h
    · exact .inl h
    · exact .inr (.inr ⟨m, k, _, h, by rw [hb]; simp, .inr rfl⟩)
  | getErr pre post m k hb =>
    simp only [List.mem_append, List.mem_singleton] at h
    rcases h with h | h
    · exact .inl h
    · exact .inr (.inr ⟨m, k, _, h, by rw [hb]; simp, .inl rfl⟩)
  | report pre post r' hd => exact .inl (mem_sub hd h)
  | _ => exact .inl h

theorem Own.step (ho : Own pfx n d s) (hr : Run pfx b0 es s) (hst : Step pfx s es' s') (he : ∀ x, es' ≠ [.startPut n x]) : Own pfx n d s' := by
  refine ⟨fun k x hx => ?_, fun hx => ?_⟩
  · rcases step_jobs hst hx with h | ⟨m, y, h1, h2⟩ | ⟨m, h1, -⟩
    · exact ho.jobs k x h
    · cases h1; exact absurd h2 (he x)
    · cases h1
  · have hb := step_bucket hr hst n
    rcases step_done hst hx with h | ⟨m, k, y, ok, h1, h2, h3⟩ | ⟨m, k, y, h1, -⟩
    · rcases hb with hb | ⟨k, y, h1, h2⟩
      · rw [hb]; exact ho.stored h
      · rw [h2, ho.jobs k y (.inr h1)]
    · cases h1
      have := ((jobs_inv hr).1 _ _ _ (.inr h2)).1
      subst this
      rw [h3 rfl, ho.jobs _ y (.inr h2)]
    · cases h1

/-- Nothing but `d` is being uploaded under `n`, and it is stored. -/
structure Kept (pfx : Option (List Char)) (n : List Char) (v : Option Bytes) (s : St) : Prop where
  jobs : ∀ k x, Job.put n k x ∈ s.queue ∨ Job.put n k x ∈ s.busy → v = some x
  stored : s.bucket (key pfx n) = v

theorem Kept.step {v : Option Bytes} (ho : Kept pfx n v s) (hr : Run pfx b0 es s) (hst : Step pfx s es' s') (he : ∀ x, es' ≠ [.startPut n x]) :
    Kept pfx n v s' := by
  refine ⟨fun k x hx => ?_, ?_⟩
  · rcases step_jobs hst hx with h | ⟨m, y, h1, h2⟩ | ⟨m, h1, -⟩
    · exact ho.jobs k x h
    · cases h1; exact absurd h2 (he x)
    · cases h1
  · rcases step_bucket hr hst n with hb | ⟨k, y, h1, h2⟩
    · rw [hb]; exact ho.stored
    · rw [h2, ho.jobs k y (.inr h1)]

theorem Waits.own {p : Res → Prop} (hw : Waits pfx p s es' s') (hr : Run pfx b0 es s) (ho : Own pfx n d s) : Own pfx n d s' := by
  induction hw with
  | refl => exact ho
  | work h1 hst ih => exact ih.step (h1.run hr) hst (by simp)
  | poll r h1 _ hst ih => exact ih.step (h1.run hr) hst (by simp)

theorem Waits.kept {p : Res → Prop} {v : Option Bytes} (hw : Waits pfx p s es' s') (hr : Run pfx b0 es s) (ho : Kept pfx n v s) : Kept pfx n v s' := by
  induction hw with
  | refl => exact ho
  | work h1 hst ih => exact ih.step (h1.run hr) hst (by simp)
  | poll r h1 _ hst ih => exact ih.step (h1.run hr) hst (by simp)

/-- A successful upload with no other upload of its name about. -/
theorem Does.put_kept (hr : Run pfx b0 es s) (hn : NoPuts n s) (hd : Does pfx s (.put n d (some true)) es' s') : Kept pfx n (some d) s' := by
  cases hd with
  | @putReturn s1 s2 s3 _ _ _ _ _ _ h1 h2 h3 h4 =>
    have r1 := hr.snoc h1
    have o1 : Own pfx n d s1 := by
      cases h1 with
      | startPut =>
        refine ⟨fun k x hx => ?_, fun hx => absurd hx (hn.2 _)⟩
        simp only [List.mem_append, List.mem_singleton] at hx
        rcases hx with (hx | hx) | hx
        · exact absurd hx (hn.1 k x).1
        · cases hx; rfl
        · exact absurd hx (hn.1 k x).2
    have o2 := h2.own r1 o1
    have r2 := h2.run r1
    have k3 : Kept pfx n (some d) s3 := by
      have o3 := o2.step r2 h3 (by simp)
      cases h3 with
      | report pre post _ hdn =>
        exact ⟨fun k x hx => by rw [o3.jobs k x hx], o2.stored (by rw [hdn]; simp)⟩
    exact h4.kept (r2.snoc h3) k3

/-- A call that is not an upload of `n` leaves the object `n` alone. -/
theorem Does.kept {c : Call} {v : Option Bytes} (hr : Run pfx b0 es s) (hk : Kept pfx n v s) (hd : Does pfx s c es' s')
    (hc : ∀ d r, c ≠ .put n d r) : Kept pfx n v s' := by
  cases hd with
  | putTimeout m d h1 h2 =>
    exact h2.kept (hr.snoc h1) (hk.step hr h1 (by intro x e; cases e; exact hc _ _ rfl))
  | putReturn m d ok h1 h2 h3 h4 =>
    have k1 := hk.step hr h1 (by intro x e; cases e; exact hc _ _ rfl)
    have r2 := h2.run (hr.snoc h1)
    exact h4.kept (r2.snoc h3) ((h2.kept (hr.snoc h1) k1).step r2 h3 (by simp))
  | getTimeout m h1 h2 => exact h2.kept (hr.snoc h1) (hk.step hr h1 (by simp))
  | getReturn m x h1 h2 h3 h4 =>
    have k1 := hk.step hr h1 (by simp)
    have r2 := h2.run (hr.snoc h1)
    exact h4.kept (r2.snoc h3) ((h2.kept (hr.snoc h1) k1).step r2 h3 (by simp))

/-- What is found under `n` while it is not being uploaded. -/
structure Reads (pfx : Option (List Char)) (n : List Char) (v : Option Bytes) (s : St) : Prop where
  kept : Kept pfx n v s
  found : ∀ x, Res.get n x ∈ s.done → x = none ∨ x = v

theorem Reads.step {v : Option Bytes} (ho : Reads pfx n v s) (hr : Run pfx b0 es s) (hst : Step pfx s es' s') (he : ∀ x, es' ≠ [.startPut n x]) :
    Reads pfx n v s' := by
  refine ⟨ho.kept.step hr hst he, fun x hx => ?_⟩
  rcases step_done hst hx with h | ⟨m, k, y, ok, h1, -⟩ | ⟨m, k, y, h1, h2, h3⟩
  · exact ho.found x h
  · cases h1
  · cases h1
    have := (jobs_inv hr).2.1 _ _ (.inr h2)
    subst this
    rcases h3 with h3 | h3
    · exact .inl h3
    · exact .inr (by rw [h3, ho.kept.stored])

theorem Waits.reads {p : Res → Prop} {v : Option Bytes} (hw : Waits pfx p s es' s') (hr : Run pfx b0 es s) (ho : Reads pfx n v s) : Reads pfx n v s' := by
  induction hw with
  | refl => exact ho
  | work h1 hst ih => exact ih.step (h1.run hr) hst (by simp)
  | poll r h1 _ hst ih => exact ih.step (h1.run hr) hst (by simp)

theorem Does.get_reads {v : Option Bytes} {x : Option Bytes} (hr : Run pfx b0 es s) (hg : NoGets n s) (hk : Kept pfx n v s)
    (hd : Does pfx s (.get n (some x)) es' s') : x = none ∨ x = v := by
  cases hd with
  | @getReturn s1 s2 s3 _ _ _ _ _ h1 h2 h3 h4 =>
    have o1 : Reads pfx n v s1 := by
      refine ⟨hk.step hr h1 (by simp), ?_⟩
      cases h1 with
      | startGet => exact fun x hx => absurd hx (hg.2 x)
    have o2 := h2.reads (hr.snoc h1) o1
    cases h3 with
    | report pre post _ hdn => exact o2.found x (by rw [hdn]; simp)

/-! ## The property -/

/-- The last call of a history, and the history before it. -/
theorem Hist.last {c : Call} (h : Hist pfx b0 (cs ++ [c]) es s) :
    ∃ es0 s0 es1 s1, Hist pfx b0 cs es0 s0 ∧ Does pfx s0 c es1 s1 ∧ Run pfx b0 (es0 ++ es1) s1 ∧ Waits pfx (fun _ => False) s1 [] s := by
  generalize hcs : cs ++ [c] = cs' at h
  induction h with
  | nil => simp at hcs
  | idle _ hst ih =>
    obtain ⟨es0, s0, es1, s1, h1, h2, h3, h4⟩ := ih hcs
    exact ⟨es0, s0, es1, s1, h1, h2, h3, h4.work hst⟩
  | @call cs0 es es' s s' c' hh hd ih =>
    obtain ⟨rfl, hc⟩ := List.append_inj' hcs rfl
    cases hc
    exact ⟨es, s, es', s', hh, hd, hd.run hh.run, .refl _⟩

/-- No call for `n` ran out of time. -/
def NoTimeout (n : List Char) (cs : List Call) : Prop := ∀ c ∈ cs, (∀ d, c ≠ .put n d none) ∧ c ≠ .get n none

theorem NoTimeout.puts (h : NoTimeout n cs) : ∀ c ∈ cs, c.timedOutPut n = false := by
  intro c hc
  have := (h c hc).1
  unfold Call.timedOutPut
  split
  · rename_i m d; simp only [decide_eq_false_iff_not]; rintro rfl; exact this _ rfl
  · rfl

theorem NoTimeout.gets (h : NoTimeout n cs) : ∀ c ∈ cs, c.timedOutGet n = false := by
  intro c hc
  have := (h c hc).2
  unfold Call.timedOutGet
  split
  · rename_i m; simp only [decide_eq_false_iff_not]; rintro rfl; exact this rfl
  · rfl

theorem NoTimeout.left {cs' : List Call} (h : NoTimeout n (cs ++ cs')) : NoTimeout n cs := fun c hc => h c (List.mem_append_left _ hc)

/-- **C72** (`_partial`: after a call for the same name has run out of time the claim is false, `C72_false`). When an
upload returns success, the bytes it was called with are stored under its name. -/
theorem C72_put_stored_partial (h : Hist pfx b0 (cs ++ [.put n d (some true)]) es s) (ht : NoTimeout n cs) : s.bucket (key pfx n) = some d := by
  obtain ⟨es0, s0, es1, s1, h1, h2, h3, h4⟩ := h.last
  exact (h4.kept h3 (h2.put_kept h1.run (h1.noPuts ht.puts))).stored

theorem Hist.kept_after {mid : List Call} (h : Hist pfx b0 (cs ++ .put n d (some true) :: mid) es s)
    (ht : NoTimeout n cs) (hm : ∀ c ∈ mid, ∀ d r, c ≠ .put n d r) : Kept pfx n (some d) s := by
  generalize hcs : cs ++ .put n d (some true) :: mid = cs' at h
  induction h generalizing mid with
  | nil => simp at hcs
  | idle hh hst ih => exact (ih hm hcs).step hh.run hst (by simp)
  | @call cs0 es es' s s' c' hh hd ih =>
    rcases List.eq_nil_or_concat mid with rfl | ⟨mid', c, rfl⟩
    · obtain ⟨rfl, hc⟩ := List.append_inj' hcs rfl
      cases hc
      exact hd.put_kept hh.run (hh.noPuts ht.puts)
    · rw [List.concat_eq_append, ← List.cons_append, ← List.append_assoc] at hcs
      obtain ⟨hcs', hc⟩ := List.append_inj' hcs rfl
      cases hc
      exact hd.kept hh.run (ih (fun c hc => hm c (by simp [hc])) hcs') (hm _ (by simp))

/-- **C72** (`_partial`, as above). An upload that returned success stays stored until the next upload under its name,
and a download that returns success gives its bytes. -/
theorem C72_read_back_partial {mid : List Call} (h : Hist pfx b0 (cs ++ .put n d (some true) :: mid ++ [.get n (some (some x))]) es s)
    (ht : NoTimeout n (cs ++ .put n d (some true) :: mid)) (hm : ∀ c ∈ mid, ∀ d r, c ≠ .put n d r) : x = d := by
  obtain ⟨es0, s0, es1, s1, h1, h2, -, -⟩ := h.last
  have hk := h1.kept_after ht.left hm
  rcases h2.get_reads h1.run (h1.noGets ht.gets) hk with e | e
  · cases e
  · exact Option.some.inj e

/-- **C72** (`_partial`, as above). A download that returns success gives what is stored under its name, whoever stored it. -/
theorem C72_get_current_partial (h : Hist pfx b0 (cs ++ [.get n (some (some x))]) es s) (ht : NoTimeout n cs) : s.bucket (key pfx n) = some x := by
  obtain ⟨es0, s0, es1, s1, h1, h2, h3, h4⟩ := h.last
  have hk : Kept pfx n (s0.bucket (key pfx n)) s0 := by
    have := h1.noPuts ht.puts
    exact ⟨fun k y hy => (hy.elim (fun hy => absurd hy (this.1 k y).1) fun hy => absurd hy (this.1 k y).2), rfl⟩
  have hx : some x = s0.bucket (key pfx n) := by
    rcases h2.get_reads h1.run (h1.noGets ht.gets) hk with e | e
    · cases e
    · exact e
  rw [(h4.kept h3 (h2.kept h1.run hk (by simp))).stored, hx]

/-- **C72** Names of other calls do not matter: a call that runs out of time affects only calls for its own name. (The
hypotheses above are about one name.) An upload that runs out of time or returns an error may have happened or not, nothing else. -/
theorem C72_put_unsure_partial {r : Option Bool} (h : Hist pfx b0 (cs ++ [.put n d r]) es s) (ht : NoTimeout n cs) :
    ∃ es0 s0, Hist pfx b0 cs es0 s0 ∧ (s.bucket (key pfx n) = s0.bucket (key pfx n) ∨ s.bucket (key pfx n) = some d) := by
  obtain ⟨es0, s0, es1, s1, h1, h2, h3, h4⟩ := h.last
  refine ⟨es0, s0, h1, ?_⟩
  have hn := h1.noPuts (n := n) ht.puts
  have inv : ∀ {s es s' es'}, Run pfx b0 es s → Step pfx s es' s' → (∀ x, es' ≠ [.startPut n x]) →
      ((∀ k x, Job.put n k x ∈ s.queue ∨ Job.put n k x ∈ s.busy → x = d) ∧ (s.bucket (key pfx n) = s0.bucket (key pfx n) ∨ s.bucket (key pfx n) = some d)) →
      ((∀ k x, Job.put n k x ∈ s'.queue ∨ Job.put n k x ∈ s'.busy → x = d) ∧ (s'.bucket (key pfx n) = s0.bucket (key pfx n) ∨ s'.bucket (key pfx n) = some d)) := by
    rintro s es s' es' hr hst he ⟨i1, i2⟩
    refine ⟨fun k x hx => ?_, ?_⟩
    · rcases step_jobs hst hx with h | ⟨m, y, h1, h2⟩ | ⟨m, h1, -⟩
      · exact i1 k x h
      · cases h1; exact absurd h2 (he x)
      · cases h1
    · rcases step_bucket hr hst n with hb | ⟨k, y, h1, h2⟩
      · rw [hb]; exact i2
      · rw [h2, i1 k y (.inr h1)]; exact .inr rfl
  have waits : ∀ {p : Res → Prop} {s es s' es'}, Waits pfx p s es' s' → Run pfx b0 es s →
      ((∀ k x, Job.put n k x ∈ s.queue ∨ Job.put n k x ∈ s.busy → x = d) ∧ (s.bucket (key pfx n) = s0.bucket (key pfx n) ∨ s.bucket (key pfx n) = some d)) →
      ((∀ k x, Job.put n k x ∈ s'.queue ∨ Job.put n k x ∈ s'.busy → x = d) ∧ (s'.bucket (key pfx n) = s0.bucket (key pfx n) ∨ s'.bucket (key pfx n) = some d)) := by
    intro p s es s' es' hw hr h0
    induction hw with
    | refl => exact h0
    | work g1 hst ih => exact inv (g1.run hr) hst (by simp) ih
    | poll r g1 _ hst ih => exact inv (g1.run hr) hst (by simp) ih
  have start : ∀ {s1}, Step pfx s0 [.startPut n d] s1 →
      ((∀ k x, Job.put n k x ∈ s1.queue ∨ Job.put n k x ∈ s1.busy → x = d) ∧ (s1.bucket (key pfx n) = s0.bucket (key pfx n) ∨ s1.bucket (key pfx n) = some d)) := by
    intro s1 hs
    cases hs with
    | startPut =>
      refine ⟨fun k x hx => ?_, .inl rfl⟩
      simp only [List.mem_append, List.mem_singleton] at hx
      rcases hx with (hx | hx) | hx
      · exact absurd hx (hn.1 k x).1
      · cases hx; rfl
      · exact absurd hx (hn.1 k x).2
  refine (waits h4 h3 ?_).2
  cases h2 with
  | putTimeout _ _ g1 g2 => exact waits g2 (h1.run.snoc g1) (start g1)
  | putReturn _ _ ok g1 g2 g3 g4 =>
    have r2 := g2.run (h1.run.snoc g1)
    exact waits g4 (r2.snoc g3) (inv r2 g3 (by simp) (waits g2 (h1.run.snoc g1) (start g1)))

/-! ## Where it fails -/

/-- **C72 is false**: an upload runs out of time, a second one under the same name with other bytes returns success on the
report of the first; the first bytes are stored, and the second upload may still fail. -/
theorem C72_false : ∃ es s, Hist none (fun _ => none) ([.put ['x'] [1] none] ++ [.put ['x'] [2] (some true)]) es s ∧
    s.bucket (key none ['x']) = some [1] ∧
    ∃ es' s', Hist none (fun _ => none) ([.put ['x'] [1] none] ++ [.put ['x'] [2] (some true)]) es' s' ∧
      s'.bucket (key none ['x']) = some [1] ∧ s'.queue = [] ∧ s'.busy = [] := by
  have h1 := Hist.call _ Hist.nil (.putTimeout (pfx := none) (s := { bucket := fun _ => none }) ['x'] [1] (.startPut _ _ _) (.refl _))
  have w1 : Waits none (fun r => r.ofPut ∧ r.name ≠ ['x'])
      { queue := [Job.put ['x'] (key none ['x']) [1], .put ['x'] (key none ['x']) [2]], bucket := fun _ => none } []
      { queue := [.put ['x'] (key none ['x']) [2]], done := [.put ['x'] true], bucket := upd (fun _ => none) (key none ['x']) (some [1]) } :=
    ((Waits.refl _).work (.take _ _ _ rfl)).work (.putOk _ [] [] _ _ _ rfl)
  have h2 := Hist.call _ h1 (.putReturn ['x'] [2] true (.startPut _ _ _) w1 (.report _ [] [] _ rfl) (.refl _))
  have h3 := (h2.idle (.take _ _ _ rfl)).idle (.putErr _ [] [] _ _ _ false rfl)
  exact ⟨_, _, h2, by simp, _, _, h3, by simp, rfl, rfl⟩

/-- **C72 is false** for downloads too: a download runs out of time, an upload returns success, a second download returns what
was stored before the upload. -/
theorem C72_false_get : ∃ es s, Hist none (fun _ => some [1])
      ([.get ['x'] none, .put ['x'] [2] (some true)] ++ [.get ['x'] (some (some [1]))]) es s ∧ s.bucket (key none ['x']) = some [2] := by
  have h1 := Hist.call _ Hist.nil (.getTimeout (pfx := none) (s := { bucket := fun _ => some [1] }) ['x'] (.startGet _ _) (.refl _))
  have h1 := (h1.idle (.take _ _ _ rfl)).idle (.getOk _ [] [] _ _ rfl)
  have w1 : Waits none (fun r => r.ofPut ∧ r.name ≠ ['x'])
      { queue := [Job.put ['x'] (key none ['x']) [2]], done := [.get ['x'] (some [1])], bucket := fun _ => some [1] } []
      { done := [.get ['x'] (some [1]), .put ['x'] true], bucket := upd (fun _ => some [1]) (key none ['x']) (some [2]) } :=
    ((Waits.refl _).work (.take _ _ _ rfl)).work (.putOk _ [] [] _ _ _ rfl)
  have h2 := Hist.call _ h1 (.putReturn ['x'] [2] true (.startPut _ _ _) w1 (.report _ [.get ['x'] (some [1])] [] _ rfl) (.refl _))
  have h3 := Hist.call _ h2 (.getReturn ['x'] (some [1]) (.startGet _ _) (.refl _) (.report _ [] [] _ rfl) (.refl _))
  exact ⟨_, _, h3, by simp⟩

/-- The hypotheses are met: an upload, a download of another name that runs out of time, a download. -/
example : ∃ es s, Hist none (fun _ => none) ([] ++ .put ['x'] [1] (some true) :: [.get ['y'] none] ++ [.get ['x'] (some (some [1]))]) es s ∧
    NoTimeout ['x'] ([] ++ .put ['x'] [1] (some true) :: [.get ['y'] none]) := by
  have w1 : Waits none (fun r => r.ofPut ∧ r.name ≠ ['x'])
      { queue := [Job.put ['x'] (key none ['x']) [1]], bucket := fun _ => none } []
      { done := [.put ['x'] true], bucket := upd (fun _ => none) (key none ['x']) (some [1]) } :=
    ((Waits.refl _).work (.take _ _ _ rfl)).work (.putOk _ [] [] _ _ _ rfl)
  have h1 := Hist.call _ Hist.nil (.putReturn ['x'] [1] true (.startPut _ _ _) w1 (.report _ [] [] _ rfl) (.refl _))
  have h2 := Hist.call _ h1 (.getTimeout ['y'] (.startGet _ _) (.refl _))
  have w3 : Waits none (fun r => r.ofGet ∧ r.name ≠ ['x'])
      { queue := [Job.get ['y'] (key none ['y']), .get ['x'] (key none ['x'])], bucket := upd (fun _ => none) (key none ['x']) (some [1]) } _
      { done := [.get ['x'] (some [1])], bucket := upd (fun _ => none) (key none ['x']) (some [1]) } :=
    ((((Waits.refl _).work (.take _ _ _ rfl)).work (.getErr _ [] [] _ _ rfl)).work (.take _ _ _ rfl)).work (.getOk _ [] [] _ _ rfl)
      |>.poll (.get ['y'] none) ⟨trivial, by decide⟩ (.report _ [] [_] _ rfl)
  have h3 := Hist.call _ h2 (.getReturn ['x'] (some [1]) (.startGet _ _) w3 (.report _ [] [] _ rfl) (.refl _))
  refine ⟨_, _, h3, ?_⟩
  intro c hc
  simp only [List.nil_append, List.mem_cons, List.not_mem_nil, or_false] at hc
  rcases hc with rfl | rfl <;> simp

end Verif.S3
