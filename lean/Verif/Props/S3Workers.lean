import Verif.Proof.S3Workers
import Verif.Props.S3

/-! # C98: the worker threads of the S3 store

With its worker threads, its two queues and its drop, the store is the one `C60` is about: what was proved there of its answers and of the
bucket holds. No more requests are at S3 at once than connections are configured, requests are begun in the order they were made, and dropping
the store ends, after every request it took has been carried out, as long as one worker started. If none did, a request made before
that is known is lost without an answer. -/

namespace Verif.S3W
open Verif Verif.Disk Verif.S3

variable {pfx : Option (List Char)} {c : Nat} {b0 : List Char → Option Bytes} {as : List Act} {s : St}

/-- At no moment are more requests at S3 than connections were configured, at most 128 and at least one. -/
theorem C98_connections (h : Run pfx c b0 as s) : s.inProgress.length ≤ workerCount c ∧
    workerCount c = (if c = 0 then 1 else if c ≤ 128 then c else 128) := by
  constructor
  · rw [← (run_inv h).len]; exact jobs_le _
  · unfold workerCount
    dsimp only
    (repeat' split) <;> omega

/-- Requests are begun in the order they were made, each once: those begun, and then those not begun, are all that were taken; those begun are carried
out or at S3. -/
theorem C98_in_order (h : Run pfx c b0 as s) : begun as ++ (s.discarded ++ s.queue) = queuedJobs as ∧ (begun as).Perm (carriedOut as ++ s.inProgress) :=
  ⟨(run_inv h).fifo, (run_inv h).carried⟩

/-- What the user and the bucket see is a run of the store of `C60`. -/
theorem C98_refines (h : Run pfx c b0 as s) : ∃ t, S3.Run pfx b0 (seen as) t ∧ t.bucket = s.bucket ∧
    (s.queue = [] → s.inProgress = [] → s.discarded = [] → s.results = [] → s.puts = [] → s.gets = [] → t.queue = [] ∧ t.busy = [] ∧ t.done = []) := by
  obtain ⟨t, ht⟩ := run_rel h
  refine ⟨t, ht.run, ht.bucket, ?_⟩
  intro h1 h2 h3 h4 h5 h6
  refine ⟨by rw [ht.queue, h1], ?_, ?_⟩
  · have := ht.busy; rw [h2, h3] at this; exact this.eq_nil
  · have := ht.done; rw [h4, h5, h6] at this; exact this.eq_nil

/-- No request is answered twice, or without having been made. -/
theorem C98_answered_once (h : Run pfx c b0 as s) (n : List Char) : (seen as).countP (Ev.reportsPut n) ≤ (seen as).countP (Ev.startsPut n) ∧
    (seen as).countP (Ev.reportsGet n) ≤ (seen as).countP (Ev.startsGet n) := by
  obtain ⟨t, ht, _⟩ := C98_refines h
  exact ⟨(C60_reported_once ht n).1, (C60_reported_once ht n).2.1⟩

/-- A download that succeeds gives what was in the bucket or was uploaded under that name; and if all uploads of the name had the same
contents and the download was started after one of them was reported, exactly those. -/
theorem C98_contents (h : Run pfx c b0 as s) {n : List Char} {x : Bytes} (hx : Ev.report (.get n (some x)) ∈ seen as) :
    (b0 (key pfx n) = some x ∨ Ev.startPut n x ∈ seen as) ∧ (∀ d, OnlyPuts n d (seen as) → GetsAfterPut n (seen as) → x = d) := by
  obtain ⟨t, ht, _⟩ := C98_refines h
  exact ⟨C60_provenance ht hx, fun d ho hg => C60_read_back ht ho hg hx⟩

/-- An upload reported as done is in the bucket. -/
theorem C98_stored (h : Run pfx c b0 as s) {n : List Char} {d : Bytes} (ho : OnlyPuts n d (seen as)) (hx : Ev.report (.put n true) ∈ seen as) :
    s.bucket (key pfx n) = some d := by
  obtain ⟨t, ht, hb, _⟩ := C98_refines h
  rw [← hb]
  exact C60_stored ht ho hx

/-- When the drop of the store has waited for its workers, none of its requests is at S3 or will be; those it took were carried out, if one worker
started: no upload happens after the store is gone, and none is forgotten. -/
theorem C98_drop (h : Run pfx c b0 as s) {s' : St} (st : Step pfx s .dropped s') : s.queue = [] ∧ s.inProgress = [] ∧
    (queuedJobs as).Perm (carriedOut as ++ s.discarded) ∧ ((∃ i, Act.boot i true ∈ as) → (queuedJobs as).Perm (carriedOut as)) := by
  have hi := run_inv h
  cases st with
  | dropped hc hs =>
    have hq := hi.none_queued hs
    have hp := all_gone hs
    have e : (queuedJobs as).Perm (carriedOut as ++ s.discarded) := by
      rw [← hi.fifo, hq, List.append_nil]
      have := hi.carried
      rw [hp, List.append_nil] at this
      exact this.append_right _
    refine ⟨hq, hp, e, fun hb => ?_⟩
    have := (hi.booted hb).1
    rw [this, List.append_nil] at e
    exact e

/-- Dropping the store ends: at most two more steps of the workers for each queued request and three for each worker, a step being possible until
every worker is gone; then the drop returns. -/
theorem C98_drop_ends (h : Run pfx c b0 as s) (hc : s.closed = true) :
    (∀ bs s', Steps pfx s bs s' → bs.all byWorker = true → bs.length ≤ 2 * s.queue.length + 3 * workerCount c ∧
      (s'.closed = true → s'.served = true → ∃ a s'', Step pfx s' a s'' ∧ byWorker a = true)) ∧
    ∃ bs s' s'', Steps pfx s bs s' ∧ bs.all byWorker = true ∧ Step pfx s' .dropped s'' := by
  refine ⟨fun bs s' hs hb => ⟨?_, fun h1 h2 => ?_⟩, ?_⟩
  · have h1 := steps_load hs hb
    have h2 := load_new _ s.queue s.workers (run_inv h).len
    have : s.load ≤ 2 * s.queue.length + 3 * workerCount c := h2
    omega
  · obtain ⟨a, s'', st, ha, _⟩ := can_go (pfx := pfx) h1 h2
    exact ⟨a, s'', st, ha⟩
  · obtain ⟨bs, s', h1, h2, h3, h4⟩ := drop_ends (pfx := pfx) hc
    exact ⟨bs, s', _, h1, h2, .dropped s' h4 h3⟩

/-- As long as one worker started and the store is in use, what was asked can be answered in full: the workers finish what is there, and
polling reports it. -/
theorem C98_answered_partial (h : Run pfx c b0 as s) (hb : ∃ i, Act.boot i true ∈ as) (hc : s.closed = false) :
    ∃ bs s', Run pfx c b0 (as ++ bs) s' ∧ bs.all quiet = true ∧ ∀ n,
      (seen (as ++ bs)).countP (Ev.reportsPut n) = (seen (as ++ bs)).countP (Ev.startsPut n) ∧
      (seen (as ++ bs)).countP (Ev.reportsGet n) = (seen (as ++ bs)).countP (Ev.startsGet n) := by
  obtain ⟨bs, s1, h1, h2, h3, h4, h5⟩ := worked_off h hb hc
  have r1 := run_steps h h1
  have r2 := Run.snoc r1 (.pollPuts s1 h5)
  have r3 := Run.snoc r2 (.pollGets _ h5)
  obtain ⟨i, hm⟩ := hb
  have hd := ((run_inv r3).booted ⟨i, by simp [hm]⟩).1
  obtain ⟨t, ht, _, he⟩ := C98_refines r3
  have := he h3 h4 hd rfl rfl rfl
  refine ⟨_, _, by rw [List.append_assoc, List.append_assoc] at r3; exact r3, ?_, fun n => ?_⟩
  · rw [List.all_append, List.all_append, Bool.and_eq_true, Bool.and_eq_true]
    refine ⟨?_, rfl, rfl⟩
    rw [List.all_eq_true] at h2 ⊢
    intro a ha
    have := h2 a ha
    cases a <;> first | rfl | cases this
  · rw [List.append_assoc, List.append_assoc] at ht
    exact (C60_reported_once ht n).2.2 this.1 this.2.1 this.2.2

/-- Once no worker is left, every request is answered at the next poll, with a failure. -/
theorem C98_refused (h : Run pfx c b0 as s) (hs : s.served = false) (hc : s.closed = false) (n : List Char) (d : Option Bytes) :
    (∀ s', ¬ Step pfx s (.queued (jobOf pfx n d)) s') ∧ ∃ s', Step pfx s (.refused (jobOf pfx n d)) s' ∧
      (match d with | some _ => Res.put n false ∈ s'.drain.puts | none => Res.get n none ∈ s'.drain.gets) := by
  refine ⟨fun s' st => ?_, _, .refused s n d hc hs, ?_⟩
  · generalize he : Act.queued (jobOf pfx n d) = a at st
    cases st with
    | queued n d hc hs' => rw [hs] at hs'; cases hs'
    | _ => cases he
  · cases d with
    | none => exact List.mem_append_left _ (List.mem_append_right _ (List.mem_singleton.mpr rfl))
    | some d => exact List.mem_append_left _ (List.mem_append_right _ (List.mem_singleton.mpr rfl))

/-- The full claim, that every request is answered, fails: a download asked for before the only worker's runtime fails to start is never answered,
whatever happens, unless the user asks for something else. -/
theorem C98_false_lost (pfx : Option (List Char)) (b0 : List Char → Option Bytes) (n : List Char) :
    ∃ as s, Run pfx 1 b0 as s ∧ seen as = [.startGet n] ∧ s.closed = false ∧
      ∀ bs s', Steps pfx s bs s' → bs.all quiet = true → seen bs = [] := by
  have r1 := Run.snoc (Run.nil (pfx := pfx) (connections := 1) (b0 := b0)) (.queued _ n none rfl rfl)
  have r2 := Run.snoc r1 (.boot _ 0 false rfl)
  refine ⟨_, _, r2, rfl, rfl, ?_⟩
  have key : ∀ (s0 : St), s0.workers = [.gone] → s0.queue = [] → s0.results = [] → s0.puts = [] → s0.gets = [] → ∀ bs s', Steps pfx s0 bs s' →
      bs.all quiet = true → seen bs = [] ∧ s'.workers = [.gone] ∧ s'.queue = [] ∧ s'.results = [] ∧ s'.puts = [] ∧ s'.gets = [] := by
    intro s0 w q r p g bs s' hs
    induction hs with
    | nil => intro _; exact ⟨rfl, w, q, r, p, g⟩
    | snoc _ st ih =>
      intro hb
      rw [List.all_append, Bool.and_eq_true] at hb
      obtain ⟨i1, i2, i3, i4, i5, i6⟩ := ih w q r p g hb.1
      have none_at : ∀ {i : Nat} {x : Wk}, [Wk.gone][i]? = some x → x = .gone := by
        intro i x hx
        have := List.mem_of_getElem? hx
        simpa using this
      rw [seen_append, i1]
      cases st with
      | queued n d hc hs => cases hb.2
      | refused n d hc hs => cases hb.2
      | boot i ok hi => rw [i2] at hi; cases none_at hi
      | take i j q hi hq => rw [i2] at hi; cases none_at hi
      | finish i j r b hi ho => rw [i2] at hi; cases none_at hi
      | pollPuts hc =>
        refine ⟨?_, i2, i3, rfl, rfl, ?_⟩
        · simp [seen, St.drain, i4, i5]
        · simp [St.drain, i4, i6]
      | pollGets hc =>
        refine ⟨?_, i2, i3, rfl, ?_, rfl⟩
        · simp [seen, St.drain, i4, i6]
        · simp [St.drain, i4, i5]
      | close hc => exact ⟨rfl, i2, i3, i4, i5, i6⟩
      | exit i hc hq hi => rw [i2] at hi; cases none_at hi
      | dropped hc hs => exact ⟨rfl, i2, i3, rfl, by simp [St.drain, i4, i5], by simp [St.drain, i4, i6]⟩
      | foreign k v hk => exact ⟨rfl, i2, i3, i4, i5, i6⟩
  intro bs s' hs hb
  exact (key _ rfl rfl rfl rfl rfl bs s' hs hb).1

/-! ## Examples -/

/-- Two connections: an upload and a download are at S3 at once, a third request waits; the download that began second ends first; the store is dropped
with the third request still queued, and the drop returns when it is in the bucket. -/
example : ∃ as s s', Run (some ['p']) 2 (fun _ => none) as s ∧ Step (some ['p']) s .dropped s' ∧ (∃ i, Act.boot i true ∈ as) ∧ s.closed = true ∧
    (queuedJobs as).length = 3 ∧ Ev.report (.put ['x'] true) ∈ seen as ∧ OnlyPuts ['x'] [1] (seen as) ∧ s.bucket "p/z".toList = some [2] := by
  let p : Option (List Char) := some ['p']
  let e : List Char → Option Bytes := fun _ => none
  let b := upd e (key p ['x']) (some [1])
  let x := jobOf p ['x'] (some [1])
  let y := jobOf p ['y'] none
  let z := jobOf p ['z'] (some [2])
  have r := Run.nil (pfx := p) (connections := 2) (b0 := e)
  have r : Run p 2 e _ { queue := [x], workers := [.starting, .starting], bucket := e } := r.snoc (.queued _ ['x'] (some [1]) rfl rfl)
  have r : Run p 2 e _ { queue := [x, y], workers := [.starting, .starting], bucket := e } := r.snoc (.queued _ ['y'] none rfl rfl)
  have r : Run p 2 e _ { queue := [x, y, z], workers := [.starting, .starting], bucket := e } := r.snoc (.queued _ ['z'] (some [2]) rfl rfl)
  have r : Run p 2 e _ { queue := [x, y, z], workers := [.idle, .starting], bucket := e } := r.snoc (.boot _ 0 true rfl)
  have r : Run p 2 e _ { queue := [x, y, z], workers := [.idle, .idle], bucket := e } := r.snoc (.boot _ 1 true rfl)
  have r : Run p 2 e _ { queue := [y, z], workers := [.working x, .idle], bucket := e } := r.snoc (.take _ 0 x _ rfl rfl)
  have r : Run p 2 e _ { queue := [z], workers := [.working x, .working y], bucket := e } := r.snoc (.take _ 1 y _ rfl rfl)
  have r : Run p 2 e _ { queue := [z], workers := [.working x, .idle], results := [.get ['y'] none], bucket := e } :=
    r.snoc (.finish _ 1 y _ _ rfl (.getOk ['y'] _))
  have r : Run p 2 e _ { queue := [z], workers := [.idle, .idle], results := [.get ['y'] none, .put ['x'] true], bucket := b } :=
    r.snoc (.finish _ 0 x _ _ rfl (.putOk ['x'] _ [1]))
  have r : Run p 2 e (_ ++ [.pollPuts [.put ['x'] true]]) { queue := [z], workers := [.idle, .idle], gets := [.get ['y'] none], bucket := b } :=
    r.snoc (.pollPuts _ rfl)
  have r : Run p 2 e _ { queue := [z], workers := [.idle, .idle], gets := [.get ['y'] none], bucket := b, closed := true } := r.snoc (.close _ rfl)
  have r : Run p 2 e _ { workers := [.idle, .working z], gets := [.get ['y'] none], bucket := b, closed := true } := r.snoc (.take _ 1 z _ rfl rfl)
  have r : Run p 2 e _ { workers := [.gone, .working z], gets := [.get ['y'] none], bucket := b, closed := true } := r.snoc (.exit _ 0 rfl rfl rfl)
  have r : Run p 2 e _ { workers := [.gone, .idle], gets := [.get ['y'] none], results := [.put ['z'] true], bucket := upd b (key p ['z']) (some [2]), closed := true } :=
    r.snoc (.finish _ 1 z _ _ rfl (.putOk ['z'] _ [2]))
  have r : Run p 2 e _ { workers := [.gone, .gone], gets := [.get ['y'] none], results := [.put ['z'] true], bucket := upd b (key p ['z']) (some [2]), closed := true } :=
    r.snoc (.exit _ 1 rfl rfl rfl)
  refine ⟨_, _, _, r, .dropped _ rfl rfl, ⟨0, by simp⟩, rfl, rfl, ?_, ?_, ?_⟩
  · simp [seen]
  · intro d hd
    simpa [seen, started, jobOf, x, y, z] using hd
  · rfl

end Verif.S3W
