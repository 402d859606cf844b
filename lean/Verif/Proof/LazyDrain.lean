import Verif.Proof.LazyLive

/-! Progress of the lazily fetched disk: the worker can always finish what it has started, and then every waiting
request is served. -/

namespace Verif.Lazy
open Verif Verif.Metadata Verif.Disk

variable {D : Type} {c : Cfg D}

/-! ### Devices can finish what is in flight -/

section dev
variable {O : Type} [DecidableEq O]

theorem execs_write (o : O) (xs : List Nat) (d : Dev O D) {off cnt : Nat} {data : Nat → D} {done : Nat → Bool}
    (h : d.ops o = some (.write off cnt data done)) :
    ∃ done', (xs.foldl (fun d x => d.exec o x) d).ops o = some (.write off cnt data done') ∧
      (∀ x, done x = true → done' x = true) ∧ ∀ x ∈ xs, covers off cnt x → done' x = true := by
  induction xs generalizing d done with
  | nil => exact ⟨done, h, fun _ h => h, fun _ h => by simp at h⟩
  | cons x xs ih =>
    by_cases hx : covers off cnt x
    · obtain ⟨d', h1, h2, h3⟩ := ih (d.exec o x) (done := upd done x true) (by rw [exec_write h hx]; simp)
      refine ⟨d', h1, fun y hy => h2 y ?_, fun y hy hc => ?_⟩
      · by_cases hyx : y = x
        · subst hyx; simp
        · rw [upd_ne _ _ hyx]; exact hy
      · rcases List.mem_cons.mp hy with rfl | hy
        · exact h2 y (by simp)
        · exact h3 y hy hc
    · have e : d.exec o x = d := by unfold Dev.exec; rw [h]; simp only [hx, if_false]
      obtain ⟨d', h1, h2, h3⟩ := ih (d.exec o x) (done := done) (by rw [e]; exact h)
      refine ⟨d', h1, h2, fun y hy hc => ?_⟩
      rcases List.mem_cons.mp hy with rfl | hy
      · exact absurd hc hx
      · exact h3 y hy hc

theorem execs_read (o : O) (xs : List Nat) (d : Dev O D) {off cnt : Nat} {got : Nat → Option D}
    (h : d.ops o = some (.read off cnt got)) :
    ∃ got', (xs.foldl (fun d x => d.exec o x) d).ops o = some (.read off cnt got') ∧
      (∀ x, got x ≠ none → got' x ≠ none) ∧ ∀ x ∈ xs, covers off cnt x → got' x ≠ none := by
  induction xs generalizing d got with
  | nil => exact ⟨got, h, fun _ h => h, fun _ h => by simp at h⟩
  | cons x xs ih =>
    by_cases hx : covers off cnt x
    · obtain ⟨d', h1, h2, h3⟩ := ih (d.exec o x) (got := upd got x (some (d.vol x))) (by rw [exec_read h hx]; simp)
      refine ⟨d', h1, fun y hy => h2 y ?_, fun y hy hc => ?_⟩
      · by_cases hyx : y = x
        · subst hyx; simp
        · rw [upd_ne _ _ hyx]; exact hy
      · rcases List.mem_cons.mp hy with rfl | hy
        · exact h2 y (by simp)
        · exact h3 y hy hc
    · have e : d.exec o x = d := by unfold Dev.exec; rw [h]; simp only [hx, if_false]
      obtain ⟨d', h1, h2, h3⟩ := ih (d.exec o x) (got := got) (by rw [e]; exact h)
      refine ⟨d', h1, h2, fun y hy hc => ?_⟩
      rcases List.mem_cons.mp hy with rfl | hy
      · exact absurd hc hx
      · exact h3 y hy hc

/-- Some transfers finish the request of `o`. -/
theorem execs_finish (d : Dev O D) (o : O) (h : d.ops o ≠ none) :
    ∃ xs : List Nat, (xs.foldl (fun d x => d.exec o x) d).mayComplete o true := by
  cases ho : d.ops o with
  | none => exact absurd ho h
  | some op =>
    cases op with
    | read off cnt got =>
      obtain ⟨g, h1, -, h2⟩ := execs_read o ((List.range cnt).map (off + ·)) d ho
      refine ⟨_, _, h1, fun _ x hx => h2 x ?_ hx⟩
      simp only [List.mem_map, List.mem_range]
      unfold covers at hx
      exact ⟨x - off, by omega, by omega⟩
    | write off cnt data done =>
      obtain ⟨g, h1, -, h2⟩ := execs_write o ((List.range cnt).map (off + ·)) d ho
      refine ⟨_, _, h1, fun _ x hx => h2 x ?_ hx⟩
      simp only [List.mem_map, List.mem_range]
      unfold covers at hx
      exact ⟨x - off, by omega, by omega⟩
    | flush snap => exact ⟨[], _, ho, fun _ => trivial⟩

theorem execs_kinds (o : O) (xs : List Nat) (d : Dev O D) (o' : O) :
    (xs.foldl (fun d x => d.exec o x) d).kinds o' = d.kinds o' := by
  induction xs generalizing d with
  | nil => rfl
  | cons x xs ih => rw [List.foldl_cons, ih, kinds_exec]

end dev

/-! ### Runs -/

theorem Steady.trans {s s' s'' : Sys D} {l l' : List (Lab D)} (h : Steady c s l s') (h' : Steady c s' l' s'') :
    Steady c s (l ++ l') s'' := by
  induction h' with
  | nil => simpa using h
  | step _ hst ha ih => rw [← List.append_assoc]; exact .step ih hst ha

theorem Steady.one {s s' : Sys D} {l : List (Lab D)} {a : Act D} (h : Step c s a l s') (ha : a.losesUpdate = false) :
    Steady c s l s' := .step (.nil s) h ha

theorem Steady.alive {s s' : Sys D} {l : List (Lab D)} (h : Steady c s l s') : Alive c s l s' := by
  induction h with
  | nil => exact .nil _
  | step _ hst _ ih => exact .step ih hst

theorem Alive.run {s s' : Sys D} {l : List (Lab D)} (h : Alive c s l s') : Run c s l s' := by
  induction h with
  | nil => exact .nil _
  | step _ hst ih => exact .step ih hst

/-- Everything progress needs to know about a state. -/
structure Ready (c : Cfg D) (s : Sys D) : Prop where
  sound : Sound c s
  live : LiveInv c s
  fl : FlInv c s
  pool : PoolInv s.core

theorem Ready.step {s s' : Sys D} {l : List (Lab D)} {a : Act D} (h : Ready c s) (hs : Step c s a l s') (ha : a.losesUpdate = false) :
    Ready c s' :=
  ⟨h.sound.step hs, step_live h.sound h.live hs ha, step_flInv h.sound h.fl hs, h.pool.run (step_core h.sound hs)⟩

theorem Ready.run {s s' : Sys D} {l : List (Lab D)} (h : Ready c s) (hs : Steady c s l s') : Ready c s' := by
  induction hs with
  | nil => exact h
  | step _ hst ha ih => exact ih.step hst ha

theorem Ready.boot {hdrs : Bytes} {tv : Nat → D} {mv : Nat → Bytes} {b0 : Nat → Nat → D}
    (h : Sound c (Sys.boot c hdrs tv mv b0)) : Ready c (Sys.boot c hdrs tv mv b0) :=
  ⟨h, .boot, .boot, .boot⟩

/-- The worker goes from `s` to `s'`; the guest sees nothing and no queue changes. -/
def Works (c : Cfg D) (s s' : Sys D) : Prop := ∃ l, Steady c s l s' ∧ visible l = [] ∧ s'.ch = s.ch

theorem Works.trans {s s' s'' : Sys D} (h : Works c s s') (h' : Works c s' s'') : Works c s s'' := by
  obtain ⟨l, h1, h2, h3⟩ := h
  obtain ⟨l', h1', h2', h3'⟩ := h'
  exact ⟨_, h1.trans h1', by rw [visible_append, h2, h2']; rfl, h3'.trans h3⟩

theorem Works.refl (s : Sys D) : Works c s s := ⟨[], .nil s, rfl, rfl⟩

theorem worker_step {s s' : Sys D} {l : List (Lab D)} {a : Act D} (h : Step c s a l s') (hg : a.isGuest = false) :
    visible l = [] ∧ s'.ch = s.ch := by
  cases h with
  | receiveFetch k ms hms => exact ⟨visible_handleFetch _ _, (handleFetch_rest _ k).2.2.1⟩
  | autofetch k ks ha hq h => exact ⟨visible_handleFetch _ _, (handleFetch_rest _ k).2.2.1⟩
  | startFetch submitOk _ _ h => exact ⟨visible_startFetch h, (startFetch_fstep h).ch⟩
  | sourceDone k ok submitOk garbage _ _ h => exact ⟨visible_sourceDone h, (sourceDone_fstep h).ch⟩
  | targetDone k ok submitOk h => exact ⟨visible_targetDone _ _ _ _, targetDone_fstep.ch⟩
  | startMeta submitOk _ h => exact ⟨rfl, (startMeta_frame h).2.2.1⟩
  | metaDone k ok submitOk h => exact ⟨rfl, by simp⟩
  | execData | execMeta | receiveWritten | takeFinished | disconnect => exact ⟨rfl, rfl⟩
  | _ => simp [Act.isGuest] at hg

theorem Works.one {s s' : Sys D} {l : List (Lab D)} {a : Act D} (h : Step c s a l s') (hg : a.isGuest = false)
    (ha : a.losesUpdate = false) : Works c s s' :=
  ⟨l, .one h ha, worker_step h hg⟩

theorem Works.execData (s : Sys D) (o : Owner) (xs : List Nat) :
    Works c s { s with t := xs.foldl (fun d x => d.exec o x) s.t } := by
  induction xs generalizing s with
  | nil => exact .refl s
  | cons x xs ih => exact (Works.one (Step.execData s o x) rfl rfl).trans (ih { s with t := s.t.exec o x })

theorem Works.execMeta (s : Sys D) (k : Nat) (xs : List Nat) :
    Works c s { s with m := xs.foldl (fun d x => d.exec k x) s.m } := by
  induction xs generalizing s with
  | nil => exact .refl s
  | cons x xs ih => exact (Works.one (Step.execMeta s k x) rfl rfl).trans (ih { s with m := s.m.exec k x })

/-! ### The measure -/

def sumTo (n : Nat) (f : Nat → Nat) : Nat := ((List.range n).map f).sum

theorem sumTo_succ (n : Nat) (f : Nat → Nat) : sumTo (n + 1) f = sumTo n f + f n := by
  simp [sumTo, List.range_succ]

theorem sumTo_congr {n : Nat} {f g : Nat → Nat} (h : ∀ j, j < n → f j = g j) : sumTo n f = sumTo n g := by
  induction n with
  | zero => rfl
  | succ n ih => rw [sumTo_succ, sumTo_succ, ih (fun j hj => h j (by omega)), h n (by omega)]

theorem sumTo_one {n k : Nat} {f g : Nat → Nat} (hk : k < n) (h : ∀ j, j ≠ k → g j = f j) : sumTo n g + f k = sumTo n f + g k := by
  induction n with
  | zero => omega
  | succ n ih =>
    rw [sumTo_succ, sumTo_succ]
    by_cases hkn : k = n
    · subst hkn
      rw [sumTo_congr (f := g) (g := f) (fun j hj => h j (by omega))]
      omega
    · have := ih (by omega)
      rw [h n (fun e => hkn e.symm)]
      omega

def stW (st : Option FetchState) (si : Bool) (ret : Nat) : Nat :=
  match st with
  | none | some .fetched => 0
  | some .queued => 8 + (3 - ret)
  | some .fetching => if si then 7 else 6
  | some .flushing => 5

def updW (u : Option Update) : Nat :=
  match u with
  | none => 0
  | some u => if u.stage = .writing then 2 else 1

def kW (s : Sys D) (k : Nat) : Nat := stW (s.fe.states k) (s.fe.srcIn k) (s.fe.retries k) + updW (s.fl.updates k)

/-- Work left for the worker. -/
def mu (c : Cfg D) (s : Sys D) : Nat :=
  12 * s.msgs.length + 3 * s.fl.queue.length + 4 * s.fe.finished.length + sumTo c.n (kW s)

/-- Nothing left to do for the worker. -/
structure Drained (c : Cfg D) (s : Sys D) : Prop where
  msgs : s.msgs = []
  queue : s.fl.queue = []
  fin : s.fe.finished = []
  upd : ∀ k, s.fl.updates k = none
  st : ∀ k, s.fe.states k = none ∨ s.fe.states k = some .fetched

/-! ### One piece of work -/

theorem mu_same {s s' : Sys D} (h1 : s'.msgs = s.msgs) (h2 : s'.fl.queue = s.fl.queue) (h3 : s'.fe.finished = s.fe.finished)
    (h4 : ∀ k, kW s' k = kW s k) : mu c s' = mu c s := by
  unfold mu
  rw [h1, h2, h3, sumTo_congr (fun j _ => h4 j)]

/-- An update of the metadata moves on. -/
theorem progress_update {s : Sys D} (h : Ready c s) {k : Nat} {u : Update} (hu : s.fl.updates k = some u) :
    ∃ s', Works c s s' ∧ mu c s' < mu c s := by
  obtain ⟨gg, ab, hsim⟩ := h.sound.sim
  obtain ⟨⟨⟨hdrs, mv, hb, hm⟩, hf⟩, -⟩ := h.sound
  have huk := hm.upd k u hu
  have hop : s.m.ops k ≠ none := by
    have := huk.stage
    unfold StageOk at this
    split at this
    · obtain ⟨_, _, h1, _⟩ := this; rw [h1]; simp
    · obtain ⟨_, h1, _⟩ := this; rw [h1]; simp
  obtain ⟨xs, hxs⟩ := execs_finish s.m k hop
  refine ⟨_, (Works.execMeta s k xs).trans (.one (Step.metaDone _ k true true hxs) rfl rfl), ?_⟩
  generalize List.foldl (fun d x => d.exec k x) s.m xs = m1
  have hlt : ∀ s' : Sys D, s'.msgs = s.msgs → s'.fl.queue = s.fl.queue → s'.fe = s.fe →
      (∀ j, j ≠ k → s'.fl.updates j = s.fl.updates j) → updW (s'.fl.updates k) < updW (s.fl.updates k) → mu c s' < mu c s := by
    intro s' h1 h2 h3 h4 h5
    have hs := sumTo_one (f := kW s) (g := kW s') huk.kn (fun j hj => by unfold kW; rw [h3, h4 j hj])
    have h6 : kW s' k < kW s k := by unfold kW; rw [h3]; omega
    unfold mu
    rw [h1, h2, h3]
    omega
  unfold metaDone
  simp only [hu, if_true]
  cases hst : u.stage with
  | writing =>
    refine hlt _ rfl rfl rfl (fun j hj => ?_) ?_
    · simp only [upd_ne _ _ hj]
    · simp [hu, updW, hst]
  | flushing =>
    refine hlt _ rfl rfl rfl (fun j hj => ?_) ?_
    · simp only [upd_ne _ _ hj]
    · simp [hu, updW, hst]

theorem startMeta_go' {s : Sys D} {k : Nat} {mask : UInt8} {q : List (Nat × UInt8)} (h1 : s.fl.queue = (k, mask) :: q)
    (h2 : s.fl.free = maxChanges) (h3 : s.fl.busy (stripeIdToSector k) = false) (h4 : flag (s.fl.hdrs.getD k 0) mask = false) :
    startMeta s true = some { s with
        fl := { s.fl with
          hdrs := s.fl.hdrs.set k (s.fl.hdrs.getD k 0 ||| mask), queue := q, busy := upd s.fl.busy (stripeIdToSector k) true, free := s.fl.free - 1
          updates := upd s.fl.updates k (some { stage := .writing, header := s.fl.hdrs.getD k 0 ||| mask, mask := mask, sector := stripeIdToSector k }) }
        m := s.m.issueWrite k (stripeIdToSector k) 1 fun _ => writeSector (groupHeaders (s.fl.hdrs.set k (s.fl.hdrs.getD k 0 ||| mask)) (stripeIdToGroup k)) } := by
  unfold startMeta; rw [h1]; simp only [h2, h3, h4]; rfl

/-- With no update in flight the first queued one is started or skipped. -/
theorem progress_meta {s : Sys D} (h : Ready c s) (hno : ∀ k, s.fl.updates k = none) (hq : s.fl.queue ≠ []) :
    ∃ s', Works c s s' ∧ mu c s' < mu c s := by
  obtain ⟨gg, ab, hsim⟩ := h.sound.sim
  obtain ⟨⟨⟨hdrs, mv, hb, hm⟩, hf⟩, -⟩ := h.sound
  have hfree : s.fl.free = maxChanges := by
    have := h.fl
    unfold FlInv at this
    have e : cnt c.n (fun k => isWriting (s.fl.updates k)) = 0 := by
      simp only [hno, isWriting_none]
      unfold cnt
      simp
    omega
  cases hqq : s.fl.queue with
  | nil => exact absurd hqq hq
  | cons p q =>
    obtain ⟨k, mask⟩ := p
    have hkn := (hm.queue k mask (by rw [hqq]; simp)).1
    have hbz : s.fl.busy (stripeIdToSector k) = false := by
      cases hb : s.fl.busy (stripeIdToSector k) with
      | false => rfl
      | true =>
        obtain ⟨j, u, h1, -⟩ := h.live.busy _ hb
        rw [hno j] at h1; simp at h1
    cases hfl : flag (s.fl.hdrs.getD k 0) mask with
    | true =>
      have he : startMeta s true = some { s with fl := { s.fl with queue := q } } := by
        unfold startMeta
        rw [hqq]
        simp only [hfree, hbz, hfl]
        rfl
      refine ⟨_, .one (Step.startMeta s true _ he) rfl rfl, ?_⟩
      have e : sumTo c.n (kW { s with fl := { s.fl with queue := q } }) = sumTo c.n (kW s) := sumTo_congr fun _ _ => rfl
      unfold mu
      rw [e, hqq]
      simp only [List.length_cons]
      omega
    | false =>
      have he := startMeta_go' hqq hfree hbz hfl
      refine ⟨_, .one (Step.startMeta s true _ he) rfl rfl, ?_⟩
      have key : ∀ s' : Sys D, s'.msgs = s.msgs → s'.fl.queue = q → s'.fe = s.fe →
          (∀ j, j ≠ k → s'.fl.updates j = s.fl.updates j) → updW (s'.fl.updates k) = 2 → mu c s' < mu c s := by
        intro s' e1 e2 e3 e4 e5
        have hs := sumTo_one (f := kW s) (g := kW s') hkn (fun j hj => by unfold kW; rw [e3, e4 j hj])
        have h6 : kW s' k = kW s k + 2 := by unfold kW; rw [e3, e5, hno k]; simp [updW]
        unfold mu
        rw [e1, e2, e3, hqq]
        simp only [List.length_cons]
        omega
      refine key _ rfl rfl rfl (fun j hj => ?_) ?_
      · simp only [upd_ne _ _ hj]
      · simp [updW]

/-- A finished fetch is passed on to the flusher. -/
theorem progress_finished {s : Sys D} (hq : s.fe.finished ≠ []) : ∃ s', Works c s s' ∧ mu c s' < mu c s := by
  cases hf : s.fe.finished with
  | nil => exact absurd hf hq
  | cons p rest =>
    obtain ⟨k, ok⟩ := p
    refine ⟨_, .one (Step.takeFinished s k ok rest hf) rfl rfl, ?_⟩
    have key : ∀ s' : Sys D, s'.msgs = s.msgs → s'.fl.queue.length ≤ s.fl.queue.length + 1 → s'.fe.finished = rest →
        (∀ j, kW s' j = kW s j) → mu c s' < mu c s := by
      intro s' e1 e2 e3 e4
      unfold mu
      rw [e1, e3, hf, sumTo_congr (fun j _ => e4 j)]
      simp only [List.length_cons]
      omega
    refine key _ rfl ?_ rfl (fun j => ?_)
    · simp only; split <;> simp
    · unfold kW; simp only; split <;> rfl

theorem mu_fetch {s s' : Sys D} {k : Nat} (hk : k < c.n) (e1 : s'.msgs = s.msgs) (e2 : s'.fl = s.fl)
    (e3 : ∀ j, j ≠ k → s'.fe.states j = s.fe.states j ∧ s'.fe.srcIn j = s.fe.srcIn j ∧ s'.fe.retries j = s.fe.retries j)
    (e4 : 4 * s'.fe.finished.length + stW (s'.fe.states k) (s'.fe.srcIn k) (s'.fe.retries k) <
      4 * s.fe.finished.length + stW (s.fe.states k) (s.fe.srcIn k) (s.fe.retries k)) : mu c s' < mu c s := by
  have hs := sumTo_one (f := kW s) (g := kW s') hk (fun j hj => by
    obtain ⟨h1, h2, h3⟩ := e3 j hj; unfold kW; rw [h1, h2, h3, e2])
  have e5 : kW s' k = stW (s'.fe.states k) (s'.fe.srcIn k) (s'.fe.retries k) + updW (s.fl.updates k) := by unfold kW; rw [e2]
  have e6 : kW s k = stW (s.fe.states k) (s.fe.srcIn k) (s.fe.retries k) + updW (s.fl.updates k) := rfl
  unfold mu
  rw [e1, e2]
  omega

theorem release_rest (fe : Fetcher D) (k : Nat) : (fe.release k).states = fe.states ∧ (fe.release k).retries = fe.retries ∧
    (fe.release k).srcIn = fe.srcIn ∧ (fe.release k).finished = fe.finished := by
  unfold Fetcher.release; split <;> simp

/-- What a completed fetch leaves of the work. -/
theorem fetchCompleted_work (s : Sys D) (k : Nat) (ok : Bool) :
    (fetchCompleted s k ok).1.fe.srcIn = s.fe.srcIn ∧
    (∀ j, j ≠ k → (fetchCompleted s k ok).1.fe.states j = s.fe.states j ∧
      (fetchCompleted s k ok).1.fe.retries j = s.fe.retries j) ∧
    (4 * (fetchCompleted s k ok).1.fe.finished.length +
      stW ((fetchCompleted s k ok).1.fe.states k) ((fetchCompleted s k ok).1.fe.srcIn k) ((fetchCompleted s k ok).1.fe.retries k) ≤
      4 * s.fe.finished.length + (if ok then 4 else if s.fe.retries k < 3 then 7 + (3 - s.fe.retries k) else 4)) := by
  obtain ⟨r1, r2, r3, r4⟩ := release_rest s.fe k
  unfold fetchCompleted
  simp only [r1, r2, r3, r4, maxRetries]
  split
  · refine ⟨rfl, fun j hj => ⟨by simp only [upd_ne _ _ hj], by simp only [upd_ne _ _ hj]⟩, ?_⟩
    simp [stW]; omega
  · split
    · refine ⟨rfl, fun j hj => ⟨by simp only [upd_ne _ _ hj], by simp only [upd_ne _ _ hj]⟩, ?_⟩
      simp [stW, r4]; omega
    · refine ⟨rfl, fun j hj => ⟨by simp only [upd_ne _ _ hj], by simp only [upd_ne _ _ hj]⟩, ?_⟩
      simp [stW]; omega

/-- A stripe write or flush completes. -/
theorem progress_target {s : Sys D} (h : Ready c s) {k : Nat} (hk : s.t.ops (.fetch k) ≠ none) :
    ∃ s', Works c s s' ∧ mu c s' < mu c s := by
  obtain ⟨gg, ab, hsim⟩ := h.sound.sim
  obtain ⟨⟨⟨hdrs, mv, hb, hm⟩, hf⟩, -⟩ := h.sound
  have hkd : s.t.kinds (.fetch k) ≠ none := by
    unfold Dev.kinds
    cases ho : s.t.ops (.fetch k) with
    | none => exact absurd ho hk
    | some op => simp
  obtain ⟨-, -, -, hsi, hst⟩ := (hf.ok k).busy hkd
  have hkn : k < c.n := hf.bound k (by rcases hst with ⟨h, -⟩ | ⟨h, -⟩ <;> rw [h] <;> simp)
  obtain ⟨xs, hxs⟩ := execs_finish s.t (.fetch k) hk
  refine ⟨_, (Works.execData s (.fetch k) xs).trans (.one (Step.targetDone _ k true true hxs) rfl rfl), ?_⟩
  generalize List.foldl (fun d x => d.exec (Owner.fetch k) x) s.t xs = t1
  unfold targetDone
  rcases hst with ⟨hst, -⟩ | ⟨hst, -⟩
  · simp only [hst, if_true]
    refine mu_fetch hkn rfl rfl (fun j hj => ⟨by simp only [upd_ne _ _ hj], rfl, rfl⟩) ?_
    simp [hst, hsi, stW]
  · simp only [hst, if_true]
    obtain ⟨w1, w2, w3⟩ := fetchCompleted_work { s with t := t1.complete (.fetch k) true } k true
    refine mu_fetch hkn (fetchCompleted_msgs _ _ _) (fetchCompleted_rest _ _ _).1 (fun j hj => ⟨(w2 j hj).1, by rw [w1], (w2 j hj).2⟩)
      (Nat.lt_of_le_of_lt w3 ?_)
    simp [hst, stW]

/-- The source answers. -/
theorem progress_source {s : Sys D} (h : Ready c s) {k : Nat} (hk : s.fe.srcIn k = true) :
    ∃ s', Works c s s' ∧ mu c s' < mu c s := by
  obtain ⟨gg, ab, hsim⟩ := h.sound.sim
  obtain ⟨⟨⟨hdrs, mv, hb, hm⟩, hf⟩, -⟩ := h.sound
  have hok := hf.ok k
  unfold StripeOk StripeOkC at hok
  have hst : s.fe.states k = some .fetching ∧ s.fe.alloc k ≠ none := by
    cases hs : s.fe.states k with
    | none => simp_all
    | some st => cases st <;> simp_all
  obtain ⟨hst, hal⟩ := hst
  have hkn : k < c.n := hf.bound k (by rw [hst]; simp)
  cases ha : s.fe.alloc k with
  | none => exact absurd ha hal
  | some b =>
    have he : ∀ g, ∃ s1 l, sourceDone c s k true true g = some (s1, l) ∧ s1.msgs = s.msgs ∧ s1.fl = s.fl ∧ s1.fe.states = s.fe.states ∧
        s1.fe.srcIn = upd s.fe.srcIn k false ∧ s1.fe.retries = s.fe.retries ∧ s1.fe.finished = s.fe.finished := by
      intro g
      unfold sourceDone
      simp only [hk, ha, if_true]
      exact ⟨_, _, rfl, rfl, rfl, rfl, rfl, rfl, rfl⟩
    obtain ⟨s1, l, h0, h1, h2, h3, h4, h5, h6⟩ := he (s.fe.bufs b)
    refine ⟨_, .one (Step.sourceDone s k true true _ _ _ h0) rfl rfl, ?_⟩
    refine mu_fetch hkn h1 h2 (fun j hj => ⟨by rw [h3], by rw [h4, upd_ne _ _ hj], by rw [h5]⟩) ?_
    rw [h3, h4, h5, h6, hst, hk]
    simp [stW]

/-- With all buffers free the first queued stripe is requested. -/
theorem progress_start {s : Sys D} (h : Ready c s) (hno : ∀ k, s.fe.alloc k = none) (hq : s.fe.queue ≠ []) :
    ∃ s', Works c s s' ∧ mu c s' < mu c s := by
  obtain ⟨gg, ab, hsim⟩ := h.sound.sim
  obtain ⟨⟨⟨hdrs, mv, hb, hm⟩, hf⟩, -⟩ := h.sound
  have hfree : s.fe.free ≠ [] := by
    rcases h.pool.cover 0 (by decide) with h1 | ⟨k, h1⟩
    · exact fun e => by have e' : s.core.free = [] := e; rw [e'] at h1; simp at h1
    · have e' : s.core.alloc k = none := hno k
      rw [e'] at h1; simp at h1
  cases hqq : s.fe.queue with
  | nil => exact absurd hqq hq
  | cons k q =>
    cases hff : s.fe.free with
    | nil => exact absurd hff hfree
    | cons b free =>
      have hst : s.fe.states k = some .queued := by
        have hok := hf.ok k
        unfold StripeOk StripeOkC at hok
        have hin : k ∈ s.fe.queue := by rw [hqq]; simp
        cases hs : s.fe.states k with
        | none => simp_all
        | some st => cases st <;> simp_all
      have hkn : k < c.n := hf.bound k (by rw [hst]; simp)
      cases hgo : (!s.fe.disconnected && c.srcHas k && true) with
      | true =>
        have he : ∃ s1 l, startFetch c s true = some (s1, l) ∧ s1.msgs = s.msgs ∧ s1.fl = s.fl ∧
            s1.fe.states = upd s.fe.states k (some .fetching) ∧ s1.fe.srcIn = upd s.fe.srcIn k true ∧
            s1.fe.retries = s.fe.retries ∧ s1.fe.finished = s.fe.finished := by
          unfold startFetch
          simp only [hqq, hff, hgo, if_true]
          exact ⟨_, _, rfl, rfl, rfl, rfl, rfl, rfl, rfl⟩
        obtain ⟨s1, l, h0, h1, h2, h3, h4, h5, h6⟩ := he
        refine ⟨_, .one (Step.startFetch s true _ _ h0) rfl rfl, ?_⟩
        refine mu_fetch hkn h1 h2 (fun j hj => ⟨by rw [h3, upd_ne _ _ hj], by rw [h4, upd_ne _ _ hj], by rw [h5]⟩) ?_
        rw [h3, h4, h5, h6, hst]
        simp [stW]
        omega
      | false =>
        have he : ∃ l, startFetch c s true = some
            ((fetchCompleted { s with fe := { s.fe with queue := q, free := free, alloc := upd s.fe.alloc k (some b) } } k false).1, l) := by
          unfold startFetch
          simp only [hqq, hff, hgo]
          exact ⟨_, rfl⟩
        obtain ⟨l, h0⟩ := he
        refine ⟨_, .one (Step.startFetch s true _ _ h0) rfl rfl, ?_⟩
        obtain ⟨w1, w2, w3⟩ := fetchCompleted_work { s with fe := { s.fe with queue := q, free := free, alloc := upd s.fe.alloc k (some b) } } k false
        refine mu_fetch hkn (fetchCompleted_msgs _ _ _) (fetchCompleted_rest _ _ _).1 (fun j hj => ⟨(w2 j hj).1, by rw [w1], (w2 j hj).2⟩)
          (Nat.lt_of_le_of_lt w3 ?_)
        simp only [hst, stW]
        by_cases h3 : s.fe.retries k < 3
        · simp only [h3, if_true, Bool.false_eq_true, if_false]; omega
        · simp only [h3, Bool.false_eq_true, if_false]; omega

/-- A message is taken. -/
theorem progress_msg {s : Sys D} (h : Ready c s) (hq : s.msgs ≠ []) : ∃ s', Works c s s' ∧ mu c s' < mu c s := by
  obtain ⟨gg, ab, hsim⟩ := h.sound.sim
  obtain ⟨⟨⟨hdrs, mv, hb, hm⟩, hf⟩, -⟩ := h.sound
  cases hms : s.msgs with
  | nil => exact absurd hms hq
  | cons m ms =>
    cases m with
    | setWritten k =>
      refine ⟨_, .one (Step.receiveWritten s k ms hms) rfl rfl, ?_⟩
      have e : ∀ s' : Sys D, s'.msgs = ms → s'.fl.queue.length = s.fl.queue.length + 1 → s'.fe.finished = s.fe.finished →
          (∀ j, kW s' j = kW s j) → mu c s' < mu c s := by
        intro s' e1 e2 e3 e4
        unfold mu
        rw [e1, e2, e3, hms, sumTo_congr (fun j _ => e4 j)]
        simp only [List.length_cons]
        omega
      exact e _ rfl (by simp) rfl (fun _ => rfl)
    | fetch k =>
      have hkn : k < c.n := hf.mbound k (by rw [hms]; simp)
      refine ⟨_, .one (Step.receiveFetch s k ms hms) rfl rfl, ?_⟩
      have e : ∀ s' : Sys D, s'.msgs = ms → s'.fl = s.fl → s'.fe.finished = s.fe.finished →
          (∀ j, j ≠ k → kW s' j = kW s j) → kW s' k ≤ kW s k + 11 → mu c s' < mu c s := by
        intro s' e1 e2 e3 e4 e5
        have hs := sumTo_one (f := kW s) (g := kW s') hkn e4
        unfold mu
        rw [e1, e2, e3, hms]
        simp only [List.length_cons]
        omega
      unfold handleFetch
      simp only
      split
      · exact e _ rfl rfl rfl (fun _ _ => rfl) (Nat.le_add_right (kW s k) 11)
      · split
        · exact e _ rfl rfl rfl (fun _ _ => rfl) (Nat.le_add_right (kW s k) 11)
        · rename_i hns
          refine e _ rfl rfl rfl (fun j hj => ?_) ?_
          · unfold kW; simp only [upd_ne _ _ hj]
          · unfold kW
            simp only [upd_same, stW]
            omega

theorem progress {s : Sys D} (h : Ready c s) : Drained c s ∨ ∃ s', Works c s s' ∧ mu c s' < mu c s := by
  obtain ⟨gg, ab, hsim⟩ := h.sound.sim
  obtain ⟨⟨⟨hdrs, mv, hb, hm⟩, hf⟩, -⟩ := h.sound
  by_cases hu : ∀ k, s.fl.updates k = none
  · by_cases hq : s.fl.queue = []
    · by_cases hfin : s.fe.finished = []
      · by_cases ht : ∀ k, s.t.ops (.fetch k) = none
        · by_cases hsrc : ∀ k, s.fe.srcIn k = false
          · have hkd : ∀ k, s.t.kinds (.fetch k) = none := fun k => by unfold Dev.kinds; rw [ht k]; rfl
            have hnst : ∀ k, s.fe.states k ≠ some .fetching ∧ s.fe.states k ≠ some .flushing := by
              intro k
              have hok := hf.ok k
              unfold StripeOk StripeOkC at hok
              rw [hkd k, hsrc k] at hok
              constructor <;> intro e <;> rw [e] at hok <;> simp at hok
            have hal : ∀ k, s.fe.alloc k = none := by
              intro k
              cases ha : s.fe.alloc k with
              | none => rfl
              | some b =>
                have := (h.pool.busy k).mp (by show s.fe.alloc k ≠ none; rw [ha]; simp)
                rcases this with h1 | h1
                · exact absurd h1 (hnst k).1
                · exact absurd h1 (hnst k).2
            by_cases hfq : s.fe.queue = []
            · by_cases hms : s.msgs = []
              · refine Or.inl ⟨hms, hq, hfin, hu, fun k => ?_⟩
                have hok := hf.ok k
                unfold StripeOk StripeOkC at hok
                cases hs : s.fe.states k with
                | none => exact Or.inl rfl
                | some st =>
                  cases st with
                  | fetched => exact Or.inr rfl
                  | queued => rw [hs, hfq] at hok; simp at hok
                  | fetching => exact absurd hs (hnst k).1
                  | flushing => exact absurd hs (hnst k).2
              · exact Or.inr (progress_msg h hms)
            · exact Or.inr (progress_start h hal hfq)
          · obtain ⟨k, hk⟩ := Classical.not_forall.mp hsrc
            exact Or.inr (progress_source h (by simpa using hk))
        · obtain ⟨k, hk⟩ := Classical.not_forall.mp ht
          exact Or.inr (progress_target h hk)
      · exact Or.inr (progress_finished hfin)
    · exact Or.inr (progress_meta h hu hq)
  · obtain ⟨k, hk⟩ := Classical.not_forall.mp hu
    cases hk' : s.fl.updates k with
    | none => exact absurd hk' hk
    | some u => exact Or.inr (progress_update h hk')

/-- The worker can finish everything it has been asked for. -/
theorem drain {s : Sys D} (h : Ready c s) : ∃ s', Works c s s' ∧ Ready c s' ∧ Drained c s' := by
  generalize hn : mu c s = n
  induction n using Nat.strongRecOn generalizing s with
  | _ n ih =>
    rcases progress h with hd | ⟨s1, hw, hlt⟩
    · exact ⟨s, .refl s, h, hd⟩
    · have h1 : Ready c s1 := by obtain ⟨l, hl, -⟩ := hw; exact h.run hl
      obtain ⟨s2, hw2, hr2, hd2⟩ := ih (mu c s1) (by omega) h1 rfl
      exact ⟨s2, hw.trans hw2, hr2, hd2⟩

end Verif.Lazy
