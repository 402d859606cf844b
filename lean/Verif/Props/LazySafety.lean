import Verif.Proof.LazySafe
import Verif.Proof.LazyDemo

/-! # C07–C15, C18: safety of the lazily fetched disk

All theorems are about runs that start with a bootable volume and contain any number of power losses. Labels in a
run (`Lab`) record hand-overs that the guest does not see. -/

set_option maxRecDepth 8000

namespace Verif.Lazy
open Verif Verif.Metadata Verif.Disk

variable {D : Type} {c : Cfg D} {hdrs : Bytes} {tv : Nat → D} {mv : Nat → Bytes} {b0 : Nat → Nat → D}
  {s s' : Sys D} {ls ls' : List (Lab D)} {a : Act D}

/-- In every outcome of a power loss now, the metadata load and flag `f` of stripe `k` is set. -/
def FlagDurable (c : Cfg D) (s : Sys D) (k : Nat) (f : UInt8) : Prop :=
  ∀ mv', s.m.survives mv' → ∃ md, fromBytes (devBytes c.msec mv') = .ok md ∧ flag (md.headers.getD k 0) f = true

theorem fetched_durable (hs : Sound c s) {k : Nat} (hk : k < c.n) (hsrc : c.hs k = true) (hl : s.sh.isLocal k = true) :
    FlagDurable c s k FETCHED := by
  intro mv' hm
  obtain ⟨gg, a, hsim⟩ := hs.sim
  obtain ⟨⟨⟨_, _, hb', hmeta⟩, -⟩, -⟩ := hs
  obtain ⟨md, h1, h2, h3⟩ := reload hb' hmeta hm
  refine ⟨md, h1, (h3 k hk).fetched ?_⟩
  simp only [Shared.isLocal, Bool.or_eq_true, decide_eq_true_eq] at hl
  rcases hl with hl | hl
  · exact hl
  · have := (hsim.nosrc _).1 hl
    rw [hsrc] at this; simp at this

theorem written_durable (hs : Sound c s) {k : Nat} (hk : k < c.n) (hl : s.sh.ws k = true) : FlagDurable c s k WRITTEN := by
  intro mv' hm
  obtain ⟨⟨⟨_, _, hb', hmeta⟩, -⟩, -⟩ := hs
  obtain ⟨md, h1, h2, h3⟩ := reload hb' hmeta hm
  exact ⟨md, h1, (h3 k hk).written hl⟩

theorem covers_lt {off n x : Nat} (hv : c.validReq off n) (hx : covers off n x) : x < c.tsec ∧ x / c.ss < c.n := by
  obtain ⟨h1, h2, h3⟩ := hv
  have h4 : x / c.ss ≤ (off + n - 1) / c.ss := Nat.div_le_div_right (by have := hx.2; omega)
  have := hx.2
  omega

/-- **C07** When a request is handed to the local disk, then for each of its stripes that has a source the FETCHED flag
is durable, and every sector of the stripe durably holds the preloaded image or something the guest wrote. -/
theorem C07_local_only_when_durable (hb : Bootable c hdrs mv) (h : Run c (Sys.boot c hdrs tv mv b0) ls s)
    (hst : Step c s a ls' s') {q : Nat} {r : QReq D} (hl : Lab.toBase q r ∈ ls') {x : Nat} (hx : covers r.off r.cnt x)
    (hsrc : c.hs (x / c.ss) = true) :
    FlagDurable c s (x / c.ss) FETCHED ∧
    ∀ tv' y, s.t.survives tv' → y / c.ss = x / c.ss → y < c.tsec → c.good y = true →
      tv' y = preload c hdrs tv y ∨ wrote (visible ls) y (tv' y) := by
  have hs := (Sound.boot (tv := tv) (b0 := b0) hb).run h
  obtain ⟨hv, hloc, -⟩ := step_labOk hs hst _ hl
  have hlx := hloc _ (covers_stripes hx)
  refine ⟨fetched_durable hs (covers_lt hv hx).2 hsrc hlx, fun tv' y ht hy hyt hyg => ?_⟩
  obtain ⟨-, hfam⟩ := run_sim hb rfl h
  obtain ⟨gg, d, hpin, hd, hsim⟩ := hfam.sim
  have := (hd.origin rfl).1 y _ (hsim.pers y _ hyt (by rw [← hy] at hlx; exact Or.inl hlx) (ht y))
  rwa [preloadWith_good hb gg hyg] at this

/-- The hypotheses are met: the demo write is handed over after its stripe was fetched, and the image sector 0 next to
the written sector is durable. -/
example : ∃ mv s ls s', Bootable demoCfg [4, 0] mv ∧ Run demoCfg (demoBoot mv) ls s ∧
    Step demoCfg s (.processQueue 0 true) [.unwait 0 7, .toBase 0 demoWrite] s' ∧ covers demoWrite.off demoWrite.cnt 1 ∧
    demoCfg.hs (1 / demoCfg.ss) = true ∧ preload demoCfg [4, 0] (fun x => x) 0 = 100 := by
  obtain ⟨mv, hb⟩ := demo_bootable
  obtain ⟨s, ⟨ls, r, -⟩, -, -, -, -, -, -, -, -, h⟩ := demo_local mv
  exact ⟨mv, s, ls, _, hb, r, h, ⟨by decide, by decide⟩, rfl, by decide⟩

/-- **C08** With written tracking, when a guest write is handed to the local disk the WRITTEN flag of each of its
stripes is durable. -/
theorem C08_written_before_data (ht : c.track = true) (hb : Bootable c hdrs mv) (h : Run c (Sys.boot c hdrs tv mv b0) ls s)
    (hst : Step c s a ls' s') {q : Nat} {r : QReq D} (hl : Lab.toBase q r ∈ ls') (hw : r.out.isSome = true) {x : Nat}
    (hx : covers r.off r.cnt x) : FlagDurable c s (x / c.ss) WRITTEN := by
  have hs := (Sound.boot (tv := tv) (b0 := b0) hb).run h
  obtain ⟨hv, hloc, hwr⟩ := step_labOk hs hst _ hl
  exact written_durable hs (covers_lt hv hx).2 (hwr ht hw _ (covers_stripes hx))

/-- **C08** With written tracking, after any power loss a stripe whose loaded flags say "not written" presents its
original content; if its data are local they are that content. -/
theorem C08_unwritten_is_original (ht : c.track = true) (hb : Bootable c hdrs mv)
    (h : Run c (Sys.boot c hdrs tv mv b0) ls s) {tv' : Nat → D} {mv' : Nat → Bytes} {md : Meta} (h1 : s.t.survives tv')
    (h2 : s.m.survives mv') (h3 : fromBytes (devBytes c.msec mv') = .ok md) {x : Nat} (hx : x < c.tsec) (hg : c.good x = true)
    (hw : flag (md.headers.getD (x / c.ss) 0) WRITTEN = false) :
    preload c md.headers tv' x = preload c hdrs tv x ∧
    (flag (md.headers.getD (x / c.ss) 0) FETCHED = true → tv' x = preload c hdrs tv x) := by
  have hs := (Sound.boot (tv := tv) (b0 := b0) hb).run h
  obtain ⟨hi, hwb⟩ := h.winv ht hb
  obtain ⟨-, g2, g3⟩ := crash_original hs hi hwb h1 h2 h3 ⟨hg, hx⟩ hw
  exact ⟨g3, fun hf => g2 (Or.inr hf)⟩

/-- The hypotheses are met: the demo volume has tracking on; its write is the last event of a run and the other stripe
is never written. -/
example : demoCfg.track = true ∧ demoWrite.out.isSome = true ∧ ∃ mv s ls s', Bootable demoCfg [4, 0] mv ∧
    Run demoCfg (demoBoot mv) ls s ∧ Step demoCfg s (.processQueue 0 true) [.unwait 0 7, .toBase 0 demoWrite] s' := by
  obtain ⟨mv, hb⟩ := demo_bootable
  obtain ⟨s, ⟨ls, r, -⟩, -, -, -, -, -, -, -, -, h⟩ := demo_local mv
  exact ⟨rfl, rfl, mv, s, ls, _, hb, r, h⟩

example : ∃ mv, Bootable demoCfg [4, 0] mv ∧ ∃ md, fromBytes (devBytes demoCfg.msec mv) = .ok md ∧ (demoBoot mv).m.survives mv ∧
    flag (md.headers.getD (0 / demoCfg.ss) 0) WRITTEN = false ∧ demoCfg.good 0 = true := by
  obtain ⟨mv, hb⟩ := demo_bootable
  obtain ⟨md, h1, h2⟩ := hb.load
  exact ⟨mv, hb, md, h1, fun x => rfl, by rw [h2]; decide, by decide⟩

/-- **C09** After a request to a stripe was handed to the local disk (a write in particular), the stripe is never put
on the fetch queue, read from the source or copied again, not even after power losses; and nothing of it is in flight. -/
theorem C09_no_copy_after_guest (hb : Bootable c hdrs mv) (h : Run c (Sys.boot c hdrs tv mv b0) ls s)
    {l1 l2 : List (Lab D)} {q : Nat} {r : QReq D} (hl : ls = l1 ++ .toBase q r :: l2) {x : Nat} (hx : covers r.off r.cnt x) :
    (∀ l ∈ l2, l ≠ .enqueue (x / c.ss) ∧ l ≠ .sourceRead (x / c.ss) ∧ l ≠ .fetchWrite (x / c.ss)) ∧
    x / c.ss ∉ s.fe.queue ∧ s.fe.srcIn (x / c.ss) = false ∧ s.t.ops (.fetch (x / c.ss)) = none := by
  have hs0 := Sound.boot (tv := tv) (b0 := b0) hb
  have hk := covers_stripes (c := c) hx
  obtain ⟨s1, a, la, lb, s2, g1, ⟨l1', hpre⟩, g3, g4, -, lc, g7, g8⟩ := h.at_label hl (by simp)
  have hs1 := hs0.run g1
  have hs2 := hs1.step g3
  have hlo := (step_labOk hs1 g3 _ g4).2.1 _ hk
  have hlo2 := (step_mono hs1 g3).loc _ hlo
  have hfin := g7.local hs2 _ hlo2
  refine ⟨fun l hm => ?_, (hs0.run h).idle hfin |>.1, ((hs0.run h).idle hfin).2.2⟩
  have hsub : l ∈ lb ∨ l ∈ lc := by
    have e : l1' ++ .toBase q r :: l2 = lb ++ lc := by
      rw [hl, ← hpre, List.append_assoc, List.append_assoc] at g8
      exact List.append_cancel_left g8
    have : l ∈ lb ++ lc := by rw [← e]; simp [hm]
    exact List.mem_append.mp this
  have hc : ¬ l.copies (x / c.ss) := by
    rcases hsub with h1 | h1
    · exact step_copies hs1 g3 hlo l h1
    · exact g7.copies hs2 hlo2 l h1
  refine ⟨?_, ?_, ?_⟩ <;> (rintro rfl; exact hc rfl)

/-- The hypotheses are met, with a copy of the same stripe before the hand-over. -/
example : ∃ mv s l1, Bootable demoCfg [4, 0] mv ∧ Run demoCfg (demoBoot mv) (l1 ++ .toBase 0 demoWrite :: []) s ∧
    covers demoWrite.off demoWrite.cnt 1 := by
  obtain ⟨mv, hb⟩ := demo_bootable
  obtain ⟨s, ⟨ls, r, -⟩, -, -, -, -, -, -, -, -, h⟩ := demo_local mv
  exact ⟨mv, _, ls ++ [.unwait 0 7], hb, by simpa using r.step h, ⟨by decide, by decide⟩⟩

/-- **C10** Every completion reported belongs to a request issued before and not completed (nor lost in a power loss)
since; so no id is reported more often than it was issued. -/
theorem C10_completes_once (hb : Bootable c hdrs mv) (h : Run c (Sys.boot c hdrs tv mv b0) ls s) {q id : Nat} :
    (∀ e1 e2 ok out, visible ls = e1 ++ Ev.resp q id ok out :: e2 →
      ∃ a1 a2 r, e1 = a1 ++ Ev.issue q id r :: a2 ∧ unanswered (q, id) a2) ∧
    answers q id (visible ls) ≤ issues q id (visible ls) := by
  obtain ⟨gg, d, -, hd, -⟩ := (run_sim hb rfl h).2.sim
  exact ⟨fun _ _ _ _ he => hd.answered rfl he, (answers_le hd rfl q id).1⟩

/-- The hypotheses are met: the demo run answers request 7 once. -/
example : ∃ mv s ls, Bootable demoCfg [4, 0] mv ∧ Run demoCfg (demoBoot mv) ls s ∧
    visible ls = [.issue 0 7 (.write 1 1 fun _ => 55)] ++ Ev.resp 0 7 true [] :: [.issue 0 8 .flush, .resp 0 8 true []] := by
  obtain ⟨mv, hb⟩ := demo_bootable
  obtain ⟨s, ⟨ls, r, hv⟩, -⟩ := demo_run mv
  exact ⟨mv, s, ls, hb, r, hv⟩

/-- **C11** Each time a stripe is put on the fetch queue it is read from the source at most four times; without
power losses, once it is off the queue again without having been fetched, it was read exactly four times per time it
was given up. -/
theorem C11_bounded_retries (hb : Bootable c hdrs mv) (h : Run c (Sys.boot c hdrs tv mv b0) ls s) (k : Nat) :
    sourceReads k ls ≤ 4 * enqueues k ls ∧ givenUp k ls ≤ enqueues k ls ∧
    (Lab.ev .crash ∉ ls → s.fe.states k = none → sourceReads k ls = 4 * givenUp k ls ∧ enqueues k ls = givenUp k ls) := by
  obtain ⟨R0, E0, F0, R, E, F, h1, h2, h3, h4, h5, h6, h7⟩ := h.attempts hb rfl k
  obtain ⟨e1, e2, e3⟩ := fetchLabs_counts k ls
  rw [e1] at h4
  rw [e2] at h5
  rw [e3] at h6
  have := h7.bound
  refine ⟨by omega, by omega, fun hc hn => ?_⟩
  obtain ⟨rfl, rfl, rfl⟩ := h3 hc
  have h8 : RetC (s.fe.states k) (s.fe.retries k) R E F := h7
  rw [hn] at h8
  obtain ⟨-, h9, h10⟩ := h8
  omega

/-- **C11** A stripe that is given up is marked failed. -/
theorem C11_given_up_is_failed (hb : Bootable c hdrs mv) (h : Run c (Sys.boot c hdrs tv mv b0) ls s)
    (hst : Step c s a ls' s') {k : Nat} (hl : Lab.fetchFailed k ∈ ls') : s'.sh.fs k = .failed :=
  (step_labOk ((Sound.boot hb).run h) hst _ hl).2.2

/-- **C11** A read or write whose first stripe that is not local is marked failed gets an error, at once or, if it was
waiting, when it is looked at. `pre` are the stripes before it. -/
theorem C11_failed_stripe_fails (r : QReq D) {pre post : List Nat} {k : Nat} (hk : stripes c r = pre ++ k :: post)
    (hp : ∀ j ∈ pre, s.sh.isLocal j = true) (hf : s.sh.fs k = .failed) (q : Nat) (ok : Bool) :
    (r.out = none → addRead c s q r.id r.off r.cnt ok = (finishFalse s q r.id, [])) ∧
    (∀ data, r.out = some data → addWrite c s q r.id r.off r.cnt data ok = (finishFalse s q r.id, [])) ∧
    (∀ rest, (s.ch q).queue = r :: rest → ∃ s1, processQueue c s q ok = some (s1, [.unwait q r.id]) ∧
      (r.id, false) ∈ (s1.ch q).finished) := by
  have hfs := fetchStatus_failed (post := post) hp hf
  rw [← hk] at hfs
  refine ⟨fun hr => ?_, fun data hr => ?_, fun rest hq => ?_⟩
  · unfold addRead
    obtain ⟨id, off, cnt, out⟩ := r
    simp only at hr; subst hr
    simp only [hfs]
  · unfold addWrite
    obtain ⟨id, off, cnt, out⟩ := r
    simp only at hr; subst hr
    simp only [hfs]
  · unfold processQueue
    rw [hq]
    simp only [hfs]
    exact ⟨_, rfl, by simp [finishFalse, Sys.setCh]⟩

/-- **C11** An error entry is reported to the guest as a failure. -/
theorem C11_error_reported (hb : Bootable c hdrs mv) (h : Run c (Sys.boot c hdrs tv mv b0) ls s) {q id : Nat} {ok : Bool}
    (hf : (id, ok) ∈ (s.ch q).finished) : ok = false := by
  obtain ⟨-, hfam⟩ := run_sim hb rfl h
  obtain ⟨gg, d, hpin, -, hsim⟩ := hfam.sim
  exact (hsim.fin q id ok hf).1

/-- **C11** No request that touches a stripe that is not local is served from the local disk. -/
theorem C11_served_only_local (hb : Bootable c hdrs mv) (h : Run c (Sys.boot c hdrs tv mv b0) ls s)
    (hst : Step c s a ls' s') {q : Nat} {r : QReq D} (hl : Lab.toBase q r ∈ ls') {x : Nat} (hx : covers r.off r.cnt x) :
    s.sh.isLocal (x / c.ss) = true :=
  (step_labOk ((Sound.boot hb).run h) hst _ hl).2.1 _ (covers_stripes hx)

/-- The demo volume with stripe 0 queued for its next read and request 7 waiting for it. -/
structure Retrying (s : Sys Nat) (n : Nat) : Prop where
  queue : s.fe.queue = [0]
  free : ∃ b f, s.fe.free = b :: f
  retries : s.fe.retries 0 = n
  ch : (s.ch 0).queue = [demoWrite] ∧ (s.ch 0).finished = []

theorem Retrying.step {s : Sys Nat} {n : Nat} (h : Retrying s n) (hn : n < 3) :
    ∃ s', Step demoCfg s (.startFetch false) [.sourceRead 0] s' ∧ Retrying s' (n + 1) := by
  obtain ⟨b, f, hf⟩ := h.free
  refine ⟨_, Step.startFetch _ false _ _ (by
    unfold startFetch
    simp only [h.queue, hf, Bool.and_false, Bool.false_eq_true, if_false]
    unfold fetchCompleted Fetcher.release
    simp only [upd_same, Bool.false_eq_true, if_false, h.retries, maxRetries, if_pos hn]; rfl), ?_⟩
  refine ⟨rfl, ?_, by simp, h.ch⟩
  cases f with
  | nil => exact ⟨b, [], rfl⟩
  | cons x f => exact ⟨x, f ++ [b], rfl⟩

theorem Retrying.last {s : Sys Nat} (h : Retrying s 3) :
    ∃ s', Step demoCfg s (.startFetch false) [.sourceRead 0, .fetchFailed 0] s' ∧ s'.sh.fs 0 = .failed ∧ s'.fe.states 0 = none ∧
      (s'.ch 0).queue = [demoWrite] ∧ (s'.ch 0).finished = [] := by
  obtain ⟨b, f, hf⟩ := h.free
  refine ⟨_, Step.startFetch _ false _ _ (by
    unfold startFetch
    simp only [h.queue, hf, Bool.and_false, Bool.false_eq_true, if_false]
    unfold fetchCompleted Fetcher.release
    simp only [upd_same, Bool.false_eq_true, if_false, h.retries, maxRetries, Nat.lt_irrefl]; rfl), ?_⟩
  exact ⟨by simp [Shared.setFailed], by simp, h.ch⟩

/-- A concrete run in which the source fails four times: the stripe is given up and the waiting write fails. -/
theorem demo_failed (mv : Nat → Bytes) : ∃ s ls, Run demoCfg (demoBoot mv) ls s ∧ sourceReads 0 ls = 4 ∧ enqueues 0 ls = 1 ∧
    givenUp 0 ls = 1 ∧ visible ls = [.issue 0 7 (.write 1 1 fun _ => 55), .resp 0 7 false []] ∧ s.sh.fs 0 = .failed ∧
    s.fe.states 0 = none := by
  have r := Run.nil (c := demoCfg) (demoBoot mv)
  have r := r.step (Step.write _ 0 7 1 1 (fun _ => 55) true ⟨by decide, by decide, by decide⟩
    ⟨rfl, rfl, (by intro r hr; cases hr), (by intro r hr; cases hr)⟩)
  have r := r.step (Step.receiveFetch _ 0 [.setWritten 0] rfl)
  have r : ∃ s, Run demoCfg (demoBoot mv) [.ev (.issue 0 7 (.write 1 1 fun _ => 55)), .wait 0 7, .enqueue 0] s ∧ Retrying s 0 :=
    ⟨_, r, rfl, ⟨0, _, rfl⟩, rfl, rfl, rfl⟩
  obtain ⟨s, r, h⟩ := r
  obtain ⟨s1, t1, h1⟩ := h.step (by decide)
  obtain ⟨s2, t2, h2⟩ := h1.step (by decide)
  obtain ⟨s3, t3, h3⟩ := h2.step (by decide)
  obtain ⟨s4, t4, h4, h5, h6, h7⟩ := h3.last
  have hst : stripes demoCfg demoWrite = [0] := by decide
  have r := r.step t1 |>.step t2 |>.step t3 |>.step t4
  have r := r.step (Step.processQueue _ 0 true (finishFalse (s4.setCh 0 fun ch => { ch with queue := [] }) 0 7) [.unwait 0 7] (by
    unfold processQueue; rw [h6]; simp only [hst, fetchStatus, h4]; rfl))
  have r := r.step (Step.reportFinished _ 0 7 false [] (by simp [finishFalse, Sys.setCh, h7]))
  exact ⟨_, _, r, by rfl, by rfl, by rfl, by rfl, h4, h5⟩

/-- **C12** At most sixteen stripes are being copied, each with a buffer of its own, and the buffers on the free list
are exactly those no copy uses. -/
theorem C12_sixteen_exclusive_buffers (hb : Bootable c hdrs mv) (h : Run c (Sys.boot c hdrs tv mv b0) ls s) :
    (∀ ks : List Nat, ks.Nodup → (∀ k ∈ ks, copying s k) → ks.length ≤ 16) ∧
    (∀ k, copying s k ↔ ∃ b, s.fe.alloc k = some b) ∧
    (∀ k k' b, s.fe.alloc k = some b → s.fe.alloc k' = some b → k = k') ∧
    s.fe.free.Nodup ∧ (∀ b, b ∈ s.fe.free ↔ b < 16 ∧ ∀ k, s.fe.alloc k ≠ some b) := by
  have hs := (Sound.boot (tv := tv) (b0 := b0) hb).run h
  have hp := h.pool (Sound.boot hb) .boot
  refine ⟨fun ks hn hk => ?_, fun k => ?_, hp.inj, hp.nodup, fun b => ⟨fun hm => ⟨hp.bound b hm, fun k hk => ?_⟩, fun hm => ?_⟩⟩
  · have := hp.count ks hn (fun k hkm => (hs.copying k).1 (hk k hkm))
    have : maxFetches = 16 := rfl
    omega
  · rw [hs.copying k, Option.ne_none_iff_exists']
  · exact (hp.abound k b hk).2 hm
  · rcases hp.cover b hm.1 with h1 | ⟨k, hk⟩
    · exact h1
    · exact absurd hk (hm.2 k)

/-- A reachable state with a copy in flight. -/
example : ∃ mv s ls, Bootable demoCfg [4, 0] mv ∧ Run demoCfg (demoBoot mv) ls s ∧ copying s 0 ∧ s.fe.free.length = 15 := by
  obtain ⟨mv, hb⟩ := demo_bootable
  have r := Run.nil (c := demoCfg) (demoBoot mv)
  have r := r.step (Step.write _ 0 7 1 1 (fun _ => 55) true ⟨by decide, by decide, by decide⟩
    ⟨rfl, rfl, (by intro r hr; cases hr), (by intro r hr; cases hr)⟩)
  have r := r.step (Step.receiveFetch _ 0 [.setWritten 0] rfl)
  have r := r.step (Step.startFetch _ true _ _ rfl)
  exact ⟨mv, _, _, hb, r, Or.inl rfl, rfl⟩

/-- **C13** At most one update per metadata sector is in flight, and at most sixteen writes. -/
theorem C13_updates_serialised (hb : Bootable c hdrs mv) (h : Run c (Sys.boot c hdrs tv mv b0) ls s) :
    (∀ k k', s.m.ops k ≠ none → s.m.ops k' ≠ none → stripeIdToSector k = stripeIdToSector k' → k = k') ∧
    (∀ ks : List Nat, ks.Nodup → (∀ k ∈ ks, ∃ off cnt data done, s.m.ops k = some (.write off cnt data done)) → ks.length ≤ 16) := by
  have hs := (Sound.boot (tv := tv) (b0 := b0) hb).run h
  have hfl := h.flInv (Sound.boot hb) .boot
  obtain ⟨⟨⟨_, _, hb', hm⟩, -⟩, -⟩ := hs
  have hupd : ∀ k, s.m.ops k ≠ none → ∃ u, s.fl.updates k = some u ∧ UpdOk c s k u := by
    intro k hk
    cases hu : s.fl.updates k with
    | none => exact absurd (hm.noupd k hu) hk
    | some u => exact ⟨u, rfl, hm.upd k u hu⟩
  refine ⟨fun k k' h1 h2 he => ?_, fun ks hn hk => ?_⟩
  · obtain ⟨u, g1, g2⟩ := hupd k h1
    obtain ⟨u', g3, g4⟩ := hupd k' h2
    exact hm.uniq k u k' u' g1 g3 (by rw [g2.sector, g4.sector, he])
  · have h1 := cnt_list (n := c.n) (fun k => isWriting (s.fl.updates k)) ks hn (fun k hkm => by
      obtain ⟨off, n, data, done, ho⟩ := hk k hkm
      obtain ⟨u, g1, g2⟩ := hupd k (by rw [ho]; simp)
      refine ⟨g2.kn, ?_⟩
      have hst := g2.stage
      simp only [g1, isWriting_some, decide_eq_true_eq]
      unfold StageOk at hst
      split at hst
      · assumption
      · obtain ⟨snap, hsn, -⟩ := hst
        rw [ho] at hsn; simp at hsn)
    unfold FlInv at hfl
    have : maxChanges = 16 := rfl
    omega

/-- **C13** A flag once visible (the stripe counts as local, or as written) stays durable for ever: whatever happens
later, failed updates of other stripes and power losses included. -/
theorem C13_flags_stay (hb : Bootable c hdrs mv) (h : Run c (Sys.boot c hdrs tv mv b0) ls s) (h' : Run c s ls' s') {k : Nat}
    (hk : k < c.n) :
    (c.hs k = true → s.sh.isLocal k = true → FlagDurable c s' k FETCHED ∧ s'.sh.isLocal k = true) ∧
    (s.sh.ws k = true → FlagDurable c s' k WRITTEN ∧ s'.sh.ws k = true) := by
  have hs := (Sound.boot (tv := tv) (b0 := b0) hb).run h
  have hs' := hs.run h'
  refine ⟨fun h1 h2 => ?_, fun h1 => ?_⟩
  · have := h'.local hs k h2
    exact ⟨fetched_durable hs' hk h1 this, this⟩
  · have := h'.written hs hk h1
    exact ⟨written_durable hs' hk this, this⟩

/-- Both flags become visible in the demo run. -/
example : ∃ mv s ls, Bootable demoCfg [4, 0] mv ∧ Run demoCfg (demoBoot mv) ls s ∧ 0 < demoCfg.n ∧ demoCfg.hs 0 = true ∧
    s.sh.isLocal 0 = true ∧ s.sh.ws 0 = true := by
  obtain ⟨mv, hb⟩ := demo_bootable
  obtain ⟨s, ⟨ls, r, -⟩, h1, h2, -⟩ := demo_run mv
  exact ⟨mv, s, ls, hb, r, by decide, rfl, by simp [Shared.isLocal, h1], h2⟩

/-- **C14** Once the disk has disconnected from its source, every stripe with a source is local and stays so, and no
later step reads the source, power losses included; every request is served from the local disk. The hypothesis says
that the metadata at the start mark as fetched only stripes with a source (as formatting and the flusher leave them). -/
theorem C14_disconnect (hb : Bootable c hdrs mv)
    (h0 : ∀ k, k < c.n → flag (hdrs.getD k 0) FETCHED = true → flag (hdrs.getD k 0) HAS_SOURCE = true)
    (h : Run c (Sys.boot c hdrs tv mv b0) ls s) (hd : s.fe.disconnected = true) (h' : Run c s ls' s') :
    (∀ k, k < c.n → c.hs k = true → s.sh.isLocal k = true ∧ s'.sh.isLocal k = true) ∧
    (∀ k, Lab.sourceRead k ∉ ls') ∧
    ∀ r : QReq D, c.validReq r.off r.cnt → fetchStatus s'.sh (stripes c r) = .complete := by
  have hs := (Sound.boot (tv := tv) (b0 := b0) hb).run h
  have hf := h.fsInv (Sound.boot hb) (.boot hb (fun k hk hf => by rw [hb.hs]; exact h0 k hk hf))
  have hal : AllLocal c s := fun k hk hh => by simp [Shared.isLocal, hf.disc hd k hk hh]
  obtain ⟨hal', hno⟩ := hal.no_copies hs h'
  refine ⟨fun k hk hh => ⟨hal k hk hh, hal' k hk hh⟩, fun k hm => hno k _ hm rfl, fun r hv => fetchStatus_local fun j hj => ?_⟩
  exact hal'.all (hs.run h') (stripe_bound hv hj)

/-- The demo volume disconnects after its only source stripe was fetched. -/
example : ∃ mv s ls, Bootable demoCfg [4, 0] mv ∧ Run demoCfg (demoBoot mv) ls s ∧ s.fe.disconnected = true := by
  obtain ⟨mv, hb⟩ := demo_bootable
  obtain ⟨s, ⟨ls, r, -⟩, h1, h2, -⟩ := demo_run mv
  have hd : demoCfg.hs 0 = true := rfl
  -- the state after the run is idle; restart it to have a computable one
  obtain ⟨⟨⟨_, _, hb1, hm⟩, hf⟩, hfam⟩ := run_sim hb rfl r
  obtain ⟨gg, a, hpin, -, hsim⟩ := hfam.sim
  obtain ⟨md, hld, hbt, hh⟩ := reload hb1 hm hm.dev.vol_pers
  have r2 := Run.crash (fun _ _ => 0) r hsim.tinv.vol_pers hm.dev.vol_pers hld
  have hfs := (Sound.boot (tv := fun x => x) (b0 := fun _ _ => 0) hb)
  have hi := r2.fsInv hfs (.boot hb (by intro k hk; have : k = 0 ∨ k = 1 := by (have : k < 2 := hk); omega
                                        rcases this with rfl | rfl <;> decide))
  have hloc : ∀ k, k < 2 → demoCfg.hs k = true → (Sys.boot demoCfg md.headers s.t.vol s.m.vol fun _ _ => 0).sh.fs k = .fetched := by
    intro k hk hs
    have : k = 0 := by simp [demoCfg] at hs; omega
    subst this
    have h3 := r2.fetched hfs
    show loadFs (md.headers.getD 0 0) = .fetched
    unfold loadFs
    rw [(hh 0 (by decide)).src, (hh 0 (by decide)).fetched h1]; rfl
  have hcnt : (Sys.boot demoCfg md.headers s.t.vol s.m.vol fun _ _ => 0).sh.source =
      (Sys.boot demoCfg md.headers s.t.vol s.m.vol fun _ _ => 0).sh.fetched := by
    rw [hi.source, hi.fetched]
    apply cnt_congr
    intro k hk
    cases hs : demoCfg.hs k with
    | true => rw [hloc k hk hs]; rfl
    | false =>
      have := fun h => hi.fs k h
      rw [hs] at this
      simp only [Bool.false_eq_true, imp_false] at this
      simp [this]
  have r3 := r2.step (Step.disconnect _ rfl rfl hcnt)
  exact ⟨mv, _, _, hb, r3, rfl⟩

/-- What `status` reports of a running volume: fetched and source stripes (metadata/status_report.rs:5-40). -/
def report (s : Sys D) : Nat × Nat := (s.sh.fetched, s.sh.source)

/-- **C15** The number of fetched stripes reported is the number of source stripes that are local; it never
decreases, and never exceeds the number of source stripes, which is constant. -/
theorem C15_status_monotone (hb : Bootable c hdrs mv)
    (h0 : ∀ k, k < c.n → flag (hdrs.getD k 0) FETCHED = true → flag (hdrs.getD k 0) HAS_SOURCE = true)
    (h : Run c (Sys.boot c hdrs tv mv b0) ls s) (h' : Run c s ls' s') :
    (report s).1 = ((List.range c.n).filter fun k => c.hs k && s.sh.isLocal k).length ∧
    (report s).2 = ((List.range c.n).filter c.hs).length ∧
    (report s).1 ≤ (report s).2 ∧ (report s).1 ≤ (report s').1 ∧ (report s').2 = (report s).2 := by
  have hs := (Sound.boot (tv := tv) (b0 := b0) hb).run h
  have hf := h.fsInv (Sound.boot hb) (.boot hb (fun k hk hf => by rw [hb.hs]; exact h0 k hk hf))
  have hf' := h'.fsInv hs hf
  simp only [report]
  refine ⟨?_, ?_, ?_, ?_, ?_⟩
  · rw [hf.fetched, ← List.countP_eq_length_filter]
    apply cnt_congr
    intro k hk
    obtain ⟨gg, a, hsim⟩ := hs.sim
    cases hc : c.hs k with
    | false =>
      have := fun h => hf.fs k h
      rw [hc] at this
      simp only [Bool.false_eq_true, imp_false] at this
      simp [this]
    | true =>
      have : s.sh.fs k ≠ .noSource := fun hn => by
        have := (hsim.nosrc k).1 hn
        rw [hc] at this; simp at this
      simp [Shared.isLocal, this]
  · rw [hf.source, ← List.countP_eq_length_filter]; rfl
  · rw [hf.fetched, hf.source]
    exact cnt_mono fun k _ hk => hf.fs k (by simpa using hk)
  · rw [hf.fetched, hf'.fetched]
    exact cnt_mono fun k hk hkf => by
      have := h'.fetched hs hf hk (by simpa using hkf)
      simpa using this
  · rw [hf.source, hf'.source]

/-- The counter moves in the demo: 0 of 1 at the start, 1 of 1 at the end. -/
example : ∃ mv s ls, Bootable demoCfg [4, 0] mv ∧ Run demoCfg (demoBoot mv) ls s ∧ report (demoBoot mv) = (0, 1) ∧ report s = (1, 1) := by
  obtain ⟨mv, hb⟩ := demo_bootable
  obtain ⟨s, ⟨ls, r, -⟩, h1, h2, -⟩ := demo_run mv
  have h0 : ∀ k, k < demoCfg.n → flag (([4, 0] : Bytes).getD k 0) FETCHED = true → flag (([4, 0] : Bytes).getD k 0) HAS_SOURCE = true := by
    intro k hk
    have : k = 0 ∨ k = 1 := by (have : k < 2 := hk); omega
    rcases this with rfl | rfl <;> decide
  obtain ⟨e1, e2, e3, -, -⟩ := C15_status_monotone hb h0 r (Run.nil s)
  refine ⟨mv, s, ls, hb, r, rfl, Prod.ext ?_ ?_⟩
  · rw [e1]
    have : demoCfg.n = 2 := rfl
    rw [this]
    simp [List.range_succ, demoCfg, Shared.isLocal, h1]
  · rw [e2]; decide

/-- **C18** Between power losses, the requests of a queue that had to wait stop waiting (are handed to the data device
or fail) in the order in which they started to wait; those still waiting are the last ones. -/
theorem C18_fifo (hb : Bootable c hdrs mv) (h : Run c (Sys.boot c hdrs tv mv b0) ls s) (hc : Lab.ev .crash ∉ ls) (q : Nat) :
    waits q ls = unwaits q ls ++ (s.ch q).queue.map QReq.id := by
  have := h.fifo (Sound.boot hb) hc q
  simpa [queueIds, Sys.boot] using this

/-- **C18** In the step in which a request stops waiting, it (and no other) is handed to the data device, or gets an
error. -/
theorem C18_unwait_is_service (hst : Step c s a ls' s') {q id : Nat} (hl : Lab.unwait q id ∈ ls') :
    ∃ r rest, (s.ch q).queue = r :: rest ∧ r.id = id ∧ (s'.ch q).queue = rest ∧
      (ls' = [.unwait q id, .toBase q r] ∨ (ls' = [.unwait q id] ∧ (id, false) ∈ (s'.ch q).finished)) := by
  have henq : ∀ (s : Sys D) q' r b, Lab.unwait q id ∉ (enqueueReq c s q' r b).2 := by
    intro s q' r b; rw [enqueueReq_labs]; split <;> simp
  have hfc : ∀ (s : Sys D) k ok, Lab.unwait q id ∉ (fetchCompleted s k ok).2 := by
    intro s k ok
    unfold fetchCompleted
    simp only
    split
    · simp
    · split <;> simp
  have hhf : ∀ (s : Sys D) k, Lab.unwait q id ∉ (handleFetch s k).2 := by
    intro s k
    unfold handleFetch
    split
    · simp
    · split <;> simp
  cases hst with
  | read q' i off n b hv hg hid =>
    exfalso
    simp only [List.mem_cons, reduceCtorEq, false_or] at hl
    unfold addRead at hl
    simp only at hl
    split at hl
    · simp at hl
    · simp at hl
    · split at hl
      · simp at hl
      · exact henq _ _ _ _ hl
  | write q' i off n data b hv hid =>
    exfalso
    simp only [List.mem_cons, reduceCtorEq, false_or] at hl
    unfold addWrite at hl
    simp only at hl
    split at hl
    · simp at hl
    · split at hl
      · simp at hl
      · exact henq _ _ _ _ hl
    · exact henq _ _ _ _ hl
  | processQueue q' b _ _ h =>
    unfold processQueue at h
    split at h
    · simp at h
    · rename_i r rest hq
      split at h
      · simp at h
      · simp only [Option.some.injEq, Prod.mk.injEq] at h
        obtain ⟨rfl, rfl⟩ := h
        simp only [List.mem_singleton, Lab.unwait.injEq] at hl
        obtain ⟨rfl, rfl⟩ := hl
        exact ⟨r, rest, hq, rfl, by simp [finishFalse, Sys.setCh], Or.inr ⟨rfl, by simp [finishFalse, Sys.setCh]⟩⟩
      · split at h
        · simp at h
        · simp only at h
          split at h
          · simp only [Option.some.injEq, Prod.mk.injEq] at h
            obtain ⟨rfl, rfl⟩ := h
            simp only [List.mem_cons, Lab.unwait.injEq, reduceCtorEq, List.not_mem_nil, or_false] at hl
            obtain ⟨rfl, rfl⟩ := hl
            exact ⟨r, rest, hq, rfl, by rw [toBase_ch]; simp [Sys.setCh], Or.inl rfl⟩
          · simp only [Option.some.injEq, Prod.mk.injEq] at h
            obtain ⟨rfl, rfl⟩ := h
            simp only [List.mem_singleton, Lab.unwait.injEq] at hl
            obtain ⟨rfl, rfl⟩ := hl
            exact ⟨r, rest, hq, rfl, by simp [finishFalse, Sys.setCh], Or.inr ⟨rfl, by simp [finishFalse, Sys.setCh]⟩⟩
  | receiveFetch k ms hms => exact absurd hl (hhf _ _)
  | autofetch k ks ha hq h => exact absurd hl (hhf _ _)
  | startFetch b _ _ h =>
    exfalso
    unfold startFetch at h
    split at h
    · simp only at h
      split at h
      · simp only [Option.some.injEq, Prod.mk.injEq] at h
        obtain ⟨-, rfl⟩ := h
        simp at hl
      · simp only [Option.some.injEq, Prod.mk.injEq] at h
        obtain ⟨-, rfl⟩ := h
        simp only [List.mem_cons, reduceCtorEq, false_or] at hl
        exact hfc _ _ _ hl
    · simp at h
  | sourceDone k ok b g _ _ h =>
    exfalso
    unfold sourceDone at h
    split at h
    · simp only at h
      split at h
      · simp only [Option.some.injEq, Prod.mk.injEq] at h
        obtain ⟨-, rfl⟩ := h
        simp at hl
      · split at h
        · split at h
          · simp only [Option.some.injEq, Prod.mk.injEq] at h
            obtain ⟨-, rfl⟩ := h
            simp at hl
          · simp only [Option.some.injEq] at h
            have h2 := (Prod.ext_iff.mp h).2
            simp only at h2
            rw [← h2] at hl; exact hfc _ _ _ hl
        · simp only [Option.some.injEq] at h
          have h2 := (Prod.ext_iff.mp h).2
          simp only at h2
          rw [← h2] at hl; exact hfc _ _ _ hl
    · simp at h
  | targetDone k ok b h =>
    exfalso
    unfold targetDone at hl
    simp only at hl
    split at hl
    · split at hl
      · split at hl
        · simp at hl
        · exact hfc _ _ _ hl
      · exact hfc _ _ _ hl
      · simp at hl
    · exact hfc _ _ _ hl
  | flush | reportFinished | baseDone | imageDone | execData | execMeta | receiveWritten | takeFinished | startMeta | metaDone | disconnect =>
    simp at hl

theorem mem_visible {e : Ev D} {ls : List (Lab D)} (h : Lab.ev e ∈ ls) : e ∈ visible ls := by
  induction ls with
  | nil => simp at h
  | cons l ls ih =>
    rcases List.mem_cons.mp h with rfl | h'
    · simp [visible]
    · cases l <;> simp [visible, ih h']

/-- The demo run has a wait and its end: request 7 stops waiting in its last step. -/
example : ∃ mv s ls, Bootable demoCfg [4, 0] mv ∧ Run demoCfg (demoBoot mv) ls s ∧ Lab.ev .crash ∉ ls ∧
    7 ∈ unwaits 0 ls ∧ 7 ∈ waits 0 ls := by
  obtain ⟨mv, hb⟩ := demo_bootable
  obtain ⟨s, ⟨ls, r, hv⟩, -, -, -, -, -, -, -, -, h⟩ := demo_local mv
  have hc : Lab.ev .crash ∉ ls ++ [.unwait 0 7, .toBase 0 demoWrite] := by
    intro hm
    rcases List.mem_append.mp hm with hm | hm
    · have := mem_visible hm
      rw [hv] at this
      simp at this
    · simp at hm
  have hu : 7 ∈ unwaits 0 (ls ++ [.unwait 0 7, .toBase 0 demoWrite]) := by simp [unwaits]
  exact ⟨mv, _, _, hb, r.step h, hc, hu, by rw [C18_fifo hb (r.step h) hc 0]; exact List.mem_append_left _ hu⟩

end Verif.Lazy
