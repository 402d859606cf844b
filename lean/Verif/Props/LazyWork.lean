import Verif.Proof.LazyWork
import Verif.Proof.LazyDemo

/-! # C70: the backend never spins, and comes to rest only with everything answered

Whatever the interleaving and whatever fails (the source, the data disk, the metadata disk, refused submissions), the number of steps
taken since the backend started is bounded by the size of the image and of the requests issued, so retries and polling cannot go on for
ever. And as long as no metadata update is lost (see C16), a backend that has no step left to take has answered every request, and a
request is answered in every run that goes on until no step is left. -/

set_option maxRecDepth 8000

namespace Verif.Lazy
open Verif Verif.Metadata Verif.Disk

variable {D : Type} {c : Cfg D} {hdrs hdrs' : Bytes} {tv tv' : Nat → D} {mv mv' : Nat → Bytes} {b0 b0' : Nat → Nat → D}
  {s s' : Sys D} {ls ls' l1 l2 l3 : List (Lab D)} {n m : Nat}

/-- **C70, bounded work.** Take any history `l1` of the volume up to a start of the backend. After that the backend and its devices take
at most `(4 * stripe size + 32) * (stripes of the image) + 1` steps on their own account and, for each request, a number of steps
proportional to its size. Only transfers that repeat what the device has already done are not counted. -/
theorem C70_work_bounded (hb : Bootable c hdrs mv) (h1 : Run c (Sys.boot c hdrs tv mv b0) l1 (Sys.boot c hdrs' tv' mv' b0'))
    (h : Counted c (Sys.boot c hdrs' tv' mv' b0') n ls s) : n ≤ (4 * c.ss + 32) * c.srcStripes + 1 + effort c (visible ls) := by
  obtain ⟨I, hI, hi⟩ := exists_nodup (issues (visible (l1 ++ ls)))
  obtain ⟨Q, hQ, hq⟩ := exists_nodup ((issues (visible (l1 ++ ls))).map (·.1))
  have := counted_bound hb h1 hQ hI rfl h fun q id r hr =>
    ⟨hq _ (List.mem_map.mpr ⟨_, mem_issues hr, rfl⟩), hi _ (mem_issues hr)⟩
  omega

theorem Counted.trans {s'' : Sys D} (h : Counted c s n ls s') (h' : Counted c s' m ls' s'') : Counted c s (n + m) (ls ++ ls') s'' := by
  induction h' with
  | nil => simpa using h
  | useful _ hst hu ih => rw [← List.append_assoc, ← Nat.add_assoc]; exact .useful ih hst hu
  | idle _ hst hu ih => rw [← List.append_assoc]; exact .idle ih hst hu

theorem Alive.counted (h : Alive c s ls s') : ∃ n, Counted c s n ls s' := by
  induction h with
  | nil => exact ⟨0, .nil _⟩
  | @step s1 s2 l l' a _ hst ih =>
    obtain ⟨n, hn⟩ := ih
    by_cases hu : a.useful s1
    · exact ⟨n + 1, .useful hn hst hu⟩
    · exact ⟨n, .idle hn hst hu⟩

theorem effort_quiet {es : List (Ev D)} (h : noIssue es) : effort c es = 0 := by
  induction es with
  | nil => rfl
  | cons e es ih =>
    have := ih fun q id r hr => h q id r (by simp [hr])
    cases e with
    | issue q id r => exact absurd (by simp) (h q id r)
    | resp => simpa [effort] using this
    | crash => simpa [effort] using this

/-- **C70, no endless work.** From every state the backend can reach, the number of steps it can still take before the guest issues
another request is bounded. -/
theorem C70_quiet_work_bounded (hb : Bootable c hdrs mv) (h1 : Run c (Sys.boot c hdrs tv mv b0) l1 (Sys.boot c hdrs' tv' mv' b0'))
    (h2 : Alive c (Sys.boot c hdrs' tv' mv' b0') l2 s) (h3 : Counted c s m l3 s') (hq : noIssue (visible l3)) :
    m ≤ (4 * c.ss + 32) * c.srcStripes + 1 + effort c (visible l2) := by
  obtain ⟨n, hn⟩ := h2.counted
  have := C70_work_bounded hb h1 (hn.trans h3)
  rw [visible_append, effort_append, effort_quiet hq] at this
  omega

theorem visible_addRead (s : Sys D) (q id off cnt : Nat) (b : Bool) : visible (addRead c s q id off cnt b).2 = [] := by
  unfold addRead
  simp only
  split
  · rfl
  · rfl
  · split
    · rfl
    · exact visible_enqueueReq

theorem visible_addWrite (s : Sys D) (q id off cnt : Nat) (data : Nat → D) (b : Bool) : visible (addWrite c s q id off cnt data b).2 = [] := by
  unfold addWrite
  simp only
  split
  · rfl
  · split
    · rfl
    · exact visible_enqueueReq
  · exact visible_enqueueReq

theorem visible_processQueue {q : Nat} {b : Bool} (h : processQueue c s q b = some (s', ls)) : visible ls = [] := by
  unfold processQueue at h
  split at h
  · simp at h
  · split at h
    · simp at h
    · simp only [Option.some.injEq, Prod.mk.injEq] at h; rw [← h.2]; rfl
    · split at h
      · simp at h
      · simp only at h
        split at h
        · simp only [Option.some.injEq, Prod.mk.injEq] at h; rw [← h.2]; rfl
        · simp only [Option.some.injEq, Prod.mk.injEq] at h; rw [← h.2]; rfl

theorem step_visible {a : Act D} (h : Step c s a ls s') : Ev.crash ∉ visible ls ∧ (a.isIssue = false → noIssue (visible ls)) := by
  by_cases hg : a.isGuest = true
  · cases h with
    | read q id off cnt b hv hg' hid => exact ⟨by simp [visible, visible_addRead], by simp [Act.isIssue]⟩
    | write q id off cnt data b hv hid => exact ⟨by simp [visible, visible_addWrite], by simp [Act.isIssue]⟩
    | flush q id hid => exact ⟨by simp [visible], by simp [Act.isIssue]⟩
    | processQueue q b _ _ h => rw [visible_processQueue h]; exact ⟨by simp, fun _ => noIssue_nil⟩
    | reportFinished q id ok rest h => exact ⟨by simp [visible], fun _ => noIssue_resp _ _ _ _⟩
    | baseDone q id ok h => exact ⟨by simp [visible], fun _ => noIssue_resp _ _ _ _⟩
    | imageDone q id ok off cnt h => exact ⟨by simp [visible], fun _ => noIssue_resp _ _ _ _⟩
    | _ => simp [Act.isGuest] at hg
  · rw [(worker_step h (by simpa using hg)).1]
    exact ⟨by simp, fun _ => noIssue_nil⟩

theorem Steady.no_crash (h : Steady c s ls s') : Ev.crash ∉ visible ls := by
  induction h with
  | nil => simp [visible]
  | step _ hst _ ih =>
    rw [visible_append]
    intro hm
    rcases List.mem_append.mp hm with hm | hm
    · exact ih hm
    · exact (step_visible hst).1 hm

/-- **C70, rest.** A backend that has lost no metadata update since its start and has nothing left to do has answered every request. -/
theorem C70_rest_all_answered (hb : Bootable c hdrs mv) (h1 : Run c (Sys.boot c hdrs tv mv b0) l1 (Sys.boot c hdrs' tv' mv' b0'))
    (h2 : Steady c (Sys.boot c hdrs' tv' mv' b0') l2 s) (hrest : Resting c s) (q id : Nat) : ¬ waiting q id (visible l2) := by
  intro hw
  have hs0 : Sound c (Sys.boot c hdrs' tv' mv' b0') := (Sound.boot hb).run h1
  have hr : Ready c s := (Ready.boot hs0).run h2
  obtain ⟨-, hfam⟩ := run_sim hb rfl (h1.trans h2.alive.run)
  obtain ⟨gg, ab, hpin, hd, hsim⟩ := hfam.sim
  have ho := waiting_ops hd (Steady.visible_waiting (l1 := l1) hw)
  rcases hsim.free q id (locs_zero.mpr (hrest.free hr q id)) with h | h
  · exact ho h
  · simp at h

/-- **C70, every schedule.** A request waiting in a state that lost no metadata update is answered in every continuation that loses none
either and goes on until nothing is left to do, whatever the order of its steps and whatever else fails. -/
theorem C70_every_schedule_answers (hb : Bootable c hdrs mv) (h1 : Run c (Sys.boot c hdrs tv mv b0) l1 (Sys.boot c hdrs' tv' mv' b0'))
    (h2 : Steady c (Sys.boot c hdrs' tv' mv' b0') l2 s) {q id : Nat} (hw : waiting q id (visible l2)) (h3 : Steady c s l3 s')
    (hrest : Resting c s') : answeredIn q id (visible l3) := by
  refine Classical.byContradiction fun hn => C70_rest_all_answered hb h1 (h2.trans h3) hrest q id ?_
  obtain ⟨a, b, r, h4, h5⟩ := hw
  refine ⟨a, b ++ visible l3, r, by rw [visible_append, h4]; simp, fun e he => ?_⟩
  rcases List.mem_append.mp he with he | he
  · exact h5 e he
  · refine ⟨fun hr => ?_, fun hc => h3.no_crash (hc ▸ he)⟩
    cases e with
    | issue => simp [Ev.isResp] at hr
    | resp q' id' ok x =>
      simp [Ev.isResp] at hr
      obtain ⟨rfl, rfl⟩ := hr
      exact hn ⟨ok, x, he⟩
    | crash => simp [Ev.isResp] at hr

/-- **C70, rest is reached.** Every such state has such a continuation in which the guest issues nothing. -/
theorem C70_rest_reached (hb : Bootable c hdrs mv) (h1 : Run c (Sys.boot c hdrs tv mv b0) l1 (Sys.boot c hdrs' tv' mv' b0'))
    (h2 : Steady c (Sys.boot c hdrs' tv' mv' b0') l2 s) : ∃ l3 s', Steady c s l3 s' ∧ noIssue (visible l3) ∧ Resting c s' := by
  suffices ∀ N m l s1, Steady c s l s1 → noIssue (visible l) → Counted c s m l s1 →
      (4 * c.ss + 32) * c.srcStripes + 1 + effort c (visible l2) ≤ m + N → ∃ l3 s', Steady c s l3 s' ∧ noIssue (visible l3) ∧ Resting c s' from
    this _ 0 [] s (.nil s) noIssue_nil (.nil s) (Nat.le_add_left _ _)
  intro N
  induction N with
  | zero =>
    intro m l s1 hs hq hc hN
    refine ⟨l, s1, hs, hq, fun a l' s2 hst hi hl hu => ?_⟩
    have := C70_quiet_work_bounded hb h1 h2.alive (hc.useful hst hu) (by rw [visible_append]; exact hq.append ((step_visible hst).2 hi))
    omega
  | succ N ih =>
    intro m l s1 hs hq hc hN
    by_cases hr : Resting c s1
    · exact ⟨l, s1, hs, hq, hr⟩
    · unfold Resting at hr
      simp only [Classical.not_forall, Classical.not_not] at hr
      obtain ⟨a, l', s2, hst, hi, hl, hu⟩ := hr
      exact ih (m + 1) _ s2 (.step hs hst hl) (by rw [visible_append]; exact hq.append ((step_visible hst).2 hi)) (hc.useful hst hu) (by omega)

/-- A concrete case: a write waits for a stripe to be fetched; the backend has work, can finish it, and the bound is a number. -/
example : ∃ (mv : Nat → Bytes) (l2 : List (Lab Nat)) (s : Sys Nat), Bootable demoCfg [4, 0] mv ∧
    Run demoCfg (demoBoot mv) [] (demoBoot mv) ∧ Steady demoCfg (demoBoot mv) l2 s ∧ waiting 0 7 (visible l2) ∧
    (∃ l s', Counted demoCfg (demoBoot mv) 3 l s') ∧ ¬ Resting demoCfg s ∧
    (∃ l3 s', Steady demoCfg s l3 s' ∧ noIssue (visible l3) ∧ Resting demoCfg s' ∧ answeredIn 0 7 (visible l3)) := by
  obtain ⟨mv, hb⟩ := demo_bootable
  have st := Step.write (c := demoCfg) (demoBoot mv) 0 7 1 1 (fun _ => 55) true ⟨by decide, by decide, by decide⟩
    ⟨rfl, rfl, (by intro r hr; cases hr), (by intro r hr; cases hr)⟩
  have hs := Steady.one st rfl
  have hw : waiting 0 7 (visible ([] ++ (Lab.ev (Ev.issue 0 7 (.write 1 1 fun _ => 55)) ::
      (addWrite demoCfg (demoBoot mv) 0 7 1 1 (fun _ => 55) true).2))) := ⟨[], [], .write 1 1 fun _ => 55, rfl, fun e he => by simp at he⟩
  obtain ⟨l3, s', g1, g2, g3⟩ := C70_rest_reached hb (.nil _) hs
  refine ⟨mv, _, _, hb, .nil _, hs, hw, ?_, ?_, l3, s', g1, g2, g3, C70_every_schedule_answers hb (.nil _) hs hw g1 g3⟩
  · have r1 := Counted.useful (Counted.nil _) st trivial
    have st2 := Step.receiveFetch (c := demoCfg) (addWrite demoCfg (demoBoot mv) 0 7 1 1 (fun _ => 55) true).1 0 [.setWritten 0] rfl
    have r2 := r1.useful st2 trivial
    have st3 := Step.receiveWritten (c := demoCfg)
      (handleFetch { (addWrite demoCfg (demoBoot mv) 0 7 1 1 (fun _ => 55) true).1 with msgs := [.setWritten 0] } 0).1 0 [] rfl
    exact ⟨_, _, r2.useful st3 trivial⟩
  · intro hr
    exact hr _ _ _ (Step.receiveFetch (c := demoCfg) (addWrite demoCfg (demoBoot mv) 0 7 1 1 (fun _ => 55) true).1 0 [.setWritten 0] rfl) rfl rfl trivial

end Verif.Lazy
