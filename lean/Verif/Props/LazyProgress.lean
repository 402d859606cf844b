import Verif.Proof.LazyStuck
import Verif.Proof.LazyDemo

/-! # C16: queued requests can always make progress

The claim is false of the code: a metadata update that fails is not tried again, and the stripe it was about stays
"not fetched" for the rest of the process (`C16_false`, and for every such failure `C16_lost_update_blocks`).
Without lost metadata updates it holds (`C16_request_can_be_answered_partial`): whatever failed at the source, the data
disk, the image or in earlier lives of the backend, some continuation answers the request. -/

set_option maxRecDepth 8000

namespace Verif.Lazy
open Verif Verif.Metadata Verif.Disk

variable {D : Type} {c : Cfg D} {hdrs hdrs' : Bytes} {tv tv' : Nat → D} {mv mv' : Nat → Bytes} {b0 b0' : Nat → Nat → D}
  {s s' : Sys D} {ls ls' : List (Lab D)} {a : Act D}

/-- **C16, the part that holds.** Take any history of the volume (`l1`, with power losses and failures of every kind) up to a
start of the backend, and any run after that in which no metadata update was lost. A request that was issued and not yet
answered can still be answered, without the guest doing anything.
Missing from the full statement: runs in which a metadata update was lost since the last start; there the claim is false. -/
theorem C16_request_can_be_answered_partial (hb : Bootable c hdrs mv) {l1 l2 : List (Lab D)}
    (h1 : Run c (Sys.boot c hdrs tv mv b0) l1 (Sys.boot c hdrs' tv' mv' b0')) (h2 : Steady c (Sys.boot c hdrs' tv' mv' b0') l2 s)
    {q id : Nat} (hw : waiting q id (visible l2)) :
    ∃ l3 s', Steady c s l3 s' ∧ answeredIn q id (visible l3) ∧ noIssue (visible l3) := by
  have hs0 : Sound c (Sys.boot c hdrs' tv' mv' b0') := (Sound.boot hb).run h1
  have hr : Ready c s := (Ready.boot hs0).run h2
  obtain ⟨-, hfam⟩ := run_sim hb rfl (h1.trans h2.alive.run)
  obtain ⟨gg, ab, hpin, hd, hsim⟩ := hfam.sim
  have ho := waiting_ops hd (Steady.visible_waiting (l1 := l1) hw)
  refine answer hr fun hfree => ?_
  rcases hsim.free q id (locs_zero.mpr hfree) with h | h
  · exact ho h
  · simp at h

/-- The hypotheses are met by a request that waits for a stripe nobody has asked for yet. -/
example : ∃ (mv : Nat → Bytes) (l2 : List (Lab Nat)) (s : Sys Nat), Bootable demoCfg [4, 0] mv ∧
    Run demoCfg (demoBoot mv) [] (demoBoot mv) ∧ Steady demoCfg (demoBoot mv) l2 s ∧ waiting 0 7 (visible l2) ∧
    (s.ch 0).queue = [demoWrite] ∧ s.sh.fs 0 = .notFetched := by
  obtain ⟨mv, hb⟩ := demo_bootable
  have st := Step.write (c := demoCfg) (demoBoot mv) 0 7 1 1 (fun _ => 55) true ⟨by decide, by decide, by decide⟩
    ⟨rfl, rfl, (by intro r hr; cases hr), (by intro r hr; cases hr)⟩
  exact ⟨mv, _, _, hb, .nil _, .one st rfl, ⟨[], [], .write 1 1 fun _ => 55, rfl, fun e he => by simp at he⟩, rfl, rfl⟩

/-- The update that would have announced stripe `k` as fetched is lost by this step: its write or its flush failed, or the
device did not accept them. -/
def losesFetched (s : Sys D) (k : Nat) : Act D → Prop
  | .metaDone j ok submitOk => j = k ∧ ∃ u, s.fl.updates k = some u ∧ u.mask = FETCHED ∧
      (ok = false ∨ (u.stage = .writing ∧ submitOk = false))
  | .startMeta submitOk => submitOk = false ∧ (∃ q, s.fl.queue = (k, FETCHED) :: q) ∧ flag (s.fl.hdrs.getD k 0) FETCHED = false
  | _ => False

theorem losesFetched.stuck (hs : Sound c s) (ht : TokInv s) (hst : Step c s a ls' s') {k : Nat} (hl : losesFetched s k a)
    (hn : s.sh.fs k = .notFetched) : Stuck s' k := by
  cases hst with
  | metaDone j ok b h =>
    obtain ⟨rfl, u, hu, hmk, hf⟩ := hl
    refine lost_stuck hs ht hu hmk ?_ hn
    rcases hf with rfl | ⟨h1, rfl⟩
    · rfl
    · rw [h1]; cases ok <;> rfl
  | startMeta b _ h =>
    obtain ⟨rfl, ⟨q, hq⟩, hfl⟩ := hl
    exact lost_stuck' hs ht hq hfl h hn
  | _ => exact hl.elim

/-- **C16 fails after every lost FETCHED update.** If in any reachable state the update that would announce stripe `k` is lost
while guests are told to wait for it, then a request `r0` that waits for stripe `k` (its earlier stripes being local) and
every request `r` behind it on the same queue get no answer as long as the backend runs. -/
theorem C16_lost_update_blocks (hb : Bootable c hdrs mv) (h : Run c (Sys.boot c hdrs tv mv b0) ls s) (hst : Step c s a ls' s')
    {k : Nat} (hl : losesFetched s k a) (hn : s.sh.fs k = .notFetched) {q : Nat} {r0 r : QReq D} {pre post : List (QReq D)}
    (hq : (s'.ch q).queue = pre ++ r0 :: post) (hr : r ∈ r0 :: post) {ks1 ks2 : List Nat} (hk : stripes c r0 = ks1 ++ k :: ks2)
    (hloc : ∀ j ∈ ks1, s'.sh.isLocal j = true) {l : List (Lab D)} {s2 : Sys D} (ha : Alive c s' l s2) :
    ¬ answeredIn q r.id (visible l) := by
  have hs := (Sound.boot (tv := tv) (b0 := b0) hb).run h
  have ht : TokInv s := TokInv.boot.run (Sound.boot hb) h
  exact (Blocked.silent (hs.step hst) (k := k) ⟨hl.stuck hs ht hst hn, ⟨pre, post, hq, hr⟩, ks1, ks2, hk, hloc⟩ ha).2

/-- A reachable state in which the FETCHED update of stripe 0 is in flight and write 7 waits for it. -/
theorem demo_announce (mv : Nat → Bytes) : ∃ (s : Sys Nat) (u : Update), Reach demoCfg (demoBoot mv) [.issue 0 7 (.write 1 1 fun _ => 55)] s ∧
    s.fl.updates 0 = some u ∧ u.mask = FETCHED ∧ u.stage = .writing ∧ s.sh.fs 0 = .notFetched ∧ (s.ch 0).queue = [demoWrite] ∧
    s.m.mayComplete 0 false := by
  obtain ⟨s, r, h1, h2, h3, h4, h5, h6, h7, h8, h9, -⟩ := demo_fetch mv
  obtain ⟨s1, r, g1, g2, g3, g4, g5, g6, g7, g8, -⟩ := demo_meta r h4 h5 h6 (by rw [h3]; decide) false true (by rw [h3]; decide) (by rw [h3]; decide)
  rw [h3] at g4
  have r := r.quiet (Step.startMeta _ true _ (startMeta_go g1 g2 g3 (by rw [g4]; decide)))
  exact ⟨_, _, r, rfl, rfl, rfl, by show s1.sh.fs 0 = _; rw [g5]; exact h1, by show (s1.ch 0).queue = _; rw [g7, h9],
    ⟨_, rfl, by simp⟩⟩

/-- The hypotheses of `C16_lost_update_blocks` are met. -/
example : ∃ (mv : Nat → Bytes) (ls : List (Lab Nat)) (s s' : Sys Nat) (a : Act Nat), Bootable demoCfg [4, 0] mv ∧
    Run demoCfg (demoBoot mv) ls s ∧ Step demoCfg s a [] s' ∧ losesFetched s 0 a ∧ s.sh.fs 0 = .notFetched ∧
    (s'.ch 0).queue = [] ++ demoWrite :: [] ∧ stripes demoCfg demoWrite = [] ++ 0 :: [] := by
  obtain ⟨mv, hb⟩ := demo_bootable
  obtain ⟨s, u, ⟨ls, hr, -⟩, h1, h2, h3, h4, h5, h6⟩ := demo_announce mv
  exact ⟨mv, ls, s, _, _, hb, hr, .metaDone s 0 false true h6, ⟨rfl, u, h1, h2, Or.inl rfl⟩, h4, by simpa using h5, by decide⟩

/-- **C16 is false** of the code as it is: there is a reachable state with a waiting request that no continuation answers. -/
theorem C16_false : ¬ ∀ (c : Cfg Nat) (hdrs : Bytes) (tv : Nat → Nat) (mv : Nat → Bytes) (b0 : Nat → Nat → Nat) (ls : List (Lab Nat))
    (s : Sys Nat) (q id : Nat), Bootable c hdrs mv → Run c (Sys.boot c hdrs tv mv b0) ls s → waiting q id (visible ls) →
    ∃ l s', Alive c s l s' ∧ answeredIn q id (visible l) := by
  intro hall
  obtain ⟨mv, hb⟩ := demo_bootable
  obtain ⟨s, u, ⟨ls, hr, hv⟩, h1, h2, h3, h4, h5, h6⟩ := demo_announce mv
  have hst := Step.metaDone (c := demoCfg) s 0 false true h6
  obtain ⟨l, s2, ha, han⟩ := hall demoCfg [4, 0] _ mv _ (ls ++ []) _ 0 7 hb (hr.step hst)
    ⟨[], [], .write 1 1 fun _ => 55, by rw [visible_append, hv]; rfl, fun e he => by simp at he⟩
  exact C16_lost_update_blocks hb hr hst (k := 0) ⟨rfl, u, h1, h2, Or.inl rfl⟩ h4 (q := 0) (r0 := demoWrite) (r := demoWrite)
    (pre := []) (post := []) (by simpa using h5) (by simp) (ks1 := []) (ks2 := []) (by decide) (by simp) ha han

end Verif.Lazy
