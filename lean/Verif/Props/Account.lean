import Verif.Proof.Account
import Verif.Props.FrontSetup

/-! # C96: what the RPC server reports of a queue is what the guest has in flight -/

set_option maxRecDepth 8000

namespace Verif.Setup
open Verif Verif.Config Verif.Vhost Verif.Tracker

variable {t : Tuning} {dev : Bytes} {mem : GMem} {es : List VEv} {cs : List Call} {v : Vq} {queue : Nat}

/-! ## vhost -/

theorem snapshot_occupants {N : Nat} (hv : CInv v es cs) :
    (Trk.after N cs).snapshot.map describeEntry = ((List.range (N + 8)).filterMap (occupant v)).map fun p => seen p.2 := by
  rw [C42_snapshot_partial, List.map_filterMap]
  congr 1
  funext i
  exact (occupant_seen hv i).symm

/-- The list of a run, and what it leaves out. -/
theorem snapshot_rest {N : Nat} (hv : CInv v es cs) :
    ((Trk.after N cs).snapshot.map describeEntry ++
        (((List.range (v.slots.length - (N + 8))).map (N + 8 + ·)).filterMap (occupant v)).map fun p => seen p.2).Perm
      ((unanswered es).map fun p => seen p.2) := by
  rw [snapshot_occupants hv, ← List.map_append, ← List.filterMap_append, ← List.range_add]
  exact (occupants_perm hv (by omega)).map _

/-- C96, vhost, for a guest that keeps to what is announced (C95) and however it runs: the RPC server lists exactly the requests that were
passed to the disk and whose chains the guest has not got back, each once, with what the guest asked for. Missing: guests that do not
keep to it (`C96_any_guest`, `C96_false_beyond`). -/
theorem C96_vhost_partial (ht : t.validate = true) (h : CRun dev (thread t mem) es cs v)
    (hk : Keeps (ringMax t) t.segCountMax t.segSizeMax es) :
    ((Trk.after (vhostTracker t queue) cs).snapshot.map describeEntry).Perm ((unanswered es).map fun p => seen p.2) := by
  obtain ⟨hb, hb'⟩ := bufSize_eq ht
  have hv := crun_inv (show bufSize t < 2 ^ 32 by omega) h
  have hsz := sizes_keeps (by omega) (Nat.le_of_eq hb.symm) h.run hk
  have hlen : v.slots.length = t.queueSize := by
    have := congrArg List.length hsz
    simpa [sizes] using this
  rw [snapshot_occupants hv, C95_vhost_trackers]
  refine (occupants_perm hv ?_).map _
  rw [hlen]
  exact Nat.le_add_right _ _

/-- C96, vhost, for every guest: nothing is listed that is not in flight, and nothing twice. -/
theorem C96_any_guest (ht : t.validate = true) (h : CRun dev (thread t mem) es cs v) :
    ∃ rest, ((Trk.after (vhostTracker t queue) cs).snapshot.map describeEntry ++ rest).Perm ((unanswered es).map fun p => seen p.2) := by
  obtain ⟨hb, hb'⟩ := bufSize_eq ht
  exact ⟨_, snapshot_rest (crun_inv (show bufSize t < 2 ^ 32 by omega) h)⟩

/-- C96, vhost, for every guest: once all chains are given back the list is empty. -/
theorem C96_idle (ht : t.validate = true) (h : CRun dev (thread t mem) es cs v) (hall : ∀ u ∈ poppedIds es, u ∈ returnedIds es) :
    (Trk.after (vhostTracker t queue) cs).snapshot = [] := by
  obtain ⟨hb, hb'⟩ := bufSize_eq ht
  have hv := crun_inv (show bufSize t < 2 ^ 32 by omega) h
  obtain ⟨rest, hp⟩ := C96_any_guest (queue := queue) ht h
  have hun : unanswered es = [] := by
    cases hu : unanswered es with
    | nil => rfl
    | cons p l =>
      obtain ⟨i, s, h1, h2, _⟩ := (hv.mem p.1 p.2).mp (by rw [hu]; exact List.mem_cons_self ..)
      obtain ⟨a, b, _⟩ := hv.inv.slot i s h1
      refine absurd (hall s.uid ?_) b
      rw [hv.inv.pop]
      exact List.mem_range.mpr a
  rw [hun, List.map_nil] at hp
  have := List.perm_nil.mp hp
  exact List.map_eq_nil_iff.mp (List.append_eq_nil_iff.mp this).1

/-- C96, vhost, for every guest: the totals are those of the requests passed to the disk, each counted once, modulo 2^64; requests that are
refused are not counted. -/
theorem C96_counters (ht : t.validate = true) (h : CRun dev (thread t mem) es cs v) :
    (Trk.after (vhostTracker t queue) cs).stats =
      let s := totals (passed es)
      (s.1 % 2 ^ 64, s.2.1 % 2 ^ 64, s.2.2.1 % 2 ^ 64, s.2.2.2.1 % 2 ^ 64, s.2.2.2.2 % 2 ^ 64) := by
  obtain ⟨hb, hb'⟩ := bufSize_eq ht
  have := crun_totals (show bufSize t < 2 ^ 32 by omega) h
  rw [C42_counters, ← this]
  rfl

/-- C96 is false of guests that do not keep to the limits, whatever the settings: of `queue_size + 9` reads in flight at least one is not
listed. -/
theorem C96_false_beyond (ht : t.validate = true) :
    ∃ (mem : GMem) (es : List VEv) (cs : List Call) (v : Vq), CRun dev (thread t mem) es cs v ∧
      t.queueSize + 9 ≤ (unanswered es).length ∧ (Trk.after (vhostTracker t queue) cs).snapshot.length ≤ t.queueSize + 8 := by
  obtain ⟨hb, hb'⟩ := bufSize_eq ht
  have hlt : bufSize t < hugeLen := by unfold hugeLen; omega
  have h32 : bufSize t < 2 ^ 32 := by omega
  obtain ⟨es, v, hr, _, hsz, hused, _, _⟩ := huge_run dev t.queueSize (bufSize t) hlt (t.queueSize + 9)
  obtain ⟨cs, hc⟩ := hr.calls
  have hv := crun_inv h32 hc
  refine ⟨_, es, cs, v, hc, ?_, ?_⟩
  · have hlen : v.slots.length = t.queueSize + (t.queueSize + 9) := by
      have := congrArg List.length hsz
      simpa [sizes] using this
    rw [← (occupants_perm hv (Nat.le_refl _)).length_eq, hlen, List.range_add, List.filterMap_append, List.length_append]
    have : ((List.map (t.queueSize + ·) (List.range (t.queueSize + 9))).filterMap (occupant v)).length = t.queueSize + 9 := by
      rw [List.length_filterMap_eq_countP, List.countP_eq_length.mpr]
      · simp
      · intro i hi
        obtain ⟨j, hj, rfl⟩ := List.mem_map.mp hi
        rw [List.mem_range] at hj
        have hlt' : t.queueSize + j < v.slots.length := by omega
        have hg := List.getElem?_eq_getElem hlt'
        have hb2 : (v.slots[t.queueSize + j]).buf.length = hugeLen := by
          have h1 : (sizes v)[t.queueSize + j]? = some (v.slots[t.queueSize + j]).buf.length := by
            unfold sizes; rw [List.getElem?_map, hg]; rfl
          rw [hsz, List.getElem?_append_right (by simp), List.getElem?_replicate] at h1
          simp only [List.length_replicate] at h1
          rw [if_pos (by omega)] at h1
          exact (Option.some.inj h1).symm
        have hu : (v.slots[t.queueSize + j]).used = true := by
          rcases hused _ (List.getElem_mem hlt') with h | h
          · omega
          · exact h
        have hh : held v (t.queueSize + j) = some v.slots[t.queueSize + j] := held_some.mpr ⟨hg, hu⟩
        obtain ⟨_, _, _, m, r, ds, q, _, _, _, _, hq, _⟩ := hv.inv.slot _ _ hh
        rw [occupant_some.mpr ⟨_, hh, rfl, hq⟩]
        rfl
    omega
  · rw [Trk.snapshot, C95_vhost_trackers]
    refine Nat.le_trans (List.length_filterMap_le _ _) ?_
    rw [after_length]
    exact Nat.le_refl _

end Verif.Setup

namespace Verif.Ublk
open Verif Verif.Disk Verif.Vhost Verif.Tracker

variable {maxIo depth size : Nat} {fails : Bool} {u : Ub} {es : List UEv} {cs : List Call}

/-! ## ublk -/

theorem filterMap_range_le {β : Type} {f : Nat → Option β} {d N : Nat} (hd : d ≤ N) (h : ∀ i, d ≤ i → f i = none) :
    (List.range N).filterMap f = (List.range d).filterMap f := by
  obtain ⟨k, rfl⟩ := Nat.exists_eq_add_of_le hd
  rw [List.range_add, List.filterMap_append]
  have : ((List.range k).map (d + ·)).filterMap f = [] := by
    rw [List.filterMap_eq_nil_iff]
    intro i hi
    obtain ⟨j, _, rfl⟩ := List.mem_map.mp hi
    exact h _ (Nat.le_add_right _ _)
  rw [this, List.append_nil]

theorem filterMap_sublist {α β : Type} {f g : α → Option β} (l : List α) (h : ∀ a b, f a = some b → g a = some b) :
    (l.filterMap f).Sublist (l.filterMap g) := by
  induction l with
  | nil => exact .slnil
  | cons a l ih =>
    rw [List.filterMap_cons, List.filterMap_cons]
    cases hf : f a with
    | none =>
      cases hg : g a with
      | none => exact ih
      | some b => exact ih.cons b
    | some b => rw [h a b hf]; exact ih.cons_cons b

theorem beyond_depth (hv : UInv depth fails u es cs) (id : Nat) (h : depth ≤ id) : unanswered es id = none := by
  refine hv.idle id ?_
  cases hi : u.inflight id with
  | none => rfl
  | some rq => have := (hv.infl id rq hi).2.2; omega

/-- C96, ublk, while no submission fails: the RPC server lists exactly the requests that were passed to the disk and that the kernel has not
got back, by tag, with what the kernel asked for. Missing: failed submissions (`C96_ublk_listed`, `C96_false_submit`). -/
theorem C96_ublk_partial (h : CRun maxIo depth false es cs u) (hd : depth ≤ size) :
    (Trk.after size cs).snapshot.map describeEntry = (List.range depth).filterMap fun tag => (unanswered es tag).map seen := by
  have hv := crun_inv h
  rw [C42_snapshot_partial, ← filterMap_range_le (d := depth) (N := size + 8) (by omega)]
  · congr 1
    funext i
    cases hi : u.inflight i with
    | none => rw [hv.clean rfl i hi, hv.idle i hi]; rfl
    | some rq =>
      obtain ⟨q, h1, h2⟩ := hv.live i (by rw [hi]; simp)
      rw [h1, h2]; rfl
  · intro i hi
    rw [beyond_depth hv i hi]; rfl

/-- C96, ublk, also when submissions fail: every request in flight is listed. -/
theorem C96_ublk_listed (h : CRun maxIo depth fails es cs u) (hd : depth ≤ size) :
    ((List.range depth).filterMap fun tag => (unanswered es tag).map seen).Sublist ((Trk.after size cs).snapshot.map describeEntry) := by
  have hv := crun_inv h
  rw [C42_snapshot_partial, ← filterMap_range_le (d := depth) (N := size + 8) (by omega)]
  · refine filterMap_sublist _ ?_
    intro i b hb
    rw [Option.map_eq_some_iff] at hb
    obtain ⟨q, hq, rfl⟩ := hb
    have hne : u.inflight i ≠ none := by
      intro hi
      rw [hv.idle i hi] at hq; cases hq
    obtain ⟨q', h1, h2⟩ := hv.live i hne
    rw [hq] at h1
    rw [h2, Option.some.inj h1]
  · intro i hi
    rw [beyond_depth hv i hi]; rfl

/-- C96, ublk, also when submissions fail: the totals are those of the requests passed to the disk. -/
theorem C96_ublk_counters (h : CRun maxIo depth fails es cs u) :
    (Trk.after size cs).stats =
      let s := totals (passed es)
      (s.1 % 2 ^ 64, s.2.1 % 2 ^ 64, s.2.2.1 % 2 ^ 64, s.2.2.2.1 % 2 ^ 64, s.2.2.2.2 % 2 ^ 64) := by
  rw [C42_counters, ← crun_totals h]
  rfl

/-- A read of sector 7 on tag 3, passed to the disk. -/
theorem demo_enqueued (fails : Bool) : ∃ (es : List UEv) (cs : List Call) (u : Ub), CRun 1024 8 fails es cs u ∧ u.looping = true ∧ u.pending = [] ∧
    u.queued = true ∧ unanswered es 3 = some (.read 7 1) ∧ (∀ tag, tag ≠ 3 → unanswered es tag = none) ∧
    u.inflight 3 ≠ none ∧ cs = [.read 3 7 1] := by
  have hq : devReq { (handle 1024 (Ub.init 1024) 0 7 1 3 true (zeros 1024)).1 with pending := [] } ⟨.read, 7, 1, 3, 512⟩
      = some (.read 7 1) := by simp [devReq, handle, Ub.init]
  have r1 : CRun 1024 8 fails _ _ _ := .snoc .nil (.arrive _ 0 7 1 3 true (zeros 1024) rfl rfl (by decide) (by simp))
  have r2 : CRun 1024 8 fails _ _ _ := .snoc r1 (.enqueue _ ⟨.read, 7, 1, 3, 512⟩ [] rfl rfl)
  rw [enqueueCalls_some hq] at r2
  simp only [enqueue, hq] at r2
  refine ⟨_, _, _, r2, rfl, rfl, rfl, ?_, ?_, ?_, rfl⟩
  · rfl
  · intro tag ht
    simp only [unanswered_append]
    exact upd_ne _ _ ht
  · simp only [upd_same]; simp

/-- C96 is false of ublk when a submission fails: the read is completed with an error, nothing is in flight and the kernel waits for nothing,
but the RPC server goes on listing it. -/
theorem C96_false_submit : ∃ (es : List UEv) (cs : List Call) (u : Ub), CRun 1024 8 true es cs u ∧ u.looping = false ∧ u.pending = [] ∧
    (∃ buf, UEv.complete 3 none buf ∈ es) ∧ (∀ tag, unanswered es tag = none) ∧ (Trk.after 8 cs).snapshot = [(.read, 7, 1)] := by
  obtain ⟨es, cs, u, h, h1, h2, h3, h4, h5, h6, rfl⟩ := demo_enqueued true
  have hs := CRun.snoc h (.submitFail u rfl h1 h2 h3)
  have hv := crun_inv hs
  obtain ⟨a, b, _, _, e, _⟩ := failAll_spec (List.range 8) { u with queued := false, looping := false } (unanswered es)
  have hun : ∀ tag, unanswered (es ++ (failAll { u with queued := false, looping := false } (List.range 8)).2) tag = none := by
    intro tag
    rw [unanswered_append, e]
    by_cases ht : tag = 3
    · subst ht; rw [if_pos ⟨by decide, h6⟩]
    · rw [h5 tag ht]; split <;> rfl
  refine ⟨_, _, _, hs, ?_, ?_, ?_, hun, by decide +kernel⟩
  · have : ∀ (tags : List Nat) (w : Ub), (failAll w tags).1.looping = w.looping := by
      intro tags
      induction tags with
      | nil => intro w; rfl
      | cons x xs ih =>
        intro w
        unfold failAll
        split
        · exact ih w
        · exact ih _
    rw [this]
  · rw [a]; exact h2
  · have : ∀ (tags : List Nat) (w : Ub), 3 ∈ tags → w.inflight 3 ≠ none → ∃ buf, UEv.complete 3 none buf ∈ (failAll w tags).2 := by
      intro tags
      induction tags with
      | nil => intro w hm; cases hm
      | cons x xs ih =>
        intro w hm hne
        unfold failAll
        cases hx : w.inflight x with
        | none =>
          refine ih w ?_ hne
          rcases List.mem_cons.mp hm with rfl | hm
          · exact absurd hx hne
          · exact hm
        | some rq =>
          simp only [finish]
          by_cases hx3 : x = 3
          · subst hx3; exact ⟨_, List.mem_append_left _ (List.mem_singleton.mpr rfl)⟩
          · have h3x : (3 : Nat) ≠ x := Ne.symm hx3
            obtain ⟨buf, hb⟩ := ih { w with inflight := upd w.inflight x none, out := upd w.out x none } (by
              rcases List.mem_cons.mp hm with h | hm
              · exact absurd h h3x
              · exact hm) (by simp only [upd_ne _ _ h3x]; exact hne)
            exact ⟨buf, List.mem_append_right _ hb⟩
    obtain ⟨buf, hb⟩ := this (List.range 8) { u with queued := false, looping := false } (by decide) h6
    exact ⟨buf, List.mem_append_right _ hb⟩

/-- While the read is at the disk it is listed, and counted as 512 bytes. -/
example : ∃ es cs u, CRun 1024 8 false es cs u ∧ (Trk.after 8 cs).snapshot.map describeEntry = [(.read, some (7, 1))] ∧
    (Trk.after 8 cs).stats = (512, 0, 1, 0, 0) := by
  obtain ⟨es, cs, u, h, h1, h2, h3, h4, h5, h6, hcs⟩ := demo_enqueued false
  refine ⟨es, cs, u, h, ?_, by rw [hcs]; decide +kernel⟩
  rw [C96_ublk_partial h (Nat.le_refl 8)]
  have : (fun tag => (unanswered es tag).map seen) = fun tag => if tag = 3 then some (Tracker.Kind.read, some (7, 1)) else none := by
    funext tag
    by_cases ht : tag = 3
    · subst ht; rw [h4]; rfl
    · rw [h5 tag ht, if_neg ht]; rfl
  rw [this]
  decide +kernel

end Verif.Ublk

namespace Verif.Setup
open Verif Verif.Config Verif.Vhost Verif.Tracker

/-- A guest that keeps to the limits reads 512 bytes of sector 3: the read is listed while it is in flight. -/
example : ∃ es cs v, CRun [65] (thread demoTuning (demoMem0 0 3)) es cs v ∧ Keeps 128 4 65536 es ∧ poppedIds es = [0] ∧
    ((Trk.after 128 cs).snapshot.map describeEntry) = [(.read, some (3, 1))] := by
  have hp : parse (demoMem0 0 3) (demoChain [(1000, 500, true), (2000, 12, true)]) = .ok ⟨.in, [(1000, 500), (2000, 12)], 3, 4000⟩ := demo_read_parsed
  obtain ⟨v, id, hc⟩ : ∃ v id, processChain [65] (thread demoTuning (demoMem0 0 3)) 7 (demoChain [(1000, 500, true), (2000, 12, true)]) =
      .ok (v, [.dev id (.read 3 1)]) := by
    unfold processChain
    simp only [thread, Vq.init, hp, processRead]
    rw [if_neg (by decide)]
    exact ⟨_, _, rfl⟩
  have hr := CRun.snoc (.nil _) (CStep.pop _ _ 7 _ _ (by decide) hc)
  have hk : Keeps 128 4 65536 ([] ++ [VEv.popped (thread demoTuning (demoMem0 0 3)).popped 7 (demoChain [(1000, 500, true), (2000, 12, true)]),
      .dev id (.read 3 1)]) := by
    intro before after u h ds heq
    rw [List.nil_append] at heq
    cases before with
    | nil =>
      simp only [List.nil_append, List.cons.injEq, VEv.popped.injEq] at heq
      obtain ⟨⟨_, _, rfl⟩, _⟩ := heq
      refine ⟨by decide, ?_, ?_⟩
      · rw [(demo_data _).1]; decide
      · rw [(demo_data _).1]; decide
    | cons b bs =>
      simp only [List.cons_append, List.cons.injEq] at heq
      cases bs with
      | nil => simp at heq
      | cons c cs => simp at heq
  refine ⟨_, _, v, hr, hk, rfl, ?_⟩
  have := C96_vhost_partial (queue := 0) demo_valid hr hk
  rw [unanswered_hold] at this
  exact List.perm_singleton.mp this

end Verif.Setup
